import Verif.Codec.Props
import Verif.Ope.Props

/-!
# Property C52: storing numbers in the order-preserving column
-/

namespace EulerDB.Codec

open EulerDB EulerDB.Ope

/-- What INSERT stores in the order-preserving column of a float column: `OPECipher(key).encrypt(int(encode(v, 'float')))`,
scheduler/handers/clause/sql_values.py 24-26. -/
def storeFloat (k : Key) (v : ℚ) : Except PyErr Int := (opeCipher k).encrypt (encodeFloat v)

/-- The same for a double column. -/
def storeDouble (k : Key) (v : ℚ) : Except PyErr Int :=
  match encodeDouble v with
  | .error e => .error e
  | .ok m => (opeCipher k).encrypt m

theorem trunc_le_of_nonneg {x : ℚ} {n : Int} (h0 : 0 ≤ x) (h : x < n + 1) : trunc x ≤ n := by
  unfold trunc
  rw [if_neg (by linarith)]
  have := Int.floor_lt.2 (show x < ((n + 1 : Int) : ℚ) by push_cast; exact h)
  omega

theorem le_trunc_of_nonneg {x : ℚ} {n : Int} (h0 : 0 ≤ x) (h : (n : ℚ) ≤ x) : n ≤ trunc x := by
  unfold trunc
  rw [if_neg (by linarith)]
  exact Int.le_floor.2 h

theorem trunc_neg' {x : ℚ} : trunc (-x) = -trunc x := by
  unfold trunc
  rcases lt_trichotomy x 0 with h | h | h
  · rw [if_neg (by linarith), if_pos h]; omega
  · subst h; simp
  · rw [if_pos (by linarith), if_neg (by linarith), neg_neg]

theorem encode_small {v : ℚ} (h : |v| ≤ 9223372) : -2 ^ 63 ≤ trunc (v * 10 ^ 12) ∧ trunc (v * 10 ^ 12) ≤ 2 ^ 63 - 1 := by
  rw [abs_le] at h
  rcases le_or_gt 0 v with h0 | h0
  · have a := trunc_le_of_nonneg (x := v * 10 ^ 12) (n := 9223372000000000000) (by positivity) (by push_cast; linarith [h.2])
    have b := le_trunc_of_nonneg (x := v * 10 ^ 12) (n := 0) (by positivity) (by push_cast; positivity)
    omega
  · have e : trunc (v * 10 ^ 12) = -trunc ((-v) * 10 ^ 12) := by
      rw [show v * 10 ^ 12 = -((-v) * 10 ^ 12) by ring, trunc_neg']
    have hv : 0 ≤ -v := by linarith
    have a := trunc_le_of_nonneg (x := (-v) * 10 ^ 12) (n := 9223372000000000000) (by positivity) (by push_cast; linarith [h.1])
    have b := le_trunc_of_nonneg (x := (-v) * 10 ^ 12) (n := 0) (by positivity) (by push_cast; positivity)
    omega

theorem encode_large {v : ℚ} (h : 9223373 ≤ |v|) : trunc (v * 10 ^ 12) < -2 ^ 63 ∨ 2 ^ 63 - 1 < trunc (v * 10 ^ 12) := by
  rcases le_or_gt 0 v with h0 | h0
  · rw [abs_of_nonneg h0] at h
    have b := le_trunc_of_nonneg (x := v * 10 ^ 12) (n := 9223373000000000000) (by positivity) (by push_cast; linarith)
    omega
  · rw [abs_of_neg h0] at h
    have e : trunc (v * 10 ^ 12) = -trunc ((-v) * 10 ^ 12) := by
      rw [show v * 10 ^ 12 = -((-v) * 10 ^ 12) by ring, trunc_neg']
    have hv : 0 ≤ -v := by linarith
    have b := le_trunc_of_nonneg (x := (-v) * 10 ^ 12) (n := 9223373000000000000) (by positivity) (by push_cast; linarith)
    omega

theorem out_of_range (k : Key) {m : Int} (h : m < -2 ^ 63 ∨ 2 ^ 63 - 1 < m) : (opeCipher k).encrypt m = .error .outOfRange :=
  C03_ope_rejects_outside (opeCipher k) m (by simp only [opeCipher, defaultRange]; omega)

/-- C52, the part that holds: every value up to 9223372 can be stored in the order-preserving column of a float or double column, with
every key. -/
theorem C52_store_partial (k : Key) (v : ℚ) (h : |v| ≤ 9223372) :
    (∃ c, storeFloat k v = .ok c) ∧ ∃ c, storeDouble k v = .ok c := by
  obtain ⟨a, b⟩ := encode_small h
  refine ⟨⟨_, C04_fails_ope_is_identity k _ a b⟩, trunc (v * 10 ^ 12), ?_⟩
  have hs : stretch v = .ok v := by
    rw [abs_le] at h
    unfold stretch stretchPos
    split
    · rw [if_pos ⟨by norm_num; linarith [h.1], by linarith⟩]; simp
    · rw [if_pos ⟨by norm_num; linarith [h.2], by linarith⟩]
  unfold storeDouble encodeDouble
  rw [hs]
  exact C04_fails_ope_is_identity k _ a b

/-- On that part the stored numbers are ordered like the values (up to the 12 decimals kept). -/
theorem C52_order_partial (k : Key) (v w : ℚ) (hv : |v| ≤ 9223372) (hw : |w| ≤ 9223372) (hle : v ≤ w) :
    ∃ c d, storeFloat k v = .ok c ∧ storeFloat k w = .ok d ∧ c ≤ d := by
  obtain ⟨a, b⟩ := encode_small hv
  obtain ⟨a', b'⟩ := encode_small hw
  exact ⟨_, _, C04_fails_ope_is_identity k _ a b, C04_fails_ope_is_identity k _ a' b', (C10_float_monotone v w).1 hle⟩

/-- **C52 fails.** No float of magnitude 9223373 or more can be stored in the order-preserving column, with any key: INSERT raises
OutOfRangeError.  (FLOAT holds values up to 3.4e38.) -/
theorem C52_fails_float (k : Key) (v : ℚ) (h : 9223373 ≤ |v|) : storeFloat k v = .error .outOfRange :=
  out_of_range k (encode_large h)

/-- The result of `stretchPos` is at least 9223373 whenever the argument is. -/
theorem stretchPos_ge {v x : ℚ} (h : 9223373 ≤ v) (hs : stretchPos v = .ok x) : 9223373 ≤ x := by
  unfold stretchPos at hs
  split at hs
  · injection hs with hs; linarith
  · split at hs
    · rename_i h1 h2
      injection hs with hs
      have : 0 ≤ (v - 10 ^ 15) / (10 ^ 42 - 10 ^ 15) * (10 ^ 19 - 10 ^ 15) :=
        mul_nonneg (div_nonneg (by linarith [h2.2]) (by norm_num)) (by norm_num)
      norm_num at this hs ⊢; linarith
    · split at hs
      · rename_i h1 h2 h3
        injection hs with hs
        have : 0 ≤ (v - 10 ^ 42) / (10 ^ 56 - 10 ^ 42) * (10 ^ 22 - 10 ^ 19) :=
          mul_nonneg (div_nonneg (by linarith [h3.2]) (by norm_num)) (by norm_num)
        norm_num at this hs ⊢; linarith
      · split at hs
        · rename_i h1 h2 h3 h4
          injection hs with hs
          have : 0 ≤ (v - 10 ^ 56) / (10 ^ 65 - 10 ^ 56) * (10 ^ 24 - 10 ^ 22) :=
            mul_nonneg (div_nonneg (by linarith [h4.2]) (by norm_num)) (by norm_num)
          norm_num at this hs ⊢; linarith
        · cases hs

/-- **C52 fails** for double columns as well: the stretching does not bring the value into the range of the cipher. -/
theorem C52_fails_double (k : Key) (v : ℚ) (h : 9223373 ≤ |v|) : ∃ e, storeDouble k v = .error e := by
  unfold storeDouble encodeDouble
  cases hs : stretch v with
  | error e => exact ⟨e, rfl⟩
  | ok x =>
    refine ⟨.outOfRange, out_of_range k (encode_large ?_)⟩
    unfold stretch at hs
    split at hs
    · rename_i h0
      rw [abs_of_neg h0] at h
      cases hp : stretchPos (-v) with
      | error e => rw [hp] at hs; cases hs
      | ok y =>
        rw [hp] at hs
        injection hs with hs
        have := stretchPos_ge h hp
        rw [← hs, abs_neg]
        exact le_trans this (le_abs_self y)
    · rename_i h0
      rw [abs_of_nonneg (not_lt.1 h0)] at h
      exact le_trans (stretchPos_ge h hs) (le_abs_self x)

example : |(1234567.5 : ℚ)| ≤ 9223372 ∧ 9223373 ≤ |(10000000 : ℚ)| := by norm_num [abs_of_pos]

end EulerDB.Codec
