import Verif.Codec.Model

/-!
# Properties C10-C12: fixed-point encoding of float and double columns
-/

namespace EulerDB.Codec

open EulerDB

/-! ## Truncation -/

theorem trunc_bounds (x : ℚ) : |(trunc x : ℚ) - x| < 1 ∧ |(trunc x : ℚ)| ≤ |x| := by
  unfold trunc
  split
  · rename_i h
    have h1 := Int.floor_le (-x)
    have h2 := Int.lt_floor_add_one (-x)
    have h3 : (0 : ℤ) ≤ ⌊-x⌋ := Int.floor_nonneg.2 (by linarith)
    have h3' : (0 : ℚ) ≤ (⌊-x⌋ : ℚ) := by exact_mod_cast h3
    push_cast
    constructor
    · rw [abs_lt]; constructor <;> linarith
    · rw [abs_neg, abs_of_nonneg h3', abs_of_neg h]; exact h1
  · rename_i h
    have h1 := Int.floor_le x
    have h2 := Int.lt_floor_add_one x
    have h3 : (0 : ℤ) ≤ ⌊x⌋ := Int.floor_nonneg.2 (by linarith)
    have h3' : (0 : ℚ) ≤ (⌊x⌋ : ℚ) := by exact_mod_cast h3
    constructor
    · rw [abs_lt]; constructor <;> linarith
    · rw [abs_of_nonneg h3', abs_of_nonneg (by linarith)]; exact h1

theorem trunc_int (n : Int) : trunc (n : ℚ) = n := by
  unfold trunc
  split
  · rw [show (-(n : ℚ)) = ((-n : ℤ) : ℚ) by push_cast; rfl, Int.floor_intCast]; omega
  · rw [Int.floor_intCast]

theorem trunc_mono {x y : ℚ} (h : x ≤ y) : trunc x ≤ trunc y := by
  unfold trunc
  split <;> split
  · have := Int.floor_le_floor (show -y ≤ -x by linarith); omega
  · rename_i h1 h2
    have := Int.floor_nonneg.2 (show (0 : ℚ) ≤ -x by linarith)
    have := Int.floor_nonneg.2 (show (0 : ℚ) ≤ y by linarith)
    omega
  · linarith
  · exact Int.floor_le_floor h

/-! ## C10 -/

/-- **C10.** The decoded value of a float column differs from the original by less than 10^-12. -/
theorem C10_float_roundtrip_error (v : ℚ) : |decodeFloat (encodeFloat v) - v| < 1 / 10 ^ 12 := by
  unfold decodeFloat encodeFloat
  have h := (trunc_bounds (v * 10 ^ 12)).1
  rw [abs_lt] at h ⊢
  constructor <;> [have := h.1; have := h.2] <;> norm_num at this ⊢ <;> linarith

/-- **C10.** It is exact when the value has at most 12 decimals. -/
theorem C10_float_roundtrip_exact (v : ℚ) (n : Int) (h : v * 10 ^ 12 = n) : decodeFloat (encodeFloat v) = v := by
  unfold decodeFloat encodeFloat
  rw [h, trunc_int, ← h]
  field_simp

/-- **C10.** The encoding is monotone, so the order-preserving column sorts like the values; values 10^-12 apart
stay apart. -/
theorem C10_float_monotone (v w : ℚ) :
    (v ≤ w → encodeFloat v ≤ encodeFloat w) ∧ (v + 1 / 10 ^ 12 ≤ w → 0 ≤ v → encodeFloat v < encodeFloat w) := by
  constructor
  · intro h
    exact trunc_mono (by linarith)
  · intro h hv
    unfold encodeFloat trunc
    rw [if_neg (by linarith), if_neg (by linarith)]
    have h2 : v * 10 ^ 12 + 1 ≤ w * 10 ^ 12 := by linarith
    have := Int.floor_le_floor h2
    rw [Int.floor_add_one] at this
    omega

/-! ## C12 -/

theorem stretchPos_ok {v : ℚ} (h0 : 0 ≤ v) (h : v ≤ 10 ^ 65) : ∃ x, stretchPos v = .ok x ∧ 0 ≤ x ∧ x ≤ 10 ^ 24 := by
  unfold stretchPos
  split_ifs with h1 h2 h3 h4
  · exact ⟨_, rfl, h1.2, by norm_num at *; linarith [h1.1]⟩
  · exact ⟨_, rfl, by norm_num at *; linarith [h2.1, h2.2], by norm_num at *; linarith [h2.1, h2.2]⟩
  · exact ⟨_, rfl, by norm_num at *; linarith [h3.1, h3.2], by norm_num at *; linarith [h3.1, h3.2]⟩
  · exact ⟨_, rfl, by norm_num at *; linarith [h4.1, h4.2], by norm_num at *; linarith [h4.1, h4.2]⟩
  · exfalso
    push Not at h1 h2 h3 h4
    by_cases a : v ≤ 10 ^ 15
    · have := h1 a; linarith
    by_cases b : v ≤ 10 ^ 42
    · have := h2 b; linarith
    by_cases c : v ≤ 10 ^ 56
    · have := h3 c; linarith
    have := h4 h; linarith

theorem stretchPos_strictMono {a b x y : ℚ} (_h0 : 0 ≤ a) (hab : a < b) (hx : stretchPos a = .ok x)
    (hy : stretchPos b = .ok y) : x < y := by
  unfold stretchPos at hx hy
  split_ifs at hx hy <;> (injection hx with hx; injection hy with hy; subst hx; subst hy; norm_num at *; linarith)

theorem stretchPos_pos {a x : ℚ} (h0 : 0 < a) (hx : stretchPos a = .ok x) : 0 < x :=
  stretchPos_strictMono (le_refl _) h0 (by unfold stretchPos; rw [if_pos (by norm_num)]) hx

theorem stretch_nonneg {v : ℚ} (h : 0 ≤ v) : stretch v = stretchPos v := by
  unfold stretch; rw [if_neg (by linarith)]

/-- **C12.** On |v| <= 10^65 stretch is defined, with values in |.| <= 10^24. -/
theorem C12_stretch_total (v : ℚ) (h : |v| ≤ 10 ^ 65) : ∃ x, stretch v = .ok x ∧ |x| ≤ 10 ^ 24 := by
  rw [abs_le] at h
  unfold stretch
  split
  · obtain ⟨x, hx, h1, h2⟩ := stretchPos_ok (v := -v) (by linarith) (by linarith)
    exact ⟨-x, by rw [hx], by rw [abs_neg, abs_of_nonneg h1]; exact h2⟩
  · obtain ⟨x, hx, h1, h2⟩ := stretchPos_ok (v := v) (by linarith) (by linarith)
    exact ⟨x, hx, by rw [abs_of_nonneg h1]; exact h2⟩

/-- **C12.** stretch is odd. -/
theorem C12_stretch_odd (v x : ℚ) (h : stretch v = .ok x) : stretch (-v) = .ok (-x) := by
  unfold stretch at *
  rcases lt_trichotomy v 0 with h0 | h0 | h0
  · rw [if_pos h0] at h
    rw [if_neg (by linarith)]
    split at h
    · cases h
    · rename_i y hy
      injection h with h
      rw [hy, ← h, neg_neg]
  · subst h0
    rw [if_neg (lt_irrefl _)] at h
    rw [neg_zero, if_neg (lt_irrefl _), h]
    unfold stretchPos at h
    rw [if_pos (by norm_num)] at h
    injection h with h
    rw [← h, neg_zero]
  · rw [if_neg (by linarith)] at h
    rw [if_pos (by linarith), neg_neg, h]

/-- **C12.** stretch is strictly increasing. -/
theorem C12_stretch_strictMono (a b x y : ℚ) (hab : a < b) (hx : stretch a = .ok x) (hy : stretch b = .ok y) : x < y := by
  by_cases ha : a < 0
  · unfold stretch at hx
    rw [if_pos ha] at hx
    split at hx
    · cases hx
    · rename_i x' hx'
      injection hx with hx
      by_cases hb : b < 0
      · unfold stretch at hy
        rw [if_pos hb] at hy
        split at hy
        · cases hy
        · rename_i y' hy'
          injection hy with hy
          have := stretchPos_strictMono (a := -b) (b := -a) (by linarith) (by linarith) hy' hx'
          linarith
      · rw [stretch_nonneg (by linarith)] at hy
        have h1 := stretchPos_pos (by linarith) hx'
        rcases eq_or_lt_of_le (show (0 : ℚ) ≤ b by linarith) with h | h
        · subst h
          unfold stretchPos at hy
          rw [if_pos (by norm_num)] at hy
          injection hy with hy
          linarith
        · have := stretchPos_pos h hy
          linarith
  · rw [stretch_nonneg (by linarith)] at hx
    rw [stretch_nonneg (by linarith)] at hy
    exact stretchPos_strictMono (by linarith) hab hx hy

/-- **C12, partial.** inverse_stretch inverts stretch on -10^15 <= v <= 10^65. Missing: v < -10^15 (`C12_fails_negative`). -/
theorem C12_inverse_partial (v x : ℚ) (h0 : -10 ^ 15 ≤ v) (h1 : v ≤ 10 ^ 65) (hx : stretch v = .ok x) :
    inverseStretch x = .ok v := by
  by_cases hv : v < 0
  · unfold stretch at hx
    rw [if_pos hv] at hx
    unfold stretchPos at hx
    rw [if_pos ⟨by linarith, by linarith⟩] at hx
    simp only at hx
    injection hx with hx
    rw [neg_neg] at hx
    subst hx
    unfold inverseStretch
    rw [if_pos hv, stretch_nonneg (by linarith)]
    unfold stretchPos
    rw [if_pos ⟨by linarith, by linarith⟩]
    simp
  · rw [stretch_nonneg (by linarith)] at hx
    unfold stretchPos at hx
    split_ifs at hx with c1 c2 c3 c4 <;> injection hx with hx <;> subst hx
    · unfold inverseStretch
      rw [if_neg (by linarith), if_pos c1]
    · unfold inverseStretch
      rw [if_neg (by norm_num at *; linarith), if_neg (by norm_num at *; intro; linarith),
        if_pos (by norm_num at *; constructor <;> linarith)]
      congr 1; norm_num
    · unfold inverseStretch
      rw [if_neg (by norm_num at *; linarith), if_neg (by norm_num at *; intro; linarith),
        if_neg (by norm_num at *; intro; linarith), if_pos (by norm_num at *; constructor <;> linarith)]
      congr 1; norm_num
    · unfold inverseStretch
      rw [if_neg (by norm_num at *; linarith), if_neg (by norm_num at *; intro; linarith),
        if_neg (by norm_num at *; intro; linarith), if_neg (by norm_num at *; intro; linarith),
        if_pos (by norm_num at *; constructor <;> linarith)]
      congr 1; norm_num

/-- **C12 fails** for every v below -10^15: inverse_stretch calls stretch for negative arguments. -/
theorem C12_fails_negative (v x : ℚ) (h0 : v < -10 ^ 15) (hx : stretch v = .ok x) : inverseStretch x ≠ .ok v := by
  intro h
  -- x = -y with y = stretch (-v); inverse gives -stretch y
  have hy : ∃ y, stretchPos (-v) = .ok y ∧ x = -y := by
    unfold stretch at hx
    rw [if_pos (by linarith)] at hx
    split at hx
    · cases hx
    · rename_i y hy
      injection hx with hx
      exact ⟨y, hy, hx.symm⟩
  obtain ⟨y, hy, rfl⟩ := hy
  have hyp := stretchPos_pos (by linarith) hy
  unfold inverseStretch at h
  rw [if_pos (by linarith), neg_neg, stretch_nonneg (by linarith)] at h
  split at h
  · cases h
  · rename_i z hz
    injection h with h
    -- z = -v, y = stretchPos (-v) < -v, so z = stretchPos y ≤ y < -v
    have hlt : y < -v := by
      unfold stretchPos at hy
      split_ifs at hy <;> (injection hy with hy; subst hy; norm_num at *; linarith)
    have hle : z ≤ y := by
      unfold stretchPos at hz
      split_ifs at hz <;> (injection hz with hz; subst hz; norm_num at *; try linarith)
    linarith

/-! ## C11 -/

/-- Encoding and decoding a double, as the proxy does. -/
def doubleRoundTrip (v : ℚ) : Except PyErr ℚ :=
  match encodeDouble v with
  | .error e => .error e
  | .ok n => decodeDouble n

/-- **C11, partial.** For |v| <= 1000 the decoded double differs by less than 10^-12. Missing: all larger values
(`C11_fails_large`). -/
theorem C11_double_roundtrip_partial (v : ℚ) (h : |v| ≤ 1000) :
    ∃ w, doubleRoundTrip v = .ok w ∧ |w - v| < 1 / 10 ^ 12 := by
  have hv := abs_le.1 h
  have hs : stretch v = .ok v := by
    unfold stretch stretchPos
    split
    · rw [if_pos ⟨by linarith, by linarith⟩]; simp
    · rw [if_pos ⟨by linarith, by linarith⟩]
  obtain ⟨t1, t2⟩ := trunc_bounds (v * 10 ^ 12)
  have habs : |v * 10 ^ 12| ≤ 10 ^ 15 := by
    rw [abs_mul, abs_of_nonneg (show (0 : ℚ) ≤ 10 ^ 12 by norm_num)]; linarith
  have hn := abs_le.1 (le_trans t2 habs)
  have hi : inverseStretch ((trunc (v * 10 ^ 12) : ℤ) : ℚ) = .ok ((trunc (v * 10 ^ 12) : ℤ) : ℚ) := by
    unfold inverseStretch stretch stretchPos
    split
    · rw [if_neg (by linarith), if_pos ⟨by linarith, by linarith⟩]; simp
    · rw [if_pos ⟨by linarith, by linarith⟩]
  refine ⟨((trunc (v * 10 ^ 12) : ℤ) : ℚ) / 10 ^ 12, ?_, ?_⟩
  · unfold doubleRoundTrip encodeDouble decodeDouble
    rw [hs]; simp only; rw [hi]
  · rw [abs_lt] at t1 ⊢
    constructor <;> [have := t1.1; have := t1.2] <;> norm_num at this ⊢ <;> linarith

/-- **C11 fails** for every value of magnitude at least 1001: no value comes back within 1/2 of the original (either decoding raises, or
the result is far off). -/
theorem C11_fails_large (v : ℚ) (h : 1001 ≤ |v|) : ¬ ∃ w, doubleRoundTrip v = .ok w ∧ |w - v| ≤ 1 / 2 := by
  rintro ⟨w, hw, he⟩
  rw [abs_le] at he
  unfold doubleRoundTrip encodeDouble at hw
  rcases le_or_gt 0 v with hv | hv
  · rw [abs_of_nonneg hv] at h
    cases hs : stretch v with
    | error e => rw [hs] at hw; cases hw
    | ok x =>
      rw [hs] at hw
      simp only at hw
      rw [stretch_nonneg hv] at hs
      have hx : 1001 ≤ x ∧ v ≤ 10 ^ 65 := by
        unfold stretchPos at hs
        split_ifs at hs <;> (injection hs with hs; subst hs; norm_num at *; constructor <;> linarith)
      have t := abs_lt.1 (trunc_bounds (x * 10 ^ 12)).1
      unfold decodeDouble at hw
      generalize hn : ((trunc (x * 10 ^ 12) : ℤ) : ℚ) = n at *
      have hnb : n ≥ 1001 * 10 ^ 12 - 1 := by linarith [t.1]
      unfold inverseStretch at hw
      rw [if_neg (by norm_num at *; linarith), if_neg (by norm_num at *; intro; linarith)] at hw
      -- in each piece the decoded value is far above v
      by_cases hxv : v ≤ 10 ^ 15
      · -- x = v
        have hxe : x = v := by
          unfold stretchPos at hs
          rw [if_pos ⟨hxv, hv⟩] at hs
          injection hs with hs; exact hs.symm
        subst hxe
        split_ifs at hw
        · simp only at hw; injection hw with hw; subst hw; norm_num at *; linarith
        · simp only at hw; injection hw with hw; subst hw; norm_num at *; linarith
        · simp only at hw; injection hw with hw; subst hw; norm_num at *; linarith
      · -- x > 10^15, so n > 10^24 and decoding raises
        have hx2 : 10 ^ 15 ≤ x := by
          unfold stretchPos at hs
          split_ifs at hs <;> (injection hs with hs; subst hs; norm_num at *; linarith)
        rw [if_neg (by norm_num at *; intro; linarith), if_neg (by norm_num at *; intro; linarith),
          if_neg (by norm_num at *; intro; linarith)] at hw
        cases hw
  · rw [abs_of_neg hv] at h
    cases hs : stretch v with
    | error e => rw [hs] at hw; cases hw
    | ok x =>
      rw [hs] at hw
      simp only at hw
      have hx : ∃ y, stretchPos (-v) = .ok y ∧ x = -y := by
        unfold stretch at hs
        rw [if_pos hv] at hs
        split at hs
        · cases hs
        · rename_i y hy
          injection hs with hs
          exact ⟨y, hy, hs.symm⟩
      obtain ⟨y, hy, rfl⟩ := hx
      have hyb : 1001 ≤ y ∧ y ≤ 10 ^ 24 := by
        unfold stretchPos at hy
        split_ifs at hy <;> (injection hy with hy; subst hy; norm_num at *; constructor <;> linarith)
      have t := abs_lt.1 (trunc_bounds (-y * 10 ^ 12)).1
      unfold decodeDouble at hw
      generalize hn : ((trunc (-y * 10 ^ 12) : ℤ) : ℚ) = n at *
      have hnb : n ≤ -1001 * 10 ^ 12 + 1 ∧ -10 ^ 36 - 1 ≤ n := by
        constructor <;> [skip; skip] <;> linarith [t.1, t.2, hyb.1, hyb.2]
      unfold inverseStretch at hw
      rw [if_pos (by norm_num at *; linarith), stretch_nonneg (by norm_num at *; linarith)] at hw
      unfold stretchPos at hw
      rw [if_neg (by norm_num at *; intro; linarith), if_pos (by norm_num at *; constructor <;> linarith)] at hw
      simp only at hw
      injection hw with hw
      subst hw
      -- decoded is between -1001 and -1000, v ≤ -1001
      unfold stretchPos at hy
      split_ifs at hy
      · injection hy with hy; subst hy; norm_num at *; linarith
      · norm_num at *; linarith
      · norm_num at *; linarith
      · norm_num at *; linarith

/-! ## The hypotheses are met -/

example : (3.25 : ℚ) * 10 ^ 12 = (3250000000000 : Int) ∧ encodeFloat (-3.25) = -3250000000000 := by
  constructor
  · norm_num
  · unfold encodeFloat
    have : (-3.25 : ℚ) * 10 ^ 12 = ((-3250000000000 : Int) : ℚ) := by norm_num
    rw [this, trunc_int]

/-- C12: a value in the second piece. -/
example : |(10 : ℚ) ^ 20| ≤ 10 ^ 65 ∧ ∃ x, stretch (10 ^ 20) = .ok x :=
  ⟨by norm_num [abs_of_nonneg], (C12_stretch_total _ (by norm_num [abs_of_nonneg])).imp fun _ h => h.1⟩

/-- C11: 999.5 meets the hypothesis of the partial theorem, 2000 that of the refutation. -/
example : |(999.5 : ℚ)| ≤ 1000 ∧ 1001 ≤ |(-2000 : ℚ)| := by
  constructor <;> norm_num [abs_of_nonneg, abs_of_neg]

end EulerDB.Codec
