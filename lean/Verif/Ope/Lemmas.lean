import Verif.Ope.Model
import Mathlib.Tactic.Linarith
import Mathlib.Tactic.Ring
import Mathlib.Tactic.NormNum
import Mathlib.Tactic.FieldSimp
import Mathlib.Tactic.Positivity
import Mathlib.Data.Nat.Log

/-! Helper lemmas for the OPE properties. -/

namespace EulerDB.Ope

open EulerDB

theorem mkRange_ok {s e : Int} {r : Range} (h : mkRange s e = .ok r) : s ≤ e ∧ r = ⟨s, e⟩ := by
  unfold mkRange at h
  split at h
  · cases h
  · injection h with h; exact ⟨by omega, h.symm⟩

theorem mkRange_of_le {s e : Int} (h : s ≤ e) : mkRange s e = .ok ⟨s, e⟩ := by
  unfold mkRange; rw [if_neg (by omega)]

theorem uniformLoop_bounds (coin : Nat → Bool) : ∀ (fuel i : Nat) (s e c : Int),
    uniformLoop coin fuel i s e = .ok c → s ≤ c ∧ c ≤ e := by
  intro fuel
  induction fuel with
  | zero =>
    intro i s e c h
    unfold uniformLoop at h
    split at h
    · cases h
    · split at h
      · injection h with h; omega
      · cases h
  | succ n ih =>
    intro i s e c h
    unfold uniformLoop at h
    split at h
    · dsimp only at h
      split at h
      · have := ih _ _ _ _ h; omega
      · have := ih _ _ _ _ h; omega
    · split at h
      · injection h with h; omega
      · cases h

theorem uniformLoop_total (coin : Nat → Bool) : ∀ (fuel i : Nat) (s e : Int),
    s ≤ e → e - s + 1 ≤ fuel → ∃ c, uniformLoop coin fuel i s e = .ok c := by
  intro fuel
  induction fuel with
  | zero => intro i s e h1 h2; omega
  | succ n ih =>
    intro i s e h1 h2
    unfold uniformLoop
    split
    · dsimp only
      split
      · exact ih _ _ _ (by omega) (by omega)
      · exact ih _ _ _ (by omega) (by omega)
    · rw [if_pos (by omega)]; exact ⟨_, rfl⟩

theorem sampleUniform_bounds {r : Range} {coin : Nat → Bool} {c : Int}
    (h : sampleUniform r coin = .ok c) : r.start ≤ c ∧ c ≤ r.end_ := by
  unfold sampleUniform at h
  split at h
  · cases h
  · exact uniformLoop_bounds _ _ _ _ _ _ h

theorem sampleUniform_total {r : Range} (coin : Nat → Bool) (h : r.start ≤ r.end_) :
    ∃ c, sampleUniform r coin = .ok c := by
  unfold sampleUniform Range.size
  rw [if_neg (by omega)]
  exact uniformLoop_total _ _ _ _ _ h (by omega)

theorem sampleUniform_singleton {r : Range} (coin : Nat → Bool) (h : r.size = 1) :
    sampleUniform r coin = .ok r.start := by
  unfold sampleUniform
  rw [if_neg (by omega), h]
  unfold Range.size at h
  show uniformLoop coin 1 0 r.start r.end_ = _
  unfold uniformLoop
  rw [if_neg (by omega), if_pos (by omega)]

theorem sampleHgd_bounds {k : Key} {inR outR : Range} {mid x : Int}
    (h : sampleHgd k inR outR mid = .ok x) : inR.start ≤ x ∧ x ≤ inR.end_ := by
  unfold sampleHgd at h
  dsimp only at h
  split at h
  · cases h
  rename_i h1
  split at h
  · cases h
  split at h
  · cases h
  rename_i h2 h3
  have h1' : inR.size > 0 ∧ outR.size > 0 := by simpa using h1
  have h3' : outR.start ≤ mid ∧ mid ≤ outR.end_ := by simpa [Range.contains] using h3
  unfold Range.size at *
  split at h
  · injection h with h; omega
  · split at h
    · cases h
    · split at h
      · injection h with h; omega
      · split at h
        · rename_i h4
          injection h with h
          simp only [Range.contains, decide_eq_true_eq] at h4
          omega
        · cases h

theorem sampleHgd_mid {k : Key} {inR outR : Range} {mid x : Int}
    (h : sampleHgd k inR outR mid = .ok x) : outR.start ≤ mid ∧ mid ≤ outR.end_ := by
  unfold sampleHgd at h
  dsimp only at h
  split at h
  · cases h
  split at h
  · cases h
  split at h
  · cases h
  · rename_i h3
    simpa [Range.contains] using h3

attribute [local irreducible] halfCeil sampleHgd sampleUniform

/-- What a successful `encrypt_recursive` call did. -/
theorem encRec_ok {k : Key} {p : Int} {fuel : Nat} {inR outR : Range} {c : Int}
    (h : encRec k p (fuel + 1) inR outR = .ok c) :
    ∃ hc, halfCeil outR.size = .ok hc ∧ inR.size ≤ outR.size ∧
      ((inR.size = 1 ∧ sampleUniform outR (k.coin p) = .ok c) ∨
       (inR.size ≠ 1 ∧ ∃ x, sampleHgd k inR outR (outR.start - 1 + hc) = .ok x ∧
         ((p ≤ x ∧ inR.start ≤ x ∧ outR.start ≤ outR.start - 1 + hc ∧
            encRec k p fuel ⟨inR.start, x⟩ ⟨outR.start, outR.start - 1 + hc⟩ = .ok c) ∨
          (x < p ∧ x + 1 ≤ inR.end_ ∧ outR.start - 1 + hc + 1 ≤ outR.end_ ∧
            encRec k p fuel ⟨x + 1, inR.end_⟩ ⟨outR.start - 1 + hc + 1, outR.end_⟩ = .ok c)))) := by
  unfold encRec at h
  dsimp only at h
  split at h
  · cases h
  rename_i hc hhc
  refine ⟨hc, hhc, ?_⟩
  split at h
  · cases h
  rename_i hle
  have hle' : inR.size ≤ outR.size := by simpa using hle
  refine ⟨hle', ?_⟩
  split at h
  · exact Or.inl ⟨by assumption, h⟩
  rename_i hne
  refine Or.inr ⟨hne, ?_⟩
  split at h
  · cases h
  rename_i x hx
  refine ⟨x, hx, ?_⟩
  split at h
  · rename_i hpx
    split at h
    · cases h
    rename_i r1 hr1
    split at h
    · cases h
    rename_i r2 hr2
    obtain ⟨a1, rfl⟩ := mkRange_ok hr1
    obtain ⟨a2, rfl⟩ := mkRange_ok hr2
    simp only [Int.sub_add_cancel] at *
    exact Or.inl ⟨hpx, a1, a2, h⟩
  · rename_i hpx
    split at h
    · cases h
    rename_i r1 hr1
    split at h
    · cases h
    rename_i r2 hr2
    obtain ⟨a1, rfl⟩ := mkRange_ok hr1
    obtain ⟨a2, rfl⟩ := mkRange_ok hr2
    have e1 : inR.start - 1 + inR.size = inR.end_ := by unfold Range.size; omega
    have e2 : outR.start - 1 + outR.size = outR.end_ := by unfold Range.size; omega
    rw [e1] at a1 h
    rw [e2] at a2 h
    exact Or.inr ⟨by omega, a1, a2, h⟩

/-- Building a successful `encrypt_recursive` call. -/
theorem encRec_leaf {k : Key} {p : Int} {fuel : Nat} {inR outR : Range} {hc c : Int}
    (h1 : halfCeil outR.size = .ok hc) (h2 : inR.size ≤ outR.size) (h3 : inR.size = 1)
    (h4 : sampleUniform outR (k.coin p) = .ok c) :
    encRec k p (fuel + 1) inR outR = .ok c := by
  unfold encRec
  dsimp only
  rw [h1]
  have h2' : (1 : Int) ≤ outR.size := by omega
  simp only [h3, h2', not_true_eq_false, if_false, if_true, h4]

theorem encRec_left {k : Key} {p : Int} {fuel : Nat} {inR outR : Range} {hc x : Int}
    (h1 : halfCeil outR.size = .ok hc) (h2 : inR.size ≤ outR.size) (h3 : inR.size ≠ 1)
    (h4 : sampleHgd k inR outR (outR.start - 1 + hc) = .ok x) (h5 : p ≤ x) (h6 : inR.start ≤ x)
    (h7 : outR.start ≤ outR.start - 1 + hc) :
    encRec k p (fuel + 1) inR outR =
      encRec k p fuel ⟨inR.start, x⟩ ⟨outR.start, outR.start - 1 + hc⟩ := by
  conv_lhs => unfold encRec
  dsimp only
  rw [h1]
  simp only [h2, not_true_eq_false, if_false, h3, h4, h5, if_true, Int.sub_add_cancel,
    mkRange_of_le h6, mkRange_of_le h7]

theorem encRec_right {k : Key} {p : Int} {fuel : Nat} {inR outR : Range} {hc x : Int}
    (h1 : halfCeil outR.size = .ok hc) (h2 : inR.size ≤ outR.size) (h3 : inR.size ≠ 1)
    (h4 : sampleHgd k inR outR (outR.start - 1 + hc) = .ok x) (h5 : x < p) (h6 : x + 1 ≤ inR.end_)
    (h7 : outR.start - 1 + hc + 1 ≤ outR.end_) :
    encRec k p (fuel + 1) inR outR =
      encRec k p fuel ⟨x + 1, inR.end_⟩ ⟨outR.start - 1 + hc + 1, outR.end_⟩ := by
  have e1 : inR.start - 1 + inR.size = inR.end_ := by unfold Range.size; omega
  have e2 : outR.start - 1 + outR.size = outR.end_ := by unfold Range.size; omega
  have h5' : ¬ p ≤ x := by omega
  conv_lhs => unfold encRec
  dsimp only
  rw [h1]
  simp only [h2, not_true_eq_false, if_false, h3, h4, h5', e1, e2,
    mkRange_of_le h6, mkRange_of_le h7]

/-- What a successful `decrypt_recursive` call did. -/
theorem decRec_ok {k : Key} {p : Int} {fuel : Nat} {inR outR : Range} {c : Int}
    (h : decRec k c (fuel + 1) inR outR = .ok p) :
    ∃ hc, halfCeil outR.size = .ok hc ∧ inR.size ≤ outR.size ∧
      ((inR.size = 1 ∧ p = inR.start ∧ sampleUniform outR (k.coin p) = .ok c) ∨
       (inR.size ≠ 1 ∧ ∃ x, sampleHgd k inR outR (outR.start - 1 + hc) = .ok x ∧
         ((c ≤ outR.start - 1 + hc ∧ inR.start ≤ x ∧ outR.start ≤ outR.start - 1 + hc ∧
            decRec k c fuel ⟨inR.start, x⟩ ⟨outR.start, outR.start - 1 + hc⟩ = .ok p) ∨
          (outR.start - 1 + hc < c ∧ x + 1 ≤ inR.end_ ∧ outR.start - 1 + hc + 1 ≤ outR.end_ ∧
            decRec k c fuel ⟨x + 1, inR.end_⟩ ⟨outR.start - 1 + hc + 1, outR.end_⟩ = .ok p)))) := by
  unfold decRec at h
  dsimp only at h
  split at h
  · cases h
  rename_i hc hhc
  refine ⟨hc, hhc, ?_⟩
  split at h
  · cases h
  rename_i hle
  have hle' : inR.size ≤ outR.size := by simpa using hle
  refine ⟨hle', ?_⟩
  split at h
  · rename_i h1
    split at h
    · cases h
    rename_i s hs
    split at h
    · rename_i hsc
      injection h with h
      subst hsc
      subst h
      exact Or.inl ⟨h1, rfl, hs⟩
    · cases h
  rename_i hne
  refine Or.inr ⟨hne, ?_⟩
  split at h
  · cases h
  rename_i x hx
  refine ⟨x, hx, ?_⟩
  split at h
  · rename_i hpx
    split at h
    · cases h
    rename_i r1 hr1
    split at h
    · cases h
    rename_i r2 hr2
    obtain ⟨a1, rfl⟩ := mkRange_ok hr1
    obtain ⟨a2, rfl⟩ := mkRange_ok hr2
    simp only [Int.sub_add_cancel] at *
    exact Or.inl ⟨hpx, a1, a2, h⟩
  · rename_i hpx
    split at h
    · cases h
    rename_i r1 hr1
    split at h
    · cases h
    rename_i r2 hr2
    obtain ⟨a1, rfl⟩ := mkRange_ok hr1
    obtain ⟨a2, rfl⟩ := mkRange_ok hr2
    have e1 : inR.start - 1 + inR.size = inR.end_ := by unfold Range.size; omega
    have e2 : outR.start - 1 + outR.size = outR.end_ := by unfold Range.size; omega
    rw [e1] at a1 h
    rw [e2] at a2 h
    exact Or.inr ⟨by omega, a1, a2, h⟩

theorem decRec_leaf {k : Key} {fuel : Nat} {inR outR : Range} {hc c : Int}
    (h1 : halfCeil outR.size = .ok hc) (h2 : inR.size ≤ outR.size) (h3 : inR.size = 1)
    (h4 : sampleUniform outR (k.coin inR.start) = .ok c) :
    decRec k c (fuel + 1) inR outR = .ok inR.start := by
  have h2' : (1 : Int) ≤ outR.size := by omega
  unfold decRec
  dsimp only
  rw [h1]
  simp only [h3, h2', not_true_eq_false, if_false, if_true, h4]

theorem decRec_left {k : Key} {c : Int} {fuel : Nat} {inR outR : Range} {hc x : Int}
    (h1 : halfCeil outR.size = .ok hc) (h2 : inR.size ≤ outR.size) (h3 : inR.size ≠ 1)
    (h4 : sampleHgd k inR outR (outR.start - 1 + hc) = .ok x)
    (h5 : c ≤ outR.start - 1 + hc) (h6 : inR.start ≤ x)
    (h7 : outR.start ≤ outR.start - 1 + hc) :
    decRec k c (fuel + 1) inR outR =
      decRec k c fuel ⟨inR.start, x⟩ ⟨outR.start, outR.start - 1 + hc⟩ := by
  conv_lhs => unfold decRec
  dsimp only
  rw [h1]
  simp only [h2, not_true_eq_false, if_false, h3, h4, h5, if_true, Int.sub_add_cancel,
    mkRange_of_le h6, mkRange_of_le h7]

theorem decRec_right {k : Key} {c : Int} {fuel : Nat} {inR outR : Range} {hc x : Int}
    (h1 : halfCeil outR.size = .ok hc) (h2 : inR.size ≤ outR.size) (h3 : inR.size ≠ 1)
    (h4 : sampleHgd k inR outR (outR.start - 1 + hc) = .ok x)
    (h5 : outR.start - 1 + hc < c) (h6 : x + 1 ≤ inR.end_)
    (h7 : outR.start - 1 + hc + 1 ≤ outR.end_) :
    decRec k c (fuel + 1) inR outR =
      decRec k c fuel ⟨x + 1, inR.end_⟩ ⟨outR.start - 1 + hc + 1, outR.end_⟩ := by
  have e1 : inR.start - 1 + inR.size = inR.end_ := by unfold Range.size; omega
  have e2 : outR.start - 1 + outR.size = outR.end_ := by unfold Range.size; omega
  have h5' : ¬ c ≤ outR.start - 1 + hc := by omega
  conv_lhs => unfold decRec
  dsimp only
  rw [h1]
  simp only [h2, not_true_eq_false, if_false, h3, h4, h5', e1, e2,
    mkRange_of_le h6, mkRange_of_le h7]

theorem size_one {r : Range} (h : r.size = 1) : r.end_ = r.start := by
  unfold Range.size at h; omega

/-- Ciphertexts stay in the output range and decrypt back. -/
theorem encRec_dec {k : Key} {p : Int} : ∀ {fuel : Nat} {inR outR : Range} {c : Int},
    inR.start ≤ p → p ≤ inR.end_ → encRec k p fuel inR outR = .ok c →
    outR.start ≤ c ∧ c ≤ outR.end_ ∧ decRec k c fuel inR outR = .ok p := by
  intro fuel
  induction fuel with
  | zero => intro inR outR c _ _ h; simp [encRec] at h
  | succ n ih =>
    intro inR outR c hp1 hp2 h
    obtain ⟨hc, hhc, hle, h⟩ := encRec_ok h
    rcases h with ⟨h1, h⟩ | ⟨hne, x, hx, h⟩
    · have hb := sampleUniform_bounds h
      have he := size_one h1
      have hps : p = inR.start := by omega
      subst hps
      exact ⟨hb.1, hb.2, decRec_leaf hhc hle h1 h⟩
    · have hxb := sampleHgd_bounds hx
      have hmid := sampleHgd_mid hx
      rcases h with ⟨a, b, d, h⟩ | ⟨a, b, d, h⟩
      · obtain ⟨g1, g2, g3⟩ := ih (by exact hp1) a h
        dsimp only at g1 g2
        exact ⟨g1, by omega, by rw [decRec_left hhc hle hne hx g2 b d]; exact g3⟩
      · obtain ⟨g1, g2, g3⟩ := ih (inR := ⟨x + 1, inR.end_⟩) (by dsimp only; omega) hp2 h
        dsimp only at g1 g2
        exact ⟨by omega, g2, by rw [decRec_right hhc hle hne hx (by omega) b d]; exact g3⟩

/-- Whatever decrypts is a ciphertext of its plaintext. -/
theorem decRec_enc {k : Key} {c : Int} : ∀ {fuel : Nat} {inR outR : Range} {p : Int},
    decRec k c fuel inR outR = .ok p →
    inR.start ≤ p ∧ p ≤ inR.end_ ∧ encRec k p fuel inR outR = .ok c := by
  intro fuel
  induction fuel with
  | zero => intro inR outR c h; simp [decRec] at h
  | succ n ih =>
    intro inR outR p h
    obtain ⟨hc, hhc, hle, h⟩ := decRec_ok h
    rcases h with ⟨h1, hp, h⟩ | ⟨hne, x, hx, h⟩
    · have he := size_one h1
      exact ⟨by omega, by omega, encRec_leaf hhc hle h1 h⟩
    · have hxb := sampleHgd_bounds hx
      rcases h with ⟨a, b, d, h⟩ | ⟨a, b, d, h⟩
      · obtain ⟨g1, g2, g3⟩ := ih h
        dsimp only at g1 g2
        exact ⟨g1, by omega, by rw [encRec_left hhc hle hne hx g2 b d]; exact g3⟩
      · obtain ⟨g1, g2, g3⟩ := ih h
        dsimp only at g1 g2
        exact ⟨by omega, g2, by rw [encRec_right hhc hle hne hx (by omega) b d]; exact g3⟩

/-- Strict monotonicity of the recursion. -/
theorem encRec_strictMono {k : Key} {a b : Int} (hab : a < b) :
    ∀ {fuel : Nat} {inR outR : Range} {ca cb : Int},
    inR.start ≤ a → b ≤ inR.end_ →
    encRec k a fuel inR outR = .ok ca → encRec k b fuel inR outR = .ok cb → ca < cb := by
  intro fuel
  induction fuel with
  | zero => intro inR outR ca cb _ _ h; simp [encRec] at h
  | succ n ih =>
    intro inR outR ca cb ha hb h1 h2
    obtain ⟨hc, hhc, hle, h1⟩ := encRec_ok h1
    obtain ⟨hc', hhc', _, h2⟩ := encRec_ok h2
    have : hc' = hc := by rw [hhc] at hhc'; injection hhc' with e; exact e.symm
    subst this
    rcases h1 with ⟨s1, _⟩ | ⟨hne, x, hx, h1⟩
    · have := size_one s1; omega
    · rcases h2 with ⟨s2, _⟩ | ⟨_, x', hx', h2⟩
      · exact absurd s2 hne
      have : x' = x := by rw [hx] at hx'; injection hx' with e; exact e.symm
      subst this
      rcases h1 with ⟨p1, p2, p3, h1⟩ | ⟨p1, p2, p3, h1⟩ <;>
      rcases h2 with ⟨q1, q2, q3, h2⟩ | ⟨q1, q2, q3, h2⟩
      · exact ih (by exact ha) q1 h1 h2
      · have e1 := (encRec_dec (inR := ⟨inR.start, x'⟩) ha p1 h1).2.1
        have e2 := (encRec_dec (inR := ⟨x' + 1, inR.end_⟩) (by dsimp only; omega) hb h2).1
        dsimp only at e1 e2
        omega
      · omega
      · exact ih (inR := ⟨x' + 1, inR.end_⟩) (by dsimp only; omega) hb h1 h2

/-! ### Half of the range, and totality -/

theorem toFloat_bounds (n : Nat) : n ≤ 2 * toFloat n ∧ toFloat n ≤ 2 * n ∧ (2 ≤ n → toFloat n + 2 ≤ 2 * n) := by
  unfold toFloat
  split
  · omega
  · rename_i h
    have hl : 53 ≤ n.log2 := by omega
    have hn0 : n ≠ 0 := by rintro rfl; simp at hl
    have h1 : 2 ^ n.log2 ≤ n := Nat.log2_self_le hn0
    dsimp only
    obtain ⟨s, hs⟩ : ∃ s, n.log2 = s + 52 := ⟨n.log2 - 52, by omega⟩
    have hs1 : 1 ≤ s := by omega
    rw [hs] at h1 ⊢
    rw [show s + 52 - 52 = s by omega]
    rw [pow_add] at h1
    have hpos : 0 < 2 ^ s := by positivity
    have h2s : 2 ≤ 2 ^ s := by
      calc 2 = 2 ^ 1 := by norm_num
        _ ≤ 2 ^ s := Nat.pow_le_pow_right (by norm_num) hs1
    have hdm := Nat.div_add_mod n (2 ^ s)
    have hmod := Nat.mod_lt n hpos
    have hq : (n / 2 ^ s) * 2 ^ s = 2 ^ s * (n / 2 ^ s) := Nat.mul_comm _ _
    have hq1 : (n / 2 ^ s + 1) * 2 ^ s = 2 ^ s * (n / 2 ^ s) + 2 ^ s := by ring
    norm_num at h1
    split
    · rw [hq]; omega
    · rw [hq1]; omega

theorem toFloat_small (n : Nat) (h : n < 2 ^ 53) : toFloat n = n := by
  unfold toFloat
  rw [if_pos]
  by_cases hn : n = 0
  · subst hn; simp
  · exact (Nat.log2_lt hn).2 h

theorem halfCeil_total {n : Int} (h1 : 1 ≤ n) (h2 : 2 * n.toNat < floatLimit) :
    ∃ h, halfCeil n = .ok h ∧ 1 ≤ h ∧ (2 ≤ n → h ≤ n - 1) := by
  unfold halfCeil
  have hb := toFloat_bounds n.toNat
  rw [if_neg (by omega)]
  refine ⟨_, rfl, ?_, ?_⟩
  · have : 1 ≤ toFloat n.toNat := by omega
    omega
  · intro h
    have := hb.2.2 (by omega)
    omega

/-- The support of the hypergeometric distribution with `kk` draws from `nn1` good and `nn2` bad. -/
def InSupport (kk nn1 nn2 n : Int) : Prop := 0 ≤ n ∧ n ≤ nn1 ∧ n ≤ kk ∧ kk - n ≤ nn2

/-- A sampler whose results, when it gives one, lie in the support, for the arguments `sample_hgd` uses. -/
def SamplerSound (k : Key) : Prop := ∀ label kk nn1 nn2 n, 1 ≤ nn1 → 1 ≤ nn2 →
  halfCeil (nn1 + nn2) = .ok kk → k.rhyper label kk nn1 nn2 = .ok n → InSupport kk nn1 nn2 n

/-- `e` is an error raised inside the sampler. -/
def SamplerError (k : Key) (e : PyErr) : Prop := ∃ label kk nn1 nn2, k.rhyper label kk nn1 nn2 = .error e

theorem sampleHgd_total {k : Key} (hk : SamplerSound k) {inR outR : Range} {h : Int}
    (h1 : 1 ≤ inR.size) (h2 : inR.size ≤ outR.size) (hh : halfCeil outR.size = .ok h) (h3 : 1 ≤ h)
    (h4 : h ≤ outR.size) :
    (∃ x, sampleHgd k inR outR (outR.start - 1 + h) = .ok x ∧ x - inR.start + 1 ≤ h ∧
      inR.end_ - x ≤ outR.size - h) ∨
    ∃ e, sampleHgd k inR outR (outR.start - 1 + h) = .error e ∧ SamplerError k e := by
  have hcont : outR.contains (outR.start - 1 + h) = true := by
    simp only [Range.contains, decide_eq_true_eq]
    unfold Range.size at h4
    omega
  unfold sampleHgd
  dsimp only
  have a1 : inR.size > 0 ∧ outR.size > 0 := ⟨by omega, by omega⟩
  simp only [a1, and_self, not_true_eq_false, if_false, h2, hcont]
  have hidx : outR.start - 1 + h - outR.start + 1 = h := by omega
  rw [hidx]
  by_cases heq : inR.size = outR.size
  · left
    rw [if_pos heq]
    refine ⟨_, rfl, by omega, ?_⟩
    unfold Range.size at *
    omega
  · rw [if_neg heq]
    cases hr : k.rhyper (outR.start - 1 + h) h inR.size (outR.size - inR.size) with
    | error e => exact Or.inr ⟨e, rfl, _, _, _, _, hr⟩
    | ok n =>
      left
      have hs := hk _ _ _ _ _ h1 (by omega) (by rw [show inR.size + (outR.size - inR.size) = outR.size by omega]; exact hh) hr
      obtain ⟨s1, s2, s3, s4⟩ := hs
      dsimp only
      by_cases hn : n = 0
      · rw [if_pos hn]
        refine ⟨_, rfl, by omega, ?_⟩
        unfold Range.size at *
        omega
      · rw [if_neg hn]
        have hc : inR.contains (inR.start + n - 1) = true := by
          simp only [Range.contains, decide_eq_true_eq]
          unfold Range.size at *
          omega
        rw [if_pos hc]
        refine ⟨_, rfl, by omega, ?_⟩
        unfold Range.size at *
        omega

theorem encRec_total {k : Key} (hk : SamplerSound k) {p : Int} : ∀ {fuel : Nat} {inR outR : Range},
    inR.start ≤ p → p ≤ inR.end_ → inR.size ≤ outR.size → 2 * outR.size.toNat < floatLimit →
    outR.size.toNat ≤ fuel →
    (∃ c, encRec k p fuel inR outR = .ok c) ∨
    ∃ e, encRec k p fuel inR outR = .error e ∧ SamplerError k e := by
  intro fuel
  induction fuel with
  | zero =>
    intro inR outR h1 h2 h3 _ h5
    unfold Range.size at *
    omega
  | succ n ih =>
    intro inR outR h1 h2 h3 h4 h5
    have hin : 1 ≤ inR.size := by unfold Range.size; omega
    obtain ⟨h, hh, g1, g2⟩ := halfCeil_total (n := outR.size) (by omega) h4
    by_cases hone : inR.size = 1
    · obtain ⟨c, hc⟩ := sampleUniform_total (r := outR) (k.coin p) (by unfold Range.size at *; omega)
      exact Or.inl ⟨c, encRec_leaf hh h3 hone hc⟩
    · have hout2 : 2 ≤ outR.size := by omega
      have g2 := g2 hout2
      rcases sampleHgd_total hk hin h3 hh g1 (by omega) with ⟨x, hx, b1, b2⟩ | ⟨e, he, hse⟩
      · have hxb := sampleHgd_bounds hx
        by_cases hpx : p ≤ x
        · rw [encRec_left hh h3 hone hx hpx hxb.1 (by omega)]
          apply ih
          · exact h1
          · exact hpx
          · unfold Range.size; dsimp only; omega
          · have : (Range.size ⟨outR.start, outR.start - 1 + h⟩) ≤ outR.size := by
              unfold Range.size at *; dsimp only; omega
            omega
          · unfold Range.size at *; dsimp only; omega
        · rw [encRec_right hh h3 hone hx (by omega) (by omega) (by unfold Range.size at *; omega)]
          apply ih
          · dsimp only; omega
          · exact h2
          · unfold Range.size at *; dsimp only; omega
          · have : (Range.size ⟨outR.start - 1 + h + 1, outR.end_⟩) ≤ outR.size := by
              unfold Range.size at *; dsimp only; omega
            omega
          · unfold Range.size at *; dsimp only; omega
      · right
        refine ⟨e, ?_, hse⟩
        unfold encRec
        dsimp only
        rw [hh]
        simp only [h3, not_true_eq_false, if_false, hone, he]

theorem decRec_total {k : Key} (hk : SamplerSound k) {c : Int} : ∀ {fuel : Nat} {inR outR : Range},
    inR.start ≤ inR.end_ → outR.start ≤ c → c ≤ outR.end_ →
    inR.size ≤ outR.size → 2 * outR.size.toNat < floatLimit →
    outR.size.toNat ≤ fuel →
    (∃ p, decRec k c fuel inR outR = .ok p) ∨
    ∃ e, decRec k c fuel inR outR = .error e ∧
      (e = .invalidCiphertext ∨ e = .invalidRange ∨ SamplerError k e) := by
  intro fuel
  induction fuel with
  | zero =>
    intro inR outR h1 h2 h3 h4 _ h5
    unfold Range.size at *
    omega
  | succ n ih =>
    intro inR outR h0 h1 h2 h3 h4 h5
    have hin : 1 ≤ inR.size := by unfold Range.size; omega
    obtain ⟨h, hh, g1, g2⟩ := halfCeil_total (n := outR.size) (by omega) h4
    by_cases hone : inR.size = 1
    · obtain ⟨s, hs⟩ := sampleUniform_total (r := outR) (k.coin inR.start) (by unfold Range.size at *; omega)
      by_cases hsc : s = c
      · exact Or.inl ⟨_, decRec_leaf hh h3 hone (hsc ▸ hs)⟩
      · right
        refine ⟨.invalidCiphertext, ?_, Or.inl rfl⟩
        have h3' : (1 : Int) ≤ outR.size := by omega
        unfold decRec
        dsimp only
        rw [hh]
        simp only [hone, h3', not_true_eq_false, if_false, if_true, hs, hsc]
    · have hout2 : 2 ≤ outR.size := by omega
      have g2 := g2 hout2
      rcases sampleHgd_total hk hin h3 hh g1 (by omega) with ⟨x, hx, b1, b2⟩ | ⟨e, he, hse⟩
      · have hxb := sampleHgd_bounds hx
        by_cases hpx : c ≤ outR.start - 1 + h
        · rw [decRec_left hh h3 hone hx hpx hxb.1 (by omega)]
          apply ih
          · exact hxb.1
          · exact h1
          · exact hpx
          · unfold Range.size; dsimp only; omega
          · have : (Range.size ⟨outR.start, outR.start - 1 + h⟩) ≤ outR.size := by
              unfold Range.size at *; dsimp only; omega
            omega
          · unfold Range.size at *; dsimp only; omega
        · by_cases hxe : x + 1 ≤ inR.end_
          · rw [decRec_right hh h3 hone hx (by omega) hxe (by unfold Range.size at *; omega)]
            apply ih
            · exact hxe
            · dsimp only; omega
            · exact h2
            · unfold Range.size at *; dsimp only; omega
            · have : (Range.size ⟨outR.start - 1 + h + 1, outR.end_⟩) ≤ outR.size := by
                unfold Range.size at *; dsimp only; omega
              omega
            · unfold Range.size at *; dsimp only; omega
          · right
            refine ⟨.invalidRange, ?_, Or.inr (Or.inl rfl)⟩
            have e1 : inR.start - 1 + inR.size = inR.end_ := by unfold Range.size; omega
            unfold decRec
            dsimp only
            rw [hh]
            simp only [h3, not_true_eq_false, if_false, hone, hx, hpx, e1]
            unfold mkRange
            rw [if_pos (by omega)]
      · right
        refine ⟨e, ?_, Or.inr (Or.inr hse)⟩
        unfold decRec
        dsimp only
        rw [hh]
        simp only [h3, not_true_eq_false, if_false, hone, he]

/-! ### Equal ranges: the cipher is a shift -/

theorem encRec_equal {k : Key} {p : Int} : ∀ {fuel : Nat} {inR outR : Range},
    inR.start ≤ p → p ≤ inR.end_ → inR.size = outR.size → 2 * outR.size.toNat < floatLimit →
    outR.size.toNat ≤ fuel →
    encRec k p fuel inR outR = .ok (p - inR.start + outR.start) := by
  intro fuel
  induction fuel with
  | zero =>
    intro inR outR h1 h2 h3 _ h5
    unfold Range.size at *
    omega
  | succ n ih =>
    intro inR outR h1 h2 h3 h4 h5
    have hin : 1 ≤ inR.size := by unfold Range.size; omega
    obtain ⟨h, hh, g1, g2⟩ := halfCeil_total (n := outR.size) (by omega) h4
    by_cases hone : inR.size = 1
    · have := size_one hone
      rw [encRec_leaf hh (by omega) hone (sampleUniform_singleton (r := outR) (k.coin p) (by omega))]
      congr 1; omega
    · have hout2 : 2 ≤ outR.size := by omega
      have g2 := g2 hout2
      have hx : sampleHgd k inR outR (outR.start - 1 + h) = .ok (inR.start + h - 1) := by
        have hcont : outR.contains (outR.start - 1 + h) = true := by
          simp only [Range.contains, decide_eq_true_eq]
          unfold Range.size at *
          omega
        unfold sampleHgd
        dsimp only
        have a1 : inR.size > 0 ∧ outR.size > 0 := ⟨by omega, by omega⟩
        simp only [a1, and_self, not_true_eq_false, if_false, hcont, h3, if_true, le_refl]
        congr 1; omega
      by_cases hpx : p ≤ inR.start + h - 1
      · rw [encRec_left hh (by omega) hone hx hpx (by omega) (by omega)]
        rw [ih]
        · exact h1
        · exact hpx
        · unfold Range.size; dsimp only; omega
        · have : (Range.size ⟨outR.start, outR.start - 1 + h⟩) ≤ outR.size := by
            unfold Range.size at *; dsimp only; omega
          omega
        · unfold Range.size at *; dsimp only; omega
      · rw [encRec_right hh (by omega) hone hx (by omega) (by unfold Range.size at *; omega) (by unfold Range.size at *; omega)]
        rw [ih]
        · dsimp only; congr 1; omega
        · dsimp only; omega
        · exact h2
        · unfold Range.size at *; dsimp only; omega
        · have : (Range.size ⟨outR.start - 1 + h + 1, outR.end_⟩) ≤ outR.size := by
            unfold Range.size at *; dsimp only; omega
          omega
        · unfold Range.size at *; dsimp only; omega

/-! ### The samplers of the code -/

theorem foldl_bits_bound (l : List Bool) (a : Nat) :
    l.foldl (fun out b => 2 * out + b.toNat) a + 1 ≤ (a + 1) * 2 ^ l.length := by
  induction l generalizing a with
  | nil => simp
  | cons b l ih =>
    simp only [List.foldl_cons, List.length_cons]
    have := ih (2 * a + b.toNat)
    have hb : b.toNat ≤ 1 := by cases b <;> simp
    calc _ ≤ (2 * a + b.toNat + 1) * 2 ^ l.length := this
      _ ≤ (2 * (a + 1)) * 2 ^ l.length := Nat.mul_le_mul_right _ (by omega)
      _ = (a + 1) * 2 ^ (l.length + 1) := by rw [pow_succ]; ring

theorem draw_bounds (coin : Nat → Bool) (i : Nat) : 0 ≤ draw coin i ∧ draw coin i ≤ 1 := by
  unfold draw
  have h := foldl_bits_bound ((List.range 32).map fun j => coin (32 * i + j)) 0
  simp only [List.length_map, List.length_range, zero_add, one_mul] at h
  generalize (((List.range 32).map fun j => coin (32 * i + j)).foldl (fun out b => 2 * out + b.toNat) 0) = v at *
  have hv : (v : ℚ) ≤ 2 ^ 32 - 1 := by
    have h' : ((v + 1 : Nat) : ℚ) ≤ ((2 ^ 32 : Nat) : ℚ) := by exact_mod_cast h
    push_cast at h'
    linarith
  constructor
  · positivity
  · rw [div_le_one (by norm_num)]; exact hv

theorem hypLoop_bounds (d1 : Int) (U : Nat → ℚ) (hU : ∀ i, 0 ≤ U i ∧ U i ≤ 1) :
    ∀ (K i : Nat) (Y : Int), 0 ≤ Y → Y ≤ d1 →
      0 ≤ hypLoop d1 U K i Y ∧ hypLoop d1 U K i Y ≤ Y ∧ Y - hypLoop d1 U K i Y ≤ K := by
  intro K
  induction K with
  | zero => intro i Y h1 h2; simp [hypLoop, h1]
  | succ K ih =>
    intro i Y h1 h2
    unfold hypLoop
    by_cases hY : Y > 0
    · rw [if_pos hY]
      dsimp only
      obtain ⟨u0, u1⟩ := hU i
      have hden : (0 : ℚ) < (d1 : ℚ) + ((K + 1 : Nat) : ℚ) := by
        have : (0 : ℚ) < (d1 : ℚ) := by exact_mod_cast (by omega : 0 < d1)
        positivity
      have hq0 : (0 : ℚ) ≤ (Y : ℚ) / ((d1 : ℚ) + ((K + 1 : Nat) : ℚ)) :=
        div_nonneg (by exact_mod_cast h1) hden.le
      have hq1 : (Y : ℚ) / ((d1 : ℚ) + ((K + 1 : Nat) : ℚ)) < 1 := by
        rw [div_lt_one hden]
        have : (Y : ℚ) ≤ d1 := by exact_mod_cast h2
        have : (0 : ℚ) < ((K + 1 : Nat) : ℚ) := by positivity
        linarith
      have hf0 : 0 ≤ ⌊U i + (Y : ℚ) / ((d1 : ℚ) + ((K + 1 : Nat) : ℚ))⌋ := Int.floor_nonneg.2 (by linarith)
      have hf1 : ⌊U i + (Y : ℚ) / ((d1 : ℚ) + ((K + 1 : Nat) : ℚ))⌋ < 2 := by
        rw [Int.floor_lt, show ((2 : ℤ) : ℚ) = 2 by norm_num]; linarith
      generalize ⌊U i + (Y : ℚ) / ((d1 : ℚ) + ((K + 1 : Nat) : ℚ))⌋ = f at *
      by_cases hK : K = 0
      · rw [if_pos hK]; omega
      · rw [if_neg hK]
        have := ih (i + 1) (Y - f) (by omega) (by omega)
        omega
    · rw [if_neg hY]; omega

theorem hyp_support (coin : Nat → Bool) {good bad sample : Int} (h1 : 1 ≤ good) (h2 : 1 ≤ bad) (h3 : 1 ≤ sample)
    (h4 : sample ≤ max good bad) (h5 : min bad good ≤ bad + good - sample) :
    InSupport sample good bad (hyp (draw coin) good bad sample) := by
  unfold hyp InSupport
  dsimp only
  have hb := hypLoop_bounds (bad + good - sample) (draw coin) (draw_bounds coin) sample.toNat 0 (min bad good)
    (by omega) h5
  generalize hypLoop (bad + good - sample) (draw coin) sample.toNat 0 (min bad good) = y at *
  split <;> omega

theorem hruaLoop_bounds (coin : Nat → Bool) (h : Hrua) (m mn mx : Int) : ∀ (fuel i : Nat) (Z : Int),
    hruaLoop coin h m mn mx fuel i = .ok Z → 0 ≤ Z ∧ Z ≤ mn ∧ Z ≤ m := by
  intro fuel
  induction fuel with
  | zero => intro i Z h; simp [hruaLoop] at h
  | succ n ih =>
    intro i Z hZ
    unfold hruaLoop at hZ
    split at hZ
    · cases hZ
    dsimp only at hZ
    split at hZ
    · exact ih _ _ hZ
    split at hZ
    · cases hZ
    rename_i hn
    split at hZ
    · injection hZ with e; omega
    split at hZ
    · exact ih _ _ hZ
    split at hZ
    · injection hZ with e; omega
    · exact ih _ _ hZ

theorem hrua_support (coin : Nat → Bool) (h : Hrua) (loops : Nat) {good bad sample n : Int}
    (h1 : 1 ≤ good) (h2 : 1 ≤ bad) (h3 : 1 ≤ sample) (h4 : sample ≤ good + bad)
    (hr : hrua coin h loops good bad sample = .ok n) : InSupport sample good bad n := by
  unfold hrua at hr
  dsimp only at hr
  split at hr
  · cases hr
  rename_i Z hZ
  have hb := hruaLoop_bounds _ _ _ _ _ _ _ _ hZ
  injection hr with hr
  unfold InSupport
  split at hr <;> split at hr <;> omega

theorem codeKey_sound (coin : Int → Nat → Bool) (h : Int → Int → Int → Int → Hrua) (loops : Nat) :
    SamplerSound (codeKey coin h loops) := by
  intro label kk nn1 nn2 n h1 h2 hh hr
  have hhb : 1 ≤ kk ∧ kk ≤ nn1 + nn2 - 1 ∧ (kk ≤ 10 → kk = (nn1 + nn2 + 1) / 2) := by
    have hb := toFloat_bounds (nn1 + nn2).toNat
    have hs := toFloat_small (nn1 + nn2).toNat
    unfold halfCeil at hh
    split at hh
    · cases hh
    · injection hh with hh
      have := hb.2.2 (by omega)
      refine ⟨by omega, by omega, ?_⟩
      intro hk
      have h20 : toFloat (nn1 + nn2).toNat ≤ 20 := by omega
      have hn : (nn1 + nn2).toNat < 2 ^ 53 := by norm_num; omega
      rw [hs hn] at hh
      omega
  dsimp only [codeKey] at hr
  unfold rhyper at hr
  split at hr
  · exact hrua_support _ _ _ h1 h2 hhb.1 (by omega) hr
  · injection hr with hr
    subst hr
    have := hhb.2.2 (by omega)
    exact hyp_support _ h1 h2 hhb.1 (by omega) (by omega)

end EulerDB.Ope
