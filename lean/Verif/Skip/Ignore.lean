/-
C103, continued: the search with text that is ignored.
-/
import Verif.Skip.Props

namespace EulerDB.Skip

/-- What is ignored is not empty and is in the text. -/
def Cfg.Forward (c : Cfg) : Prop := ∀ q e, c.ignore q = some e → q < e ∧ e ≤ c.len

/-- The place is in ignored text or in the white space after it. -/
def Cfg.Ignored (c : Cfg) (q : Nat) : Prop := ∃ a e, c.ignore a = some e ∧ a ≤ q ∧ q < c.ws e

theorem Cfg.White.fix {c : Cfg} (hw : c.White) (q : Nat) : c.ws (c.ws q) = c.ws q := hw.same q _ (hw.le q) (Nat.le_refl _)

theorem ignoring_ends (c : Cfg) (hw : c.White) (hi : c.Forward) : ∀ fuel se loc, c.len < fuel + loc →
    ∃ s p, ignoring c (fuel + 1) se loc = .ok (s, p) := by
  intro fuel
  induction fuel with
  | zero =>
    intro se loc h
    rw [ignoring]
    cases hc : c.ignore loc with
    | none => exact ⟨_, _, rfl⟩
    | some e => have := hi _ _ hc; omega
  | succ fuel ih =>
    intro se loc h
    rw [ignoring]
    cases hc : c.ignore loc with
    | none => exact ⟨_, _, rfl⟩
    | some e =>
      have := hi _ _ hc
      have := hw.le e
      exact ih _ _ (by omega)

/-- The place after what is ignored is not ignored itself, and everything passed is. -/
theorem ignoring_spec (c : Cfg) (hw : c.White) (hi : c.Forward) : ∀ fuel se loc s p, ignoring c fuel se loc = .ok (s, p) →
    c.ws se = loc → se ≤ s ∧ c.ws s = p ∧ loc ≤ p ∧ c.ignore p = none ∧ ∀ x, loc ≤ x → x < p → c.Ignored x := by
  intro fuel
  induction fuel with
  | zero => intro se loc s p h; simp [ignoring] at h
  | succ fuel ih =>
    intro se loc s p h hs
    rw [ignoring] at h
    cases hc : c.ignore loc with
    | none =>
      rw [hc] at h
      simp only [Except.ok.injEq, Prod.mk.injEq] at h
      obtain ⟨rfl, rfl⟩ := h
      exact ⟨Nat.le_refl _, hs, Nat.le_refl _, hc, fun x a b => by omega⟩
    | some e =>
      rw [hc] at h
      obtain ⟨h1, h2, h3, h4, h5⟩ := ih _ _ _ _ h rfl
      have a1 := hi _ _ hc
      have a2 := hw.le e
      have a3 := hw.le se
      refine ⟨by omega, h2, by omega, h4, fun x hx hp => ?_⟩
      by_cases hx' : x < c.ws e
      · exact ⟨loc, e, hc, hx, hx'⟩
      · exact h5 x (by omega) hp

/-- The loop ends, with ignored text too. -/
theorem C103_ends_ignore (c : Cfg) (hw : c.White) (hi : c.Forward) : ∀ fuel loc, c.len < fuel + loc →
    ∃ r, skipTo c (fuel + 1) loc = .ok r := by
  intro fuel
  induction fuel with
  | zero =>
    intro loc h
    rw [skipTo, if_neg (by omega)]
    exact ⟨_, rfl⟩
  | succ fuel ih =>
    intro loc h
    rw [skipTo]
    by_cases h1 : loc ≤ c.len
    · rw [if_pos h1]
      by_cases h2 : c.fail (c.ws loc) = true
      · rw [if_pos h2]; exact ⟨_, rfl⟩
      · rw [if_neg h2]
        have hl := hw.le loc
        obtain ⟨s, p, hp⟩ := ignoring_ends c hw hi (fuel + 1) loc (c.ws loc) (by omega)
        obtain ⟨-, -, h3, -, -⟩ := ignoring_spec c hw hi _ _ _ _ _ hp rfl
        rw [hp]
        simp only
        cases c.target p with
        | some e => exact ⟨_, rfl⟩
        | none => exact ih _ (by omega)
    · rw [if_neg h1]; exact ⟨_, rfl⟩

/-- The place found is one where the expression is and that is not ignored, and each place before it where the expression is
lies in ignored text. -/
theorem C103_first_ignore_partial (c : Cfg) (hw : c.White) (hi : c.Forward) (hf : ∀ q, c.fail q = false) :
    ∀ fuel loc s p e, skipTo c fuel loc = .ok (some (s, p, e)) →
      loc ≤ s ∧ p = c.ws s ∧ c.target p = some e ∧ c.ignore p = none ∧
        ∀ q, loc ≤ q → c.ws q < p → c.target (c.ws q) = none ∨ c.Ignored (c.ws q) := by
  intro fuel
  induction fuel with
  | zero => intro loc s p e h; simp [skipTo] at h
  | succ fuel ih =>
    intro loc s p e h
    rw [skipTo, hf] at h
    by_cases h1 : loc ≤ c.len
    · rw [if_pos h1, if_neg (by simp)] at h
      cases hg : ignoring c (fuel + 1) loc (c.ws loc) with
      | error x => rw [hg] at h; simp at h
      | ok sp =>
        obtain ⟨s1, p1⟩ := sp
        rw [hg] at h
        simp only at h
        obtain ⟨g1, g2, g3, g4, g5⟩ := ignoring_spec c hw hi _ _ _ _ _ hg rfl
        have low : ∀ q, loc ≤ q → c.ws loc ≤ c.ws q := fun q hq => by
          by_cases hq' : q ≤ c.ws loc
          · exact Nat.le_of_eq (hw.same loc q hq hq').symm
          · have := hw.le q; omega
        cases ht : c.target p1 with
        | some e' =>
          rw [ht] at h
          simp only [Except.ok.injEq, Option.some.injEq, Prod.mk.injEq] at h
          obtain ⟨rfl, rfl, rfl⟩ := h
          exact ⟨g1, g2.symm, ht, g4, fun q a b => .inr (g5 _ (low q a) b)⟩
        | none =>
          rw [ht] at h
          obtain ⟨k1, k2, k3, k4, k5⟩ := ih _ _ _ _ h
          have hl := hw.le loc
          refine ⟨by omega, k2, k3, k4, fun q a b => ?_⟩
          rcases Nat.lt_trichotomy (c.ws q) p1 with hq | hq | hq
          · exact .inr (g5 _ (low q a) hq)
          · rw [hq]; exact .inl ht
          · refine k5 q ?_ b
            by_contra hc
            have e1 : c.ws p1 = c.ws q := hw.same q p1 (by omega) (by omega)
            rw [← g2, hw.fix, g2] at e1
            omega
    · rw [if_neg h1] at h; simp at h

/-- It is an error only if each place with the expression lies in ignored text. -/
theorem C103_none_ignore (c : Cfg) (hw : c.White) (hi : c.Forward) : ∀ fuel loc, skipTo c fuel loc = .ok none →
    ∀ q, loc ≤ q → q ≤ c.len → c.target (c.ws q) = none ∨ c.Ignored (c.ws q) := by
  intro fuel
  induction fuel with
  | zero => intro loc h; simp [skipTo] at h
  | succ fuel ih =>
    intro loc h q a b
    rw [skipTo, if_pos (by omega)] at h
    by_cases h2 : c.fail (c.ws loc) = true
    · rw [if_pos h2] at h; simp at h
    · rw [if_neg h2] at h
      cases hg : ignoring c (fuel + 1) loc (c.ws loc) with
      | error x => rw [hg] at h; simp at h
      | ok sp =>
        obtain ⟨s1, p1⟩ := sp
        rw [hg] at h
        simp only at h
        obtain ⟨g1, g2, g3, g4, g5⟩ := ignoring_spec c hw hi _ _ _ _ _ hg rfl
        have low : c.ws loc ≤ c.ws q := by
          by_cases hq' : q ≤ c.ws loc
          · exact Nat.le_of_eq (hw.same loc q a hq').symm
          · have := hw.le q; omega
        cases ht : c.target p1 with
        | some e' => rw [ht] at h; simp at h
        | none =>
          rw [ht] at h
          rcases Nat.lt_trichotomy (c.ws q) p1 with hq | hq | hq
          · exact .inr (g5 _ low hq)
          · rw [hq]; exact .inl ht
          · refine ih _ h q ?_ b
            by_contra hc
            have e1 : c.ws p1 = c.ws q := hw.same q p1 (by omega) (by omega)
            rw [← g2, hw.fix, g2] at e1
            omega

/-- A place with the expression that is not in ignored text is enough for a match. -/
theorem C103_found_ignore_partial (c : Cfg) (hw : c.White) (hi : c.Forward) (hf : ∀ q, c.fail q = false) (loc q : Nat)
    (h1 : loc ≤ q) (h2 : q ≤ c.len) (h3 : c.target (c.ws q) ≠ none) (h4 : ¬ c.Ignored (c.ws q)) :
    ∃ s e, skipTo c (c.len + 2) loc = .ok (some (s, c.ws s, e)) ∧ c.ws s ≤ c.ws q ∧ c.target (c.ws s) = some e := by
  obtain ⟨r, hr⟩ := C103_ends_ignore c hw hi (c.len + 1) loc (by omega)
  cases r with
  | none => exact absurd (C103_none_ignore c hw hi _ _ hr q h1 h2) (not_or.mpr ⟨h3, h4⟩)
  | some x =>
    obtain ⟨s, p, e⟩ := x
    obtain ⟨a, rfl, d, -, f⟩ := C103_first_ignore_partial c hw hi hf _ _ _ _ _ hr
    refine ⟨s, e, hr, ?_, d⟩
    by_contra hc
    exact absurd (f q h1 (by omega)) (not_or.mpr ⟨h3, h4⟩)

/-- The places 0 to 1 are ignored; the expression is at 0 and at 3. -/
def commented : Cfg where
  len := 5
  ws q := if q = 2 then 3 else q
  target q := if q = 0 then some 1 else if q = 3 then some 5 else none
  fail _ := false
  ignore q := if q = 0 then some 2 else none

example : commented.White := ⟨fun q => by simp only [commented]; split <;> omega,
  fun a q h1 h2 => by simp only [commented] at h2 ⊢; split at h2 <;> split <;> omega⟩
example : commented.Forward := fun q e h => by
  simp only [commented] at h ⊢
  split at h
  · simp only [Option.some.injEq] at h; omega
  · simp at h
example : skipTo commented 7 0 = .ok (some (2, 3, 5)) := by rfl
example : commented.Ignored 0 := ⟨0, 2, rfl, by decide, by decide⟩
example : ¬ commented.Ignored 3 := by
  rintro ⟨a, e, h, h1, h2⟩
  simp only [commented] at h h2
  split at h
  · simp only [Option.some.injEq] at h; subst h; simp at h2
  · simp at h

end EulerDB.Skip
