/-
C103: text is skipped up to the first place where the expression is, and not past what must not be skipped.
-/
import Verif.Skip.Model

namespace EulerDB.Skip

/-- Nothing is ignored. -/
def Cfg.Plain (c : Cfg) : Prop := ∀ q, c.ignore q = none

theorem skipTo_step (c : Cfg) (hp : c.Plain) (fuel loc : Nat) : skipTo c (fuel + 1) loc =
    if loc ≤ c.len then
      if c.fail (c.ws loc) then .ok (some (loc, c.ws loc, c.ws loc))
      else match c.target (c.ws loc) with
        | some e => .ok (some (loc, c.ws loc, e))
        | none => skipTo c fuel (c.ws loc + 1)
    else .ok none := by
  rw [skipTo]
  simp only [ignoring, hp (c.ws loc)]
  rfl

/-- The loop ends. -/
theorem C103_ends (c : Cfg) (hw : c.White) (hp : c.Plain) : ∀ fuel loc, c.len < fuel + loc →
    ∃ r, skipTo c (fuel + 1) loc = .ok r := by
  intro fuel
  induction fuel with
  | zero =>
    intro loc h
    rw [skipTo, if_neg (by omega)]
    exact ⟨_, rfl⟩
  | succ fuel ih =>
    intro loc h
    rw [skipTo_step c hp]
    by_cases h1 : loc ≤ c.len
    · rw [if_pos h1]
      by_cases h2 : c.fail (c.ws loc) = true
      · rw [if_pos h2]; exact ⟨_, rfl⟩
      · rw [if_neg h2]
        cases c.target (c.ws loc) with
        | some e => exact ⟨_, rfl⟩
        | none =>
          have := hw.le loc
          exact ih _ (by omega)
    · rw [if_neg h1]; exact ⟨_, rfl⟩

/-- Without `fail_on` the place found is the first. -/
theorem C103_first_partial (c : Cfg) (hw : c.White) (hp : c.Plain) (hf : ∀ q, c.fail q = false) :
    ∀ fuel loc s p e, skipTo c fuel loc = .ok (some (s, p, e)) →
      loc ≤ s ∧ s ≤ c.len ∧ p = c.ws s ∧ c.target p = some e ∧ ∀ q, loc ≤ q → q < s → c.target (c.ws q) = none := by
  intro fuel
  induction fuel with
  | zero => intro loc s p e h; simp [skipTo] at h
  | succ fuel ih =>
    intro loc s p e h
    rw [skipTo_step c hp, hf] at h
    by_cases h1 : loc ≤ c.len
    · rw [if_pos h1, if_neg (by simp)] at h
      cases ht : c.target (c.ws loc) with
      | some e' =>
        rw [ht] at h
        simp only [Except.ok.injEq, Option.some.injEq, Prod.mk.injEq] at h
        obtain ⟨rfl, rfl, rfl⟩ := h
        exact ⟨Nat.le_refl _, h1, rfl, ht, fun q a b => by omega⟩
      | none =>
        rw [ht] at h
        obtain ⟨h2, h3, h4, h5, h6⟩ := ih _ _ _ _ h
        have := hw.le loc
        refine ⟨by omega, h3, h4, h5, fun q a b => ?_⟩
        by_cases hq : q ≤ c.ws loc
        · rw [hw.same loc q a hq]; exact ht
        · exact h6 q (by omega) b
    · rw [if_neg h1] at h; simp at h

/-- Without `fail_on` it is an error only if the expression is nowhere. -/
theorem C103_none_partial (c : Cfg) (hw : c.White) (hp : c.Plain) :
    ∀ fuel loc, skipTo c fuel loc = .ok none → ∀ q, loc ≤ q → q ≤ c.len → c.target (c.ws q) = none := by
  intro fuel
  induction fuel with
  | zero => intro loc h; simp [skipTo] at h
  | succ fuel ih =>
    intro loc h q a b
    rw [skipTo_step c hp, if_pos (by omega)] at h
    by_cases h2 : c.fail (c.ws loc) = true
    · rw [if_pos h2] at h; simp at h
    · rw [if_neg h2] at h
      cases ht : c.target (c.ws loc) with
      | some e => rw [ht] at h; simp at h
      | none =>
        rw [ht] at h
        by_cases hq : q ≤ c.ws loc
        · rw [hw.same loc q a hq]; exact ht
        · exact ih _ h q (by omega) b

/-- If the expression is somewhere, it is found. -/
theorem C103_found_partial (c : Cfg) (hw : c.White) (hp : c.Plain) (hf : ∀ q, c.fail q = false) (loc q : Nat) (h1 : loc ≤ q)
    (h2 : q ≤ c.len) (h3 : c.target (c.ws q) ≠ none) :
    ∃ s e, skipTo c (c.len + 2) loc = .ok (some (s, c.ws s, e)) ∧ s ≤ q ∧ c.target (c.ws s) = some e := by
  obtain ⟨r, hr⟩ := C103_ends c hw hp (c.len + 1) loc (by omega)
  cases r with
  | none => exact absurd (C103_none_partial c hw hp _ _ hr q h1 h2) h3
  | some x =>
    obtain ⟨s, p, e⟩ := x
    obtain ⟨a, b, rfl, d, f⟩ := C103_first_partial c hw hp hf _ _ _ _ _ hr
    refine ⟨s, e, hr, ?_, d⟩
    by_contra hc
    exact h3 (f q h1 (by omega))

/-- What `fail_on` matches before the expression ends the search as a match (the documentation, 487-489, says there is no
match), whether or not the expression follows. -/
theorem C103_fails_fail_on (c : Cfg) (fuel loc : Nat) (h1 : loc ≤ c.len) (h2 : c.fail (c.ws loc) = true) :
    skipTo c (fuel + 1) loc = .ok (some (loc, c.ws loc, c.ws loc)) := by
  rw [skipTo, if_pos h1, if_pos h2]

/-- At any place before the expression. -/
theorem C103_fails_fail_on_later (c : Cfg) (hp : c.Plain) : ∀ (fuel loc s p e : Nat),
    skipTo c fuel loc = .ok (some (s, p, e)) → c.fail p = true → p = c.ws s ∧ e = p := by
  intro fuel
  induction fuel with
  | zero => intro loc s p e h; simp [skipTo] at h
  | succ fuel ih =>
    intro loc s p e h hfp
    rw [skipTo_step c hp] at h
    by_cases h1 : loc ≤ c.len
    · rw [if_pos h1] at h
      by_cases h2 : c.fail (c.ws loc) = true
      · rw [if_pos h2] at h
        simp only [Except.ok.injEq, Option.some.injEq, Prod.mk.injEq] at h
        obtain ⟨rfl, rfl, rfl⟩ := h
        exact ⟨rfl, rfl⟩
      · rw [if_neg h2] at h
        cases ht : c.target (c.ws loc) with
        | some e' =>
          rw [ht] at h
          simp only [Except.ok.injEq, Option.some.injEq, Prod.mk.injEq] at h
          obtain ⟨rfl, rfl, rfl⟩ := h
          exact absurd hfp h2
        | none => rw [ht] at h; exact ih _ _ _ _ h hfp
    · rw [if_neg h1] at h; simp at h

/-- What is ignored and may be empty keeps the loop from ending. -/
theorem C103_fails_ignore_empty (c : Cfg) (loc : Nat) (h1 : loc ≤ c.len) (h2 : c.fail (c.ws loc) = false)
    (h3 : c.ignore (c.ws loc) = some (c.ws loc)) (h4 : c.ws (c.ws loc) = c.ws loc) :
    ∀ fuel, skipTo c fuel loc = .error .nonterm := by
  have key : ∀ fuel se, ignoring c fuel se (c.ws loc) = .error .nonterm := by
    intro fuel
    induction fuel with
    | zero => intro se; rfl
    | succ fuel ih => intro se; rw [ignoring, h3]; simp only [h4]; exact ih _
  intro fuel
  cases fuel with
  | zero => rfl
  | succ fuel => rw [skipTo, if_pos h1, h2, if_neg (by simp), key]

/-- A text of five characters, the third of them a blank. -/
def sample : Cfg where
  len := 5
  ws q := if q = 2 then 3 else q
  target q := if q = 3 then some 5 else none
  fail _ := false
  ignore _ := none

example : sample.White := ⟨fun q => by simp only [sample]; split <;> omega,
  fun a q h1 h2 => by simp only [sample] at h2 ⊢; split at h2 <;> split <;> omega⟩
example : sample.Plain := fun _ => rfl
example : skipTo sample 7 0 = .ok (some (2, 3, 5)) := by rfl
example : skipTo { sample with fail := fun q => q == 1 } 7 0 = .ok (some (1, 1, 1)) := by rfl

end EulerDB.Skip
