import Verif.Results.Props

/-!
# What `_flatten` keeps (C95)
-/

namespace EulerDB.Results

mutual
theorem flatten_named {n : String} (hn : n ≠ "") : (t : T) → t.flatten.flatMap (T.named n) = t.named n
  | .val v b => by simp [T.flatten]
  | .res k m ts => by
    rw [T.flatten]
    by_cases h : ((T.res k m ts).isGroup || m != "") = true
    · rw [if_pos h]; simp
    · rw [if_neg h, flattens_named hn ts]
      simp only [Bool.or_eq_true, not_or, Bool.not_eq_true] at h
      have hm : m = "" := by simpa using h.2
      rw [T.named, if_neg (by rw [hm]; exact hn.symm), if_neg (by rw [h.1, h.2]; simp)]
theorem flattens_named {n : String} (hn : n ≠ "") : (ts : Ts) → ts.flatten.flatMap (T.named n) = ts.named n
  | .nil => by simp [Ts.flatten, Ts.named]
  | .cons t ts => by rw [Ts.flatten, Ts.named, List.flatMap_append, flatten_named hn t, flattens_named hn ts]
end

/-- Flattening tokens keeps what is read under each name. -/
theorem C95_flatten_names {n : String} (hn : n ≠ "") (ts : Ts) : ts.flatten.flatMap (T.named n) = ts.named n :=
  flattens_named hn ts

/-- It leaves no token that is neither named nor a group. -/
theorem flat_mem : (∀ t : T, ∀ x ∈ t.flatten, (∃ v b, x = .val v b) ∨ x.isGroup = true ∨ x.name ≠ "") ∧
    ∀ ts : Ts, ∀ x ∈ ts.flatten, (∃ v b, x = .val v b) ∨ x.isGroup = true ∨ x.name ≠ "" := by
  refine ⟨fun t => ?_, fun ts => ?_⟩
  · exact T.rec (motive_1 := fun t => ∀ x ∈ t.flatten, (∃ v b, x = .val v b) ∨ x.isGroup = true ∨ x.name ≠ "")
      (motive_2 := fun ts => ∀ x ∈ ts.flatten, (∃ v b, x = .val v b) ∨ x.isGroup = true ∨ x.name ≠ "")
      (fun v b x hx => by simp only [T.flatten, List.mem_singleton] at hx; exact .inl ⟨v, b, hx⟩)
      (fun k n ts ih x hx => by
        rw [T.flatten] at hx
        by_cases h : ((T.res k n ts).isGroup || n != "") = true
        · rw [if_pos h, List.mem_singleton] at hx
          subst hx
          simpa [T.name] using Or.inr (a := ∃ v b, T.res k n ts = .val v b) (by simpa using h)
        · rw [if_neg h] at hx
          exact ih x hx)
      (fun x hx => by simp [Ts.flatten] at hx)
      (fun t ts ih1 ih2 x hx => by
        rw [Ts.flatten, List.mem_append] at hx
        exact hx.elim (ih1 x) (ih2 x)) t
  · exact Ts.rec (motive_1 := fun t => ∀ x ∈ t.flatten, (∃ v b, x = .val v b) ∨ x.isGroup = true ∨ x.name ≠ "")
      (motive_2 := fun ts => ∀ x ∈ ts.flatten, (∃ v b, x = .val v b) ∨ x.isGroup = true ∨ x.name ≠ "")
      (fun v b x hx => by simp only [T.flatten, List.mem_singleton] at hx; exact .inl ⟨v, b, hx⟩)
      (fun k n ts ih x hx => by
        rw [T.flatten] at hx
        by_cases h : ((T.res k n ts).isGroup || n != "") = true
        · rw [if_pos h, List.mem_singleton] at hx
          subst hx
          simpa [T.name] using Or.inr (a := ∃ v b, T.res k n ts = .val v b) (by simpa using h)
        · rw [if_neg h] at hx
          exact ih x hx)
      (fun x hx => by simp [Ts.flatten] at hx)
      (fun t ts ih1 ih2 x hx => by
        rw [Ts.flatten, List.mem_append] at hx
        exact hx.elim (ih1 x) (ih2 x)) ts

theorem C95_flatten_flat (ts : Ts) (x : T) (h : x ∈ ts.flatten) :
    (∃ v b, x = .val v b) ∨ x.isGroup = true ∨ x.name ≠ "" := flat_mem.2 ts x h

example : (Ts.cons (.res .plain "a" .nil) .nil).flatten = [.res .plain "a" .nil] := by simp [Ts.flatten, T.flatten]

end EulerDB.Results
