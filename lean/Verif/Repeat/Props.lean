import Verif.Repeat.Model

/-!
# Repetitions that end and take all there is (C96)
-/

namespace EulerDB.Repeat

/-- Repetitions with one more at the end. -/
theorem Reps.snoc {m : Many} {i : Nat} {l : List Item} {e : Nat} (h : Reps m i l e) : l ≠ [] → ∀ {r : Item}, m.parse (m.skip e) = some r → Reps m i (l ++ [r]) r.fin := by
  induction h with
  | nil i => exact fun h => absurd rfl h
  | one h1 => exact fun _ {r} h2 => .more h1 (by simp) (.one h2)
  | more h1 h2 h3 ih => exact fun _ {r} h4 => .more h1 (by simp) (ih h2 h4)

theorem loop_succ (m : Many) (start n fin index : Nat) (acc : List Item) :
    m.loop start (n + 1) fin index acc = if fin < m.len ∧ below acc.length m.hi = true then
      (match m.parse (if index < fin then m.skip fin else index) with
      | none => some (if m.lo ≤ acc.length then m.finish start acc else .fail)
      | some r => m.loop start n r.fin (if index < fin then m.skip fin else index) (if r.true? then r :: acc else acc))
    else some (m.finish start acc) := rfl

/-- Where the last of the items so far ends. -/
def lastEnd (start : Nat) : List Item → Nat
  | [] => start
  | a :: _ => a.fin

theorem finish_result (m : Many) (start : Nat) (acc : List Item) (e : Nat) (he : e = lastEnd start acc) :
    m.finish start acc = result m start acc.reverse e := by
  subst he
  cases acc with
  | nil =>
    unfold Many.finish result
    by_cases h : m.lo = 0
    · simp [h, lastEnd]
    · have : 0 < m.lo := Nat.pos_of_ne_zero h
      simp [h, this]
  | cons a l =>
    unfold Many.finish result
    simp only [List.length_reverse, List.head?_reverse, lastEnd]

/-- The state of the loop: the items so far are repetitions from the start, and the last ends where the loop is. -/
structure Inv (m : Many) (start fin index : Nat) (acc : List Item) : Prop where
  reps : Reps m start acc.reverse fin
  last : fin = lastEnd start acc
  next : (if index < fin then m.skip fin else index) = if acc = [] then start else m.skip fin

theorem loop_ok {m : Many} (hs : Steady m) (start : Nat) : (n : Nat) → {fin index : Nat} → {acc : List Item} → Inv m start fin index acc → m.len ≤ fin + n →
    ∃ l e, Reps m start l e ∧ Last m start l e ∧ m.loop start (n + 1) fin index acc = some (result m start l e)
  | n, fin, index, acc, h, hn => by
    rw [loop_succ]
    have hl : ∀ x : Nat, (if acc.reverse = [] then start else x) = if acc = [] then start else x := by
      intro x
      cases acc with
      | nil => rfl
      | cons a l => simp
    split
    · next hc =>
      rw [h.next]
      split
      · next hp =>
        refine ⟨acc.reverse, fin, h.reps, .inr (.inr (by rw [hl]; exact hp)), ?_⟩
        split
        · rw [finish_result m start acc fin h.last]
        · next hlo =>
          unfold result
          rw [if_pos (by rw [List.length_reverse]; omega)]
      · next r hp =>
        have hlt := hs.forward _ _ hp
        rw [if_pos (hs.kept _ _ hp)]
        have hi : fin ≤ (if acc = [] then start else m.skip fin) := by
          split
          · next ha =>
            subst ha
            exact Nat.le_of_eq h.last
          · exact hs.skip fin
        have hinv : Inv m start r.fin (if acc = [] then start else m.skip fin) (r :: acc) := by
          refine ⟨?_, rfl, ?_⟩
          · cases acc with
            | nil =>
              rw [if_pos rfl] at hp
              exact .one hp
            | cons a l =>
              rw [if_neg (by simp)] at hp
              have := h.reps.snoc (by simp) hp
              rw [List.reverse_cons (a := r)]
              exact this
          · rw [if_pos hlt, if_neg (by simp)]
        cases n with
        | zero => omega
        | succ n => exact loop_ok hs start n hinv (by omega)
    · next hc =>
      refine ⟨acc.reverse, fin, h.reps, ?_, by rw [finish_result m start acc fin h.last]⟩
      by_cases hf : fin < m.len
      · refine .inr (.inl ?_)
        rw [List.length_reverse]
        simpa [hf] using hc
      · exact .inl (Nat.le_of_not_lt hf)

/-- **C96 (partial: repetition).** If the element takes a character whenever it is found and leaves something in the result, the loop ends after at most as many rounds as the text has
characters left, and one; the result has all repetitions there are (up to the bound), from the start of the first to the end of the last, and it is
an error exactly if there are too few. -/
theorem C96_many_partial {m : Many} (hs : Steady m) (start : Nat) :
    ∃ l e, Reps m start l e ∧ Last m start l e ∧ ∀ n, m.len - start ≤ n → m.run (n + 1) start = some (result m start l e) := by
  obtain ⟨l, e, h1, h2, h3⟩ := loop_ok hs start (m.len - start) (fin := start) (index := start) (acc := []) ⟨.nil start, rfl, by simp⟩ (by omega)
  refine ⟨l, e, h1, h2, fun n hn => ?_⟩
  have mono : ∀ k fin index acc o, m.loop start k fin index acc = some o → m.loop start (k + 1) fin index acc = some o := by
    intro k
    induction k with
    | zero =>
      intro fin index acc o h
      cases h
    | succ k ih =>
      intro fin index acc o h
      rw [loop_succ] at h ⊢
      split at h
      · next hc =>
        rw [if_pos hc]
        split at h
        · exact h
        · exact ih _ _ _ _ h
      · next hc =>
        rw [if_neg hc]
        exact h
  have : ∀ d, m.loop start (m.len - start + 1 + d) start start [] = some (result m start l e) := by
    intro d
    induction d with
    | zero => exact h3
    | succ d ih => exact mono _ _ _ _ _ ih
  have h := this (n - (m.len - start))
  have e1 : m.len - start + 1 + (n - (m.len - start)) = n + 1 := by omega
  rw [e1] at h
  exact h

/-- Repetitions are the same list for all: which are found depends on the text only. -/
theorem Reps.ends {m : Many} {i : Nat} {l : List Item} {e e' : Nat} (h : Reps m i l e) (h' : Reps m i l e') : e = e' := by
  induction h with
  | nil i => cases h'; rfl
  | one h1 =>
    cases h' with
    | one _ => rfl
    | more _ h2 _ => exact absurd rfl h2
  | more h1 h2 h3 ih =>
    cases h' with
    | one _ => exact absurd rfl h2
    | more _ _ h4 => exact ih h4

theorem loop_zero {m : Many} (h0 : m.lo = 0) (start : Nat) : (n : Nat) → (fin index : Nat) → (acc : List Item) → m.loop start n fin index acc ≠ some .fail
  | 0, _, _, _ => by
    intro h
    cases h
  | n + 1, fin, index, acc => by
    rw [loop_succ]
    have hf : m.finish start acc ≠ .fail := by
      cases acc with
      | nil =>
        unfold Many.finish
        rw [if_pos h0]
        intro h
        cases h
      | cons a l =>
        unfold Many.finish
        rw [h0]
        intro h
        cases h
    split
    · split
      · rw [if_pos (by omega)]
        intro h
        injection h with h
        exact hf h
      · exact loop_zero h0 start n _ _ _
    · intro h
      injection h with h
      exact hf h

/-- **C96 (ZeroOrMore and Optional do not fail).** Whatever the element, a repetition that need not be there never raises, and neither does Optional. -/
theorem C96_zero {m : Many} (h0 : m.lo = 0) (start n : Nat) : m.run n start ≠ some .fail ∧ optional m.parse start ≠ .fail := by
  refine ⟨loop_zero h0 start n _ _ _, ?_⟩
  unfold optional
  split <;> (intro h; cases h)

/-- `ZeroOrMore("," + digit)` on `,1 ,2x`: an element of two characters at 0 and 3. -/
def commas : Many where
  len := 6
  skip i := if i = 2 then 3 else i
  parse i := if i = 0 then some ⟨0, 2, true⟩ else if i = 3 then some ⟨3, 5, true⟩ else none
  lo := 1
  hi := none

example : Steady commas ∧ commas.run 7 0 = some (.ok 0 5 [⟨0, 2, true⟩, ⟨3, 5, true⟩]) := by
  refine ⟨⟨fun i r h => ?_, fun i r h => ?_, fun i => ?_⟩, by decide⟩
  · have h' : (if i = 0 then some (⟨0, 2, true⟩ : Item) else if i = 3 then some ⟨3, 5, true⟩ else none) = some r := h
    split at h'
    · next e => cases h'; subst e; decide
    · split at h'
      · next e => cases h'; subst e; decide
      · cases h'
  · have h' : (if i = 0 then some (⟨0, 2, true⟩ : Item) else if i = 3 then some ⟨3, 5, true⟩ else none) = some r := h
    split at h'
    · cases h'; rfl
    · split at h'
      · cases h'; rfl
      · cases h'
  · show i ≤ if i = 2 then 3 else i
    split
    · next e => subst e; decide
    · exact Nat.le_refl _

end EulerDB.Repeat
