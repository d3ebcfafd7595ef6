/-
C102: a statement read by the second SQL grammar keeps its limit, its joins and its columns.
-/
import Verif.Presto.Query
import Verif.Presto.Fails

namespace EulerDB.Presto

/-! ### Limits -/

/-- TOP with a number that is not 0 is kept. -/
theorem C102_top_partial {α : Type} (n : Nat) (h : n ≠ 0) (l : List α) :
    Lim.rows (writeLimit (readLimit (some n) none)) l = asked (some n) none l := by
  cases n with
  | zero => exact absurd rfl h
  | succ n => rfl

/-- A statement without TOP and LIMIT gets none. -/
theorem C102_no_limit_partial {α : Type} (l : List α) :
    Lim.rows (writeLimit (readLimit none none)) l = asked none none l := rfl

/-- LIMIT after a set operation is kept. -/
theorem C102_other_limit (limit : Option Lim) : readLimitOther limit = limit := rfl

/-- LIMIT after a simple query is lost, whatever it is. -/
theorem C102_fails_limit (top : Option Nat) (limit : Option Lim) : readLimit top limit = readLimit top none := rfl

/-- All rows are given where `n` were asked for. -/
theorem C102_fails_limit_rows {α : Type} (n : Nat) (l : List α) (h : n < l.length) :
    Lim.rows (readLimit none (some (.num n))) l = l ∧ asked none (some (.num n)) l ≠ l := by
  refine ⟨rfl, fun hc => ?_⟩
  have := congrArg List.length hc
  simp only [asked, Lim.rows, Option.map_none, List.length_take] at this
  omega

example : 1 < [0, 0].length := by decide

/-- TOP 0 gives all rows. -/
theorem C102_fails_top_zero {α : Type} (l : List α) (h : l ≠ []) :
    Lim.rows (readLimit (some 0) none) l = l ∧ asked (some 0) none l = [] ∧ asked (some 0) none l ≠ l := by
  have : asked (some 0) none l = [] := by simp [asked, Lim.rows]
  exact ⟨rfl, this, by rw [this]; exact fun e => h e.symm⟩

/-! ### Joins -/

/-- Words in upper case, and no word, give the kind that is asked for. -/
theorem C102_join_partial (w : Option (List Char)) (h : ∀ x ∈ w, x.map Char.toUpper = x) : readKind w = askedKind w := by
  cases w with
  | none => rfl
  | some x =>
    have hx := h x rfl
    simp only [readKind, askedKind, isWord, hx]

example : ∀ x ∈ some "LEFT".toList, x.map Char.toUpper = x := by
  intro x hx
  obtain rfl := Option.some.inj hx
  decide

/-- A join that is read as an inner join is an inner join or was asked for in another case. -/
theorem C102_inner_iff (w : List Char) : readKind (some w) = .inner ↔
    w ≠ "LEFT".toList ∧ w ≠ "RIGHT".toList ∧ w ≠ "FULL".toList := by
  have e : readKind (some w) = if w = "LEFT".toList then .left else if w = "RIGHT".toList then .right
      else if w = "FULL".toList then .full else .inner := rfl
  rw [e]
  by_cases h1 : w = "LEFT".toList
  · simp only [h1, if_true]; simp
  · by_cases h2 : w = "RIGHT".toList
    · rw [if_neg h1, if_pos h2]; simp [h2]
    · by_cases h3 : w = "FULL".toList
      · rw [if_neg h1, if_neg h2, if_pos h3]; simp [h3]
      · rw [if_neg h1, if_neg h2, if_neg h3]; exact ⟨fun _ => ⟨h1, h2, h3⟩, fun _ => rfl⟩

/-- `left` not in upper case is read as an inner join. -/
theorem C102_fails_join_case (w : List Char) (h : isWord "LEFT" w) (hw : w ≠ "LEFT".toList) :
    askedKind (some w) = .left ∧ readKind (some w) = .inner := by
  refine ⟨by simp only [askedKind, if_pos h], (C102_inner_iff w).mpr ⟨hw, ?_, ?_⟩⟩
  · rintro rfl; revert h; decide
  · rintro rfl; revert h; decide

example : isWord "LEFT" "left".toList ∧ "left".toList ≠ "LEFT".toList := by decide

/-- Rows without a partner are then lost. -/
theorem C102_fails_join_rows {α β : Type} (w : List Char) (h : isWord "LEFT" w) (hw : w ≠ "LEFT".toList)
    (c : α → β → Bool) (l : List α) (r : List β) (a : α) (ha : a ∈ l) (hr : r.any (c a) = false) :
    (some a, none) ∈ joinRows (askedKind (some w)) c l r ∧ (some a, none) ∉ joinRows (readKind (some w)) c l r := by
  obtain ⟨h1, h2⟩ := C102_fails_join_case w h hw
  rw [h1, h2]
  constructor
  · simp only [joinRows, List.mem_append]
    left; right
    simp only [true_or, if_true, List.mem_map, List.mem_filter]
    exact ⟨a, ⟨ha, by rw [hr]; rfl⟩, rfl⟩
  · simp [joinRows]

/-- So are those of the right side, for `right` not in upper case. -/
theorem C102_fails_right_rows {α β : Type} (w : List Char) (h : isWord "RIGHT" w) (hw : w ≠ "RIGHT".toList)
    (c : α → β → Bool) (l : List α) (r : List β) (b : β) (hb : b ∈ r) (hl : l.any (c · b) = false) :
    (none, some b) ∈ joinRows (askedKind (some w)) c l r ∧ (none, some b) ∉ joinRows (readKind (some w)) c l r := by
  have hn : ¬ isWord "LEFT" w := by
    intro hc
    have e : w.map Char.toUpper = "RIGHT".toList := h
    rw [isWord, e] at hc
    revert hc; decide
  have h1 : askedKind (some w) = .right := by simp only [askedKind, if_neg hn, if_pos h]
  have h2 : readKind (some w) = .inner := (C102_inner_iff w).mpr
    ⟨by rintro rfl; revert h; decide, hw, by rintro rfl; revert h; decide⟩
  rw [h1, h2]
  constructor
  · simp only [joinRows, List.mem_append]
    right
    simp only [true_or, if_true, List.mem_map, List.mem_filter]
    exact ⟨b, ⟨hb, by rw [hl]; rfl⟩, rfl⟩
  · simp [joinRows]

example : isWord "RIGHT" "right".toList ∧ "right".toList ≠ "RIGHT".toList := by decide

/-- NATURAL LEFT JOIN is read as an inner join, in any case. -/
theorem C102_fails_natural (w : List Char) (h : isWord "LEFT" w) :
    askedKind (some w) = .left ∧ readNatural (some w) = .inner := ⟨by simp only [askedKind, if_pos h], rfl⟩

/-- A join with USING is never written. -/
theorem C102_fails_using (cols : List (List Char)) : writeCriteria (.using_ cols) = .error .attributeError := by
  simp [writeCriteria, joinAttrs]

/-- A join with ON is. -/
theorem C102_on (e : List Tok) : writeCriteria (.on e) = .ok (["ON".toList], .lp :: (e ++ [.rp])) := rfl

/-- The text after ON has one pair of parentheses more than the grammar takes (`p_join_criteria` has the two forms that
`where_opt` has): no condition is read there. -/
theorem C102_fails_on (e : Ex) (h : isCond e = true) (t : List Tok)
    (ht : writeCriteria (.on (fmt e)) = .ok (["ON".toList], t)) : ¬ ∃ f, Reads .where_ t f := by
  rintro ⟨f, hf⟩
  rw [C102_on] at ht
  simp only [Except.ok.injEq, Prod.mk.injEq, true_and] at ht
  cases hf with
  | where_ hf =>
    have := reads_outside hf (by simp)
    rw [← ht, outside, outside_append, fmt_inside e h _ (by decide)] at this
    simp at this
  | whereParen hf =>
    rename_i u
    simp only [List.cons.injEq, true_and] at ht
    rw [← List.append_cancel_right ht] at hf
    exact C101_fails_condition e h ⟨f, hf⟩

/-! ### Columns -/

/-- `*` is written as nothing. -/
theorem C102_fails_star : writeItem readStar = .inl [] := rfl

/-- A column keeps its expression and its name. -/
theorem C102_column (e : List Tok) (n : Option (List Char)) (h : n ≠ some []) : writeItem (.col e n) = .inr (e, n) := by
  simp [writeItem, h]

end EulerDB.Presto
