import Verif.Repeat.Props

/-!
# Repetitions that do not end, and that forget what they took (C96)
-/

namespace EulerDB.Repeat

theorem loop_stuck {m : Many} {start i : Nat} {r : Item} (hp : m.parse i = some r) (hf : r.fin = i) (ht : r.true? = false) (hl : i < m.len) {acc : List Item}
    (hh : below acc.length m.hi = true) : (n : Nat) → m.loop start n i i acc = none
  | 0 => rfl
  | n + 1 => by
    rw [loop_succ, if_pos ⟨hl, hh⟩, if_neg (Nat.lt_irrefl i), hp]
    show m.loop start n r.fin i (if r.true? then r :: acc else acc) = none
    rw [ht, hf]
    exact loop_stuck hp hf ht hl hh n

/-- **C96 (false: repetition of what may be nothing).** If the element is found with nothing in it (an Optional that is not there, an Empty), the loop never ends, unless the
text does. -/
theorem C96_fails_empty {m : Many} {start : Nat} {r : Item} (hp : m.parse start = some r) (hf : r.fin = start) (ht : r.true? = false) (hl : start < m.len) (hh : m.hi ≠ some 0) (n : Nat) :
    m.run n start = none := by
  refine loop_stuck hp hf ht hl ?_ n
  show below 0 m.hi = true
  unfold below
  split
  · rfl
  · next h e =>
    rw [decide_eq_true_eq]
    refine Nat.pos_of_ne_zero fun h0 => hh ?_
    rw [e, h0]

theorem loop_true {m : Many} {start i : Nat} {r : Item} (hp : m.parse i = some r) (hf : r.fin = i) (hl : i < m.len) (hh : m.hi = none) : (n : Nat) → (acc : List Item) → m.loop start n i i acc = none
  | 0, _ => rfl
  | n + 1, acc => by
    have hb : below acc.length m.hi = true := by rw [hh]; rfl
    rw [loop_succ, if_pos ⟨hl, hb⟩, if_neg (Nat.lt_irrefl i), hp]
    show m.loop start n r.fin i (if r.true? then r :: acc else acc) = none
    rw [hf]
    exact loop_true hp hf hl hh n _

/-- **C96 (false: repetition of a name or a group with nothing in it).** Without a bound it does not end either. -/
theorem C96_fails_forever {m : Many} {start : Nat} {r : Item} (hp : m.parse start = some r) (hf : r.fin = start) (hl : start < m.len) (hh : m.hi = none) (n : Nat) : m.run n start = none :=
  loop_true hp hf hl hh n []

theorem loop_suppressed {m : Many} (hs : ∀ i r, m.parse i = some r → r.true? = false) (start : Nat) : (n : Nat) → (fin index : Nat) → (o : Out) →
    m.loop start n fin index [] = some o → o = if m.lo = 0 then .ok start start [] else .fail
  | 0, _, _, _, h => by cases h
  | n + 1, fin, index, o, h => by
    rw [loop_succ] at h
    split at h
    · split at h
      · injection h with h
        rw [← h]
        show (if m.lo ≤ 0 then (if m.lo = 0 then Out.ok start start [] else .fail) else .fail) = _
        by_cases h0 : m.lo = 0
        · rw [if_pos (by omega)]
        · rw [if_neg (by omega), if_neg h0]
      · next r hp =>
        rw [hs _ _ hp] at h
        exact loop_suppressed hs start n _ _ o h
    · injection h with h
      exact h.symm

/-- **C96 (false: repetition of what is suppressed).** If nothing of the element is kept in the result, the repetition gives back all it took (the result ends where it began), and if it must
be there at least once it fails, however often the element is there. -/
theorem C96_fails_suppressed {m : Many} (hs : ∀ i r, m.parse i = some r → r.true? = false) (start n : Nat) (o : Out) (h : m.run n start = some o) :
    o = if m.lo = 0 then .ok start start [] else .fail := loop_suppressed hs start n _ _ o h

/-- `ZeroOrMore(Suppress("a"))` and `OneOrMore(Suppress("a"))` on `aab`. -/
def suppressed (lo : Nat) : Many where
  len := 3
  skip i := i
  parse i := if i < 2 then some ⟨i, i + 1, false⟩ else none
  lo := lo
  hi := none

/-- The element is there twice; nothing is taken, and OneOrMore fails. -/
theorem C96_fails_suppressed_text : (suppressed 0).run 5 0 = some (.ok 0 0 []) ∧ (suppressed 1).run 5 0 = some .fail ∧
    Reps (suppressed 0) 0 [⟨0, 1, false⟩, ⟨1, 2, false⟩] 2 := ⟨by decide, by decide, .more rfl (by simp) (.one rfl)⟩

/-- **C96 (false: what is kept and what is not).** Elements of which nothing is kept are not counted: behind the last one that is kept the text is given back, and before the first the
bound does not hold - of at most one element two are taken. -/
theorem C96_fails_mixed :
    (Many.mk 3 id (fun i => if i = 0 then some ⟨0, 1, true⟩ else if i = 1 then some ⟨1, 2, false⟩ else none) 0 none).run 5 0 = some (.ok 0 1 [⟨0, 1, true⟩]) ∧
    (Many.mk 3 id (fun i => if i = 0 then some ⟨0, 1, false⟩ else if i = 1 then some ⟨1, 2, true⟩ else none) 1 (some 1)).run 5 0 = some (.ok 1 2 [⟨1, 2, true⟩]) := by
  decide

/-- **C96 (false: the end of the text).** At the end of the text the element is not tried, so a repetition that must be there fails even if its element is found
in nothing. -/
theorem C96_fails_end {m : Many} {start : Nat} (hl : m.len ≤ start) (h : 0 < m.lo) (n : Nat) : m.run (n + 1) start = some .fail := by
  unfold Many.run
  rw [loop_succ, if_neg (by omega)]
  show some (if m.lo = 0 then _ else _) = _
  rw [if_neg (by omega)]

end EulerDB.Repeat
