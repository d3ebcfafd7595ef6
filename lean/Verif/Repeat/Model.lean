import Verif.Py

/-!
# Repetition in the parsing library

Transcribed from /repo/parsing/enhancement.py: `Many.parse_impl` 249-312, `OneOrMore` 390-408, `ZeroOrMore` 411-434, `Optional.parse_impl` 458-465; the truth value of a result is
`ParseResults.__bool__` of /repo/parsing/results.py 136-151 (see C95): false for a result without values, names and groups, such as that of `Suppress` (enhancement.py 849-875).

Simplifications. The text has `len` characters; the element is any function from positions to a result or a ParseException (`none`), and a result is its start, its end and its truth
value. `skip` is `whitespace.skip`. There is no `stop_on` and no default of Optional, the element is no `LookBehind`, and MAX_INT is no bound. The loop is run for a number of rounds; `none` is that it has not ended.
-/

namespace EulerDB.Repeat

structure Item where
  start : Nat
  fin : Nat
  true? : Bool
  deriving DecidableEq, Repr

structure Many where
  len : Nat
  skip : Nat → Nat
  parse : Nat → Option Item
  lo : Nat
  hi : Option Nat

inductive Out where
  /-- start, end and tokens of the result -/
  | ok (start fin : Nat) (items : List Item)
  | fail
  deriving DecidableEq, Repr

/-- `count < max` -/
def below (n : Nat) : Option Nat → Bool
  | none => true
  | some h => decide (n < h)

/-- The end of `parse_impl` (287-312); `acc` has the last item first. -/
def Many.finish (m : Many) (start : Nat) (acc : List Item) : Out :=
  match acc with
  | [] => if m.lo = 0 then .ok start start [] else .fail
  | a :: l => if acc.length < m.lo then .fail else .ok ((a :: l).getLast?.map (·.start) |>.getD start) a.fin acc.reverse

/-- The loop of `parse_impl`; a ParseException leaves it, and raises if there were too few. -/
def Many.loop (m : Many) (start : Nat) : Nat → Nat → Nat → List Item → Option Out
  | 0, _, _, _ => none
  | n + 1, fin, index, acc =>
    if fin < m.len ∧ below acc.length m.hi = true then
      let i := if index < fin then m.skip fin else index
      match m.parse i with
      | none => some (if m.lo ≤ acc.length then m.finish start acc else .fail)
      | some r => m.loop start n r.fin i (if r.true? then r :: acc else acc)
    else some (m.finish start acc)

/-- `parse_impl(string, start)` in `n` rounds. -/
def Many.run (m : Many) (n start : Nat) : Option Out := m.loop start n start start []

/-- `Optional.parse_impl`. -/
def optional (parse : Nat → Option Item) (start : Nat) : Out :=
  match parse start with
  | some r => .ok r.start r.fin [r]
  | none => .ok start start []

/-! ## What is meant -/

/-- `Reps m i l e`: from position `i` the element is found again and again, with whitespace between; `l` are the results and `e` is where the last one ends. -/
inductive Reps (m : Many) : Nat → List Item → Nat → Prop where
  | nil (i : Nat) : Reps m i [] i
  | one {i : Nat} {r : Item} : m.parse i = some r → Reps m i [r] r.fin
  | more {i : Nat} {r : Item} {l : List Item} {e : Nat} : m.parse i = some r → l ≠ [] → Reps m (m.skip r.fin) l e → Reps m i (r :: l) e

/-- There are no more: the text ends, the bound is reached, or the element is not found again. -/
def Last (m : Many) (start : Nat) (l : List Item) (e : Nat) : Prop :=
  m.len ≤ e ∨ below l.length m.hi = false ∨ m.parse (if l = [] then start else m.skip e) = none

/-- The result of a repetition: the items found, from the start of the first to the end of the last. -/
def result (m : Many) (start : Nat) (l : List Item) (e : Nat) : Out :=
  if l.length < m.lo then .fail else .ok (l.head?.map (·.start) |>.getD start) e l

/-- The element takes at least one character and leaves something in the result, and skipping goes forward. -/
structure Steady (m : Many) : Prop where
  forward : ∀ i r, m.parse i = some r → i < r.fin
  kept : ∀ i r, m.parse i = some r → r.true? = true
  skip : ∀ i, i ≤ m.skip i

end EulerDB.Repeat
