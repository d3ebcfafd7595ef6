/-
Model of the parser that skips text up to an expression.

Code: /repo/parsing/enhancement.py `SkipTo` 474-564 (`__init__` 480-498, `parse_impl` 512-564); used by
/repo/sql_parsing/sql_parser.py 76, /repo/parsing/core.py 545, 771, /repo/parsing/expressions.py 163.

Simplifications:
  * the text is its length; the expression, `fail_on` and `ignore` are parameters that give the end of what they match at a
    place, `ws` is the place after white space;
  * the result is given by three places: where the skipped text ends, where the expression begins, and where it ends
    (`skip_end`, `before_end`, `loc`); whether the expression is included (559-564) is left to the reader of it.
-/
import Verif.Py

namespace EulerDB.Skip

structure Cfg where
  len : Nat
  ws : Nat → Nat
  target : Nat → Option Nat
  fail : Nat → Bool
  ignore : Nat → Option Nat

/-- Lines 529-539: past what is ignored, from `loc`; `se` is `skip_end`. -/
def ignoring (c : Cfg) : Nat → Nat → Nat → Except PyErr (Nat × Nat)
  | 0, _, _ => .error .nonterm
  | fuel + 1, se, loc =>
    match c.ignore loc with
    | none => .ok (se, loc)
    | some e => ignoring c fuel e (c.ws e)

/-- The loop of lines 518-550; `none` is the ParseException of line 550. A match of `fail_on` leaves the loop (525) as a
match of the expression does. -/
def skipTo (c : Cfg) : Nat → Nat → Except PyErr (Option (Nat × Nat × Nat))
  | 0, _ => .error .nonterm
  | fuel + 1, loc =>
    if loc ≤ c.len then
      if c.fail (c.ws loc) then .ok (some (loc, c.ws loc, c.ws loc))
      else
        match ignoring c (fuel + 1) loc (c.ws loc) with
        | .error x => .error x
        | .ok (se, p) =>
          match c.target p with
          | some e => .ok (some (se, p, e))
          | none => skipTo c fuel (p + 1)
    else .ok none

/-- White space is passed forwards, and from every place in it to the same end. -/
structure Cfg.White (c : Cfg) : Prop where
  le : ∀ q, q ≤ c.ws q
  same : ∀ a q, a ≤ q → q ≤ c.ws a → c.ws q = c.ws a

end EulerDB.Skip
