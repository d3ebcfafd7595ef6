/-
Model of the parser that looks at the text before a place.

Code: /repo/parsing/enhancement.py `PrecededBy` 878-946 (`__init__` 905-916, `parse_impl` 918-941, `__regex__` 943-946);
/repo/parsing/expressions.py `And.parse_impl` 252-284; /repo/parsing/tokens.py `StringEnd.parse_impl` 707-715; used by
/repo/parsing/regex.py 224.

Simplifications:
  * the expression, white space and the line breaks of `StringEnd` are parameters that are given the number of characters of
    the text they see; the expression is one element of `test_expr` (a sequence may be merged into it, expressions.py 212-217);
  * the result is the place where what was matched begins, and the end of the result; names and tokens are left out.
-/
import Verif.Py

namespace EulerDB.Behind

/-- `exact` of lines 909-916. -/
inductive Kind | exact | window
deriving DecidableEq, Repr

structure Cfg where
  len : Nat
  /-- The end of the match at a place, in the first characters of the text. -/
  parse : Nat → Nat → Option Nat
  /-- The place after white space. -/
  gap : Nat → Nat → Nat
  /-- Only line breaks follow (tokens.py 705, 712). -/
  breaks : Nat → Nat → Bool
  /-- `parser_config.retreat`: `expr.min_length()`, or 0 (lines 909-916). -/
  min : Nat

/-- Where `StringEnd` is tried: `And` passes white space only if the expression took something (expressions.py 260-264). -/
def Cfg.index (c : Cfg) (lim p e : Nat) : Nat := if p < e then c.gap lim e else p

/-- `test_expr._parse(instring_slice, p)`, lines 926-932, with the first `lim` characters. -/
def Cfg.good (c : Cfg) (lim p : Nat) : Bool :=
  match c.parse lim p with
  | some e => decide (lim ≤ c.index lim p e) || c.breaks lim (c.index lim p e)
  | none => false

/-- The loop of lines 930-937, with `n` offsets left from `off`. -/
def search (c : Cfg) (start : Nat) : Nat → Nat → Option Nat
  | 0, _ => none
  | n + 1, off => if c.good start (start - off) then some (start - off) else search c start n (off + 1)

/-- `parse_impl`; the argument `retreat` of the constructor is not used (909-916 set it from `min_length`). -/
def behind (c : Cfg) (_retreat : Option Nat) (k : Kind) (start : Nat) : Option (Nat × Nat) :=
  match k with
  | .exact =>
    if start < c.min then none
    else match c.parse c.len (start - c.min) with
      | some _ => some (start - c.min, start)
      | none => none
  | .window => (search c start (start + 1 - c.min) c.min).map fun p => (p, start)

/-- `__regex__`, 943-946: `NotImplemented` cannot be called. -/
def regex (k : Kind) (r : List Char) : Except PyErr (List Char) :=
  match k with
  | .exact => .ok ("(?<=".toList ++ r ++ ")".toList)
  | .window => .error .typeError

end EulerDB.Behind
