/-
Model of the search for all matches of a parser in a text, and of the splitting and rebuilding of the text by them.

Code: /repo/parsing/core.py `_scan_string` 179-195, `_transformString` 221-239, `_split` 284-291; used by
/repo/parsing/core.py 514 and /repo/parsing/helpers.py 962.

Simplifications:
  * the parser is a parameter that gives the end of its match at a place, and a match begins where it was tried; `ws` is the
    place after white space;
  * the tokens of a match are a text that `f` gives; an empty one is left out by line 238, which changes nothing.
-/
import Verif.Py

namespace EulerDB.Scan

structure Cfg where
  len : Nat
  ws : Nat → Nat
  parse : Nat → Option Nat

/-- The loop of lines 183-195; `m` is `max_matches - matches`, `e` is `end`. -/
def scan (c : Cfg) (overlap : Bool) : Nat → Nat → Nat → Except PyErr (List (Nat × Nat))
  | 0, _, _ => .error .nonterm
  | fuel + 1, m, e =>
    if e ≤ c.len ∧ 0 < m then
      match c.parse (c.ws e) with
      | none => scan c overlap fuel m (c.ws e + 1)
      | some t =>
        match scan c overlap fuel (m - 1) (if overlap = true ∨ t ≤ e then e + 1 else t) with
        | .ok l => .ok ((c.ws e, t) :: l)
        | .error x => .error x
    else .ok []

/-- `string[a:b]`. -/
def slice (text : List Char) (a b : Nat) : List Char := (text.drop a).take (b - a)

/-- Lines 222-239, from `end`. -/
def rebuild (text : List Char) (f : Nat × Nat → List Char) : Nat → List (Nat × Nat) → List Char
  | last, [] => text.drop last
  | last, x :: r => slice text last x.1 ++ f x ++ rebuild text f x.2 r

/-- Lines 285-291, from `last`; `f` gives the separators that are included. -/
def split (text : List Char) (f : Nat × Nat → Option (List Char)) : Nat → List (Nat × Nat) → List (List Char)
  | last, [] => [text.drop last]
  | last, x :: r => slice text last x.1 :: ((f x).toList ++ split text f x.2 r)

end EulerDB.Scan
