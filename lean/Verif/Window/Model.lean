/-
Model of the frame of a window function: how `ROWS ...` and `RANGE ...` are parsed, and how `OVER (...)` is written.

Code: /repo/sql_parsing/windows.py `_to_bound_call` 21-41, `_to_between_call` 44-61, the frame in `window` 73-90;
/repo/sql_parsing/formatting.py `value` 206-261; /repo/sql_parsing/utils.py `parse_int` 598-602, `int_num` 605.

Simplifications:
  * the limit of a ROWS frame is a Python integer without an exponent (`1e3` is outside the model: `unmod`), the one of a
    RANGE frame an expression given by its parser; a limit that is a float is outside the model (`unmod`, `notSupported`);
  * the texts of PARTITION BY and ORDER BY are given by their formatters;
  * an exception of a parse action is `crash`.
-/
import Verif.Sql.Parser
import Verif.Whole.Text

namespace EulerDB.Window

open EulerDB EulerDB.Sql

/-- The dictionary a bound is parsed to. -/
abbrev Range := Dict String Json

/-- `== "unbounded"` (windows.py 29 and 36). -/
def isUnbounded : Json → Bool
  | .str s => s == "unbounded"
  | _ => false

/-- `== 0`. -/
def isZero : Json → Bool
  | .int z => z == 0
  | _ => false

/-- windows.py 28-41: a limit before (`true`) or after the current row. -/
def boundCall (before : Bool) (limit : Json) (r : List Char) : R Range :=
  if before then
    if isUnbounded limit then .ok [("max", .int 0)] r
    else
      match limit with
      | .dict d => .ok [("min", .dict [("neg", .dict d)]), ("max", .int 0)] r
      | .int z => .ok [("min", .int (-z)), ("max", .int 0)] r
      | .float _ => .unmod
      | _ => .crash
  else
    if isUnbounded limit then .ok [("min", .int 0)] r
    else
      match limit with
      | .dict d => .ok [("min", .dict [("neg", .dict d)]), ("max", .int 0)] r
      | .float _ => .unmod
      | l => .ok [("min", .int 0), ("max", l)] r

/-- windows.py 75 and 79: the direction after a limit. -/
def direction (limit : Json) (s : List Char) : R Range :=
  match kw "preceding" s with
  | some r => boundCall true limit r
  | none =>
    match kw "following" s with
    | some r => boundCall false limit r
    | none => .fail

/-- windows.py 73-80: `CURRENT ROW`, or a limit and a direction. -/
def bound (limit : List Char → R Json) (s : List Char) : R Range :=
  match kws ["current", "row"] s with
  | some r => .ok [("min", .int 0), ("max", .int 0)] r
  | none =>
    match kw "unbounded" s with
    | some r => direction (.str "unbounded") r
    | none =>
      match limit s with
      | .ok j r => direction j r
      | .fail => .fail
      | .crash => .crash
      | .unmod => .unmod

/-- An entry of a dictionary that `scrub` leaves out if it is None. -/
def entry (k : String) : Option Json → Range
  | none => []
  | some j => [(k, j)]

/-- windows.py 44-61. -/
def betweenCall (minn maxx : Range) : Range :=
  if (maxx.get? "max").any isZero then entry "min" (minn.get? "min") ++ entry "max" (maxx.get? "min")
  else if (minn.get? "min").any isZero then entry "min" (minn.get? "max") ++ entry "max" (maxx.get? "max")
  else entry "min" (minn.get? "min") ++ entry "max" (maxx.get? "max")

/-- windows.py 81-86: `BETWEEN bound AND bound`. -/
def between (limit : List Char → R Json) (s : List Char) : R Range :=
  match kw "between" s with
  | none => .fail
  | some r =>
    match bound limit r with
    | .ok a r =>
      match kw "and" r with
      | none => .fail
      | some r =>
        match bound limit r with
        | .ok b r => .ok (betweenCall a b) r
        | .fail => .fail
        | .crash => .crash
        | .unmod => .unmod
    | .fail => .fail
    | .crash => .crash
    | .unmod => .unmod

/-- windows.py 88-89: what follows `ROWS` or `RANGE`. -/
def extent (limit : List Char → R Json) (s : List Char) : R Range :=
  match between limit s with
  | .fail => bound limit s
  | x => x

/-- utils.py 598-605. -/
def rowLimit (s : List Char) : R Json :=
  match intNum (skip s) with
  | some ((neg, ds, none), r) => .ok (.int (if neg then -(natOf 0 ds : Int) else natOf 0 ds)) r
  | some ((_, _, some _), _) => .unmod
  | none => .fail

/-- `scrub(tokens["limit"])` of an expression. -/
def exprLimit (ex : List Char → R V) (s : List Char) : R Json :=
  match ex s with
  | .ok v r => .ok (scrub v) r
  | .fail => .fail
  | .crash => .crash
  | .unmod => .unmod

/-- windows.py 88-90: `ROWS` extent, or else `RANGE` extent. -/
def rowClause (ex : List Char → R V) (s : List Char) : R Range :=
  match (match kw "rows" s with | some r => extent rowLimit r | none => .fail) with
  | .fail =>
    match kw "range" s with
    | some r => extent (exprLimit ex) r
    | none => .fail
  | x => x

/-! ### Writing -/

/-- formatting.py 219-223: the words for a limit; 0 gives None, which `extend` does not take, and only numbers are compared. -/
def wordy : Json → Except PyErr (List (List Char))
  | .int z =>
    if z < 0 then .ok [Text.natStr z.natAbs, "PRECEDING".toList]
    else if z > 0 then .ok [Text.natStr z.natAbs, "FOLLOWING".toList]
    else .error .typeError
  | .float _ => .error .notSupported
  | _ => .error .typeError

/-- formatting.py 225-257: what is written for a range, word by word. -/
def rangeWords (d : Range) : Except PyErr (List (List Char)) :=
  match d.get? "min", d.get? "max" with
  | none, none => .ok []
  | none, some b =>
    if isZero b then .ok ["ROWS".toList, "UNBOUNDED PRECEDING".toList]
    else (wordy b).map fun w => ["ROWS".toList, "BETWEEN".toList, "UNBOUNDED PRECEDING".toList, "AND".toList] ++ w
  | some a, b =>
    if isZero a then
      match b with
      | none => .ok ["ROWS".toList, "UNBOUNDED FOLLOWING".toList]
      | some b => if isZero b then .ok ["ROWS".toList, "CURRENT ROW".toList] else (wordy b).map fun w => "ROWS".toList :: w
    else
      match b with
      | none => (wordy a).map fun w => ["ROWS".toList, "BETWEEN".toList] ++ w ++ ["AND".toList, "UNBOUNDED FOLLOWING".toList]
      | some b =>
        if isZero b then (wordy a).map fun w => "ROWS".toList :: w
        else
          match wordy a, wordy b with
          | .ok v, .ok w => .ok (["ROWS".toList, "BETWEEN".toList] ++ v ++ ["AND".toList] ++ w)
          | .error e, _ => .error e
          | _, .error e => .error e

/-- `" ".join`. -/
def joined : List (List Char) → List Char
  | [] => []
  | [w] => w
  | w :: ws => w ++ ' ' :: joined ws

/-- How the clauses of a window are written, and what `in` and `[...]` make of a name. -/
structure Clauses where
  partition : Json → Except PyErr (List Char)
  order : Dict String Json → Except PyErr (List Char)

/-- The words of an optional clause. -/
def optWords : Option (Except PyErr (List (List Char))) → Except PyErr (List (List Char))
  | none => .ok []
  | some x => x

/-- `k in over`, where `over` is a name: is `k` a part of it? -/
def part (k : String) (w : List Char) : Bool := w.tails.any fun t => k.toList.isPrefixOf t

/-- formatting.py 207-258: `OVER (...)`; in a name, `"range" in over` looks for a part of the text, and its entries cannot be taken. -/
def overText (C : Clauses) : Json → Except PyErr (List Char)
  | .dict d => do
    let p ← optWords ((Dict.get? d "partitionby").map fun j => (C.partition j).map fun t => ["PARTITION BY".toList, t])
    let o ← optWords ((Dict.get? d "orderby").map fun _ => (C.order d).map fun t => [t])
    let f ← optWords ((Dict.get? d "range").map fun j => match j with | .dict r => rangeWords r | _ => .error .attributeError)
    .ok ("OVER (".toList ++ joined (p ++ o ++ f) ++ [')'])
  | .str w =>
    if part "partitionby" w.toList || part "orderby" w.toList || part "range" w.toList then .error .typeError
    else .ok "OVER ()".toList
  | _ => .error .typeError

end EulerDB.Window
