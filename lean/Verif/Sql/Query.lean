/-
Model of the grammar of queries beyond Parser.lean: DISTINCT, joins, GROUP BY, HAVING, ORDER BY, LIMIT and OFFSET, from the characters to the JSON.

Code: /repo/sql_parsing/sql_parser.py `compound_limit` 279-307, `sort_column` 309-313, `join` 365-373, `selection` 375-392, `unordered_sql` 397-406, `limit` 448-459,
`ordered_sql` 461-473; /repo/sql_parsing/keywords.py `joins` 130-137, `GROUP_BY`, `ORDER_BY` 143-144; /repo/sql_parsing/utils.py `to_join_call` 361-373,
`to_union_call` 497-525; /repo/parsing/expressions.py `MatchAll.parse_impl` 756-824.

Simplifications, besides those of Parser.lean:
  * constructs that are left out make the outcome `R.unmod`: subqueries, DISTINCT ON, TOP, LATERAL, WINDOW, UNION, INTERSECT, EXCEPT, MINUS, NULLS, FETCH and a LIMIT
    with an exponent;
  * `limit` is `MatchAll` of three optional parts: each is taken at most once, in the order of the text, and a part that cannot be parsed is left for the end of the
    text.  The second pass over the text (expressions.py 816-822) finds the same parts again.
-/
import Verif.Sql.Parser

namespace EulerDB.Sql

open EulerDB EulerDB.Parse

/-- One parser after the other. -/
def R.next {α β : Type} (x : R α) (f : α → List Char → R β) : R β :=
  match x with
  | .ok a r => f a r
  | .fail => .fail
  | .crash => .crash
  | .unmod => .unmod

/-- `Optional`: what cannot be parsed is left. -/
def R.orElse {α : Type} (x : R α) (y : R α) : R α :=
  match x with
  | .fail => y
  | x => x

section
variable (env : Env) (ex : List Char → R V)

/-- sql_parser.py 375-392, after SELECT. -/
def selection (s : List Char) : R (String × List Json) :=
  match kw "distinct" s with
  | some r =>
    if anyKw ["on"] r then .unmod
    else
      match listOf (selectColumn ex) r with
      | .ok cols r1 => .ok ("select_distinct", cols) r1
      | .fail => .unmod
      | .crash => .crash
      | .unmod => .unmod
  | none => if anyKw ["top"] s then .unmod else (listOf (selectColumn ex) s).next fun cols r => .ok ("select", cols) r

/-- keywords.py 130-137: the words of a join, `join` with or without words before. -/
def joinForms : List (List String) :=
  [["cross", "join"], ["outer", "join"], ["inner", "join"],
   ["full", "inner", "join"], ["full", "outer", "join"], ["full", "join"],
   ["left", "inner", "join"], ["left", "outer", "join"], ["left", "join"],
   ["right", "inner", "join"], ["right", "outer", "join"], ["right", "join"], ["join"]]

def joinHead (s : List Char) : Option (String × List Char) :=
  joinForms.findSome? fun ws => (kws ws s).map fun r => (" ".intercalate ws, r)

/-- The condition of a join. -/
def joinCond (s : List Char) : R (List (String × Json)) :=
  match kw "on" s with
  | some r => ((ex r).next fun v r1 => .ok [("on", scrub v)] r1).orElse (.ok [] s)
  | none =>
    match kw "using" s with
    | some r => ((ex r).next fun v r1 => .ok [("using", scrub v)] r1).orElse (.ok [] s)
    | none => .ok [] s

/-- sql_parser.py 365-373 and utils.py `to_join_call`. -/
def joinOne (s : List Char) : R Json :=
  if anyKw ["lateral", "window"] s then .unmod
  else
    match joinHead s with
    | none => .fail
    | some (op, r) =>
      if anyKw ["lateral"] r then .unmod
      else (tableSource r).next fun t r1 => (joinCond ex r1).next fun c r2 => .ok (.dict ((op, t) :: c)) r2

/-- `ZeroOrMore(join)`; at most `n`. -/
def joinsFrom : Nat → List Char → R (List Json)
  | 0, s => .ok [] s
  | n + 1, s =>
    match joinOne ex s with
    | .ok j r => (joinsFrom n r).next fun l r1 => .ok (j :: l) r1
    | .fail => .ok [] s
    | .crash => .crash
    | .unmod => .unmod

/-- A column of GROUP BY. -/
def groupKey (s : List Char) : R Json := (ex s).next fun v r => (aliasOpt r).next fun n r1 => .ok (.dict (("value", scrub v) :: nameJson n)) r1

/-- `Optional(GROUP_BY + ..)`. -/
def groupOpt (s : List Char) : R (List (String × Json)) :=
  match kws ["group", "by"] s with
  | none => .ok [] s
  | some r => ((listOf (groupKey ex) r).next fun l r1 => .ok [("groupby", listJson l)] r1).orElse (.ok [] s)

/-- `Optional(HAVING + ..)`. -/
def havingOpt (s : List Char) : R (List (String × Json)) :=
  match kw "having" s with
  | none => .ok [] s
  | some r => ((ex r).next fun v r1 => .ok [("having", scrub v)] r1).orElse (.ok [] s)

/-- sql_parser.py 400-405. -/
def fromOpt (s : List Char) : R (List (String × Json)) :=
  match kw "from" s with
  | none => .ok [] s
  | some r =>
    match listOf tableSource r with
    | .ok ts r1 =>
      (joinsFrom ex r1.length r1).next fun js r2 => (whereOpt ex r2).next fun w r3 => (groupOpt ex r3).next fun g r4 => (havingOpt ex r4).next fun h r5 =>
        .ok (("from", listJson (ts ++ js)) :: (whereJson w ++ (g ++ h))) r5
    | .fail => .ok [] s
    | .crash => .crash
    | .unmod => .unmod

/-- The direction of a sort key. -/
def sortDir (s : List Char) : List (String × Json) × List Char :=
  match kw "desc" s with
  | some r => ([("sort", .str "desc")], r)
  | none =>
    match kw "asc" s with
    | some r => ([("sort", .str "asc")], r)
    | none => ([], s)

/-- sql_parser.py 309-313. -/
def sortKey (s : List Char) : R Json :=
  (ex s).next fun v r => if anyKw ["nulls"] (sortDir r).2 then .unmod else .ok (.dict (("value", scrub v) :: (sortDir r).1)) (sortDir r).2

/-- `Optional(ORDER_BY + ..)`. -/
def orderOpt (s : List Char) : R (List (String × Json)) :=
  match kws ["order", "by"] s with
  | none => .ok [] s
  | some r => ((listOf (sortKey ex) r).next fun l r1 => .ok [("orderby", listJson l)] r1).orElse (.ok [] s)

/-- `int_num`. -/
def intAt (s : List Char) : R Int :=
  match intNum (skip s) with
  | some ((neg, w, none), r) => .ok (if neg then -(natOf 0 w : Int) else natOf 0 w) r
  | some ((_, _, some _), _) => .unmod
  | none => .fail

/-- sql_parser.py 279-307: as `compound`, and two numbers with a comma. -/
def limitVal (s : List Char) : R Json :=
  match intAt s with
  | .ok a r =>
    match lit "," r with
    | none => (atom env ex s).next fun v r1 => .ok (scrub v) r1
    | some r1 => ((intAt r1).next fun b r2 => .ok (.list [.int a, .int b]) r2).orElse ((atom env ex s).next fun v r2 => .ok (scrub v) r2)
  | .fail => (atom env ex s).next fun v r1 => .ok (scrub v) r1
  | .crash => .crash
  | .unmod => .unmod

/-- `rows`. -/
def rowsOpt (s : List Char) : List Char := ((kw "row" s).or (kw "rows" s)).getD s

/-- sql_parser.py 448-459: LIMIT (`l`) and OFFSET (`o`), if not taken yet; at most `n` more. -/
def limitsFrom : Nat → Option Json → Option Json → List Char → R (Option Json × Option Json)
  | 0, l, o, s => .ok (l, o) s
  | n + 1, l, o, s =>
    if anyKw ["fetch"] s then .unmod
    else
      match if o.isNone then kw "offset" s else none with
      | some r =>
        match ex r with
        | .ok v r1 => limitsFrom n l (some (scrub v)) (rowsOpt r1)
        | .fail => .ok (l, o) s
        | .crash => .crash
        | .unmod => .unmod
      | none =>
        match if l.isNone then kw "limit" s else none with
        | some r =>
          match limitVal env ex r with
          | .ok v r1 => limitsFrom n (some v) o r1
          | .fail => .ok (l, o) s
          | .crash => .crash
          | .unmod => .unmod
        | none => .ok (l, o) s

/-- An entry of the dict if there is a value. -/
def optEntry (k : String) : Option Json → List (String × Json)
  | none => []
  | some v => [(k, v)]

/-- sql_parser.py 461-473 and utils.py `to_union_call`. -/
def queryStmt (s : List Char) : R Json :=
  match kw "select" s with
  | none => .fail
  | some r =>
    (selection ex r).next fun sel r1 => (fromOpt ex r1).next fun f r2 =>
      if anyKw ["union", "intersect", "except", "minus"] r2 then .unmod
      else (orderOpt ex r2).next fun o r3 => (limitsFrom env ex 3 none none r3).next fun l r4 =>
        .ok (.dict ((sel.1, listJson sel.2) :: (f ++ (o ++ (optEntry "limit" l.1 ++ optEntry "offset" l.2))))) r4

end

/-- As `statement`, with all of a query. -/
def statementQ (env : Env) (s : List Char) : R Json :=
  if anyKw otherWords s || (lit "(" s).isSome then .unmod
  else if anyKw ["select"] s then queryStmt env (expr env (s.length + 1)) s
  else statement env s

/-- As `parse`, with all of a query. -/
def parseQ (env : Env) (space : Char → Bool) (sql : List Char) : Parsed :=
  match statementQ env (rstrip (· == ';') (rstrip space sql)) with
  | .ok j r => if atEnd r then .json j else .rejected
  | .fail => .rejected
  | .crash => .crashed
  | .unmod => .unmodelled

end EulerDB.Sql
