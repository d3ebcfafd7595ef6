/-
C91: queries over a table with an alias and over subqueries in FROM, of any depth.  What they mean to the client and what MySQL does with the rewritten query.

Code: /repo/scheduler/handers/rewrite_hander.py 54-66 and 79-115 (`rewrite_query`, `rewrite_clause`), clause/utils.py 2-41 (`get_table`, `get_nest_table`,
`get_origin_table`), clause/sql_select.py 20-52 and 88-101 (columns and `*` over a dict), decrypt_handler.py 64-73; these are `Clause.fromInner`, `Clause.rewriteClause`,
`Clause.getNest`, `Clause.origin`, `Clause.selRw` and `Clause.decCol`.  The form of the parsed query is that of sql_parser.py 441-446 and utils.py 561-566: a FROM item with an
alias is a dict with "value" and "name".

Simplifications:
  * as in C81 (`Answer.Query`): items are columns, COUNT(*), MAX and MIN of a column; MySQL is the evaluator of C81, with the answer of the subquery in the place of the table;
  * the order in which a subquery gives its rows does not count for the query around it, unless LIMIT makes it count (every answer of the subquery is considered);
  * a derived table has distinct column names, all of them names of columns ("Derived Tables" of the manual asks for the first).
-/
import Verif.Answer.Fails

namespace EulerDB.Nested

open EulerDB EulerDB.Clause EulerDB.Delta EulerDB.Whole EulerDB.Answer

/-! ### Queries -/

/-- A query.  No items: `*`.  In `aliased` and `over`, `q.table` is the alias. -/
inductive NQ where
  /-- `FROM q.table` -/
  | plain (q : Query)
  /-- `FROM t AS q.table` -/
  | aliased (q : Query) (t : String)
  /-- `FROM (n) AS q.table` -/
  | over (q : Query) (n : NQ)

def NQ.top : NQ → Query
  | .plain q => q
  | .aliased q _ => q
  | .over q _ => q

/-- The stored table at the bottom. -/
def NQ.base : NQ → String
  | .plain q => q.table
  | .aliased _ t => t
  | .over _ n => n.base

def NQ.depth : NQ → Nat
  | .plain _ => 0
  | .aliased _ _ => 1
  | .over _ n => n.depth + 1

/-! ### As parsed -/

def selIn : List Answer.Item → Json
  | [] => .str "*"
  | l => listIn l

/-- The query `q` over the FROM value `f`. -/
def layer (q : Query) (f : Json) : Dict String Json :=
  (q.selectKey, selIn q.items) :: ("from", f) :: (whereIn q.cond ++ (groupIn q.group ++ (havingIn q.having ++ (orderIn q.order ++ limitIn q.limit))))

/-- `v AS x`. -/
def named (v : Json) (x : String) : List (String × Json) := [("value", v), ("name", .str x)]

def NQ.json : NQ → Dict String Json
  | .plain q => layer q (.str q.table)
  | .aliased q t => layer q (.dict (named (.str t) q.table))
  | .over q n => layer q (.dict (named (.dict n.json) q.table))

/-! ### What the client means -/

/-- `x.n` is `n`. -/
def bareName (x n : String) : String := if (x.toList ++ ['.']).isPrefixOf n.toList then String.ofList (n.toList.drop (x.toList.length + 1)) else n

def bareItem (x : String) : Answer.Item → Answer.Item
  | .col n => .col (bareName x n)
  | .count => .count
  | .max n => .max (bareName x n)
  | .min n => .min (bareName x n)

/-- The items, of a source with the columns `names`. -/
def meantItems (q : Query) (names : List String) : List Answer.Item := if q.items = [] then names.map .col else q.items.map (bareItem q.table)

def meant (q : Query) (names : List String) : Query := { q with items := meantItems q names }

/-- The column an item is. -/
def colOf : Answer.Item → Option String
  | .col n => some n
  | _ => none

/-- The columns of the answer, if `sch` gives the columns of the stored tables. -/
def NQ.names (sch : String → List String) : NQ → List String
  | .plain q => (meantItems q (sch q.table)).filterMap colOf
  | .aliased q t => (meantItems q (sch t)).filterMap colOf
  | .over q n => (meantItems q (n.names sch)).filterMap colOf

/-- A row of an answer as a row of a table; NULL is no value. -/
def rowOf : List String → List (Option Val) → PRow
  | n :: ns, some v :: vs => (n, v) :: rowOf ns vs
  | _ :: ns, none :: vs => rowOf ns vs
  | _, _ => []

/-- The answers of a query over the rows `rows` with the columns `names`. -/
def overRows (le : String → String → Bool) (q : Query) (names : List String) (rows : List PRow) (a : List (List (Option Val))) : Prop :=
  Admissible (leKey le) q.desc q.window ((meant q names).lines le [(q.table, rows)]) a

/-- The answers a database without encryption may give. -/
def NQ.Answers (le : String → String → Bool) (sch : String → List String) (st : PTables) : NQ → List (List (Option Val)) → Prop
  | .plain q, a => overRows le q (sch q.table) ((Dict.get? st q.table).getD []) a
  | .aliased q t, a => overRows le q (sch t) ((Dict.get? st t).getD []) a
  | .over q n, a => ∃ b, n.Answers le sch st b ∧ overRows le q (n.names sch) (b.map (rowOf (n.names sch))) a

/-! ### What MySQL does -/

/-- The alias of FROM. -/
def fromName (json : Dict String Json) : Option String :=
  match Dict.get? json "from" with
  | some (.dict d) =>
    match Dict.get? d "name" with
    | some (.str x) => some x
    | _ => none
  | _ => none

/-- The items of the statement; a column may be written with the alias. -/
def itemsIn (json : Dict String Json) : Option (List Answer.Item) :=
  match selectOf json with
  | some (_, sel) =>
    match itemsOf sel, fromName json with
    | some l, some x => some (l.map (bareItem x))
    | o, _ => o
  | none => none

/-- The columns of a derived table. -/
def outNames (json : Dict String Json) : Option (List String) :=
  match itemsIn json with
  | none => none
  | some l =>
    match l.mapM colOf with
    | none => none
    | some ns => if ns.Nodup then some ns else none

/-- The lines of a query over the rows `rows`. -/
def runOn (le : String → String → Bool) (rows : List Row) (json : Dict String Json) : Option (List (List DbVal × Option DbVal)) :=
  match selectOf json, itemsIn json with
  | some (distinct, _), some items =>
    match groupOf (Dict.get? json "groupby"), havingOf (Dict.get? json "having"), orderOf (Dict.get? json "orderby") with
    | some group, some having, some order => runLines le distinct items (Dict.get? json "where") group having order rows
    | _, _, _ => none
  | _, _ => none

/-- The answers to a query over the rows `rows`. -/
def AnswersOn (le : String → String → Bool) (rows : List Row) (json : Dict String Json) (ans : List (List DbVal)) : Prop :=
  ∃ l w, runOn le rows json = some l ∧ windowOf (Dict.get? json "limit") (Dict.get? json "offset") = some w ∧
    Admissible (leDb le) (descOf (Dict.get? json "orderby")) w l ans

/-- The answers MySQL may give. -/
inductive NAnswers (le : String → String → Bool) (st : Tables) : Dict String Json → List (List DbVal) → Prop
  | table {json : Dict String Json} {t : String} {rows : List Row} {ans : List (List DbVal)} : Dict.get? json "from" = some (.str t) → Dict.get? st t = some rows →
      AnswersOn le rows json ans → NAnswers le st json ans
  | aliased {json : Dict String Json} {d : List (String × Json)} {t : String} {rows : List Row} {ans : List (List DbVal)} : Dict.get? json "from" = some (.dict d) →
      Dict.get? d "value" = some (.str t) → Dict.get? st t = some rows → AnswersOn le rows json ans → NAnswers le st json ans
  | derived {json j : Dict String Json} {d : List (String × Json)} {x : String} {ns : List String} {b ans : List (List DbVal)} : Dict.get? json "from" = some (.dict d) →
      Dict.get? d "value" = some (.dict j) → Dict.get? d "name" = some (.str x) → NAnswers le st j b → outNames j = some ns →
      AnswersOn le (b.map ns.zip) json ans → NAnswers le st json ans

end EulerDB.Nested
