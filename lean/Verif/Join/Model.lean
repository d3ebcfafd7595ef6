/-
C80: joins.  What a query over several tables means to the client, what the parser makes of it and what MySQL does with the rewritten query.

Code: /repo/scheduler/handers/clause/sql_from.py 13-55 and sql_where.py 21-38 are `Clause.fromRw` and `Clause.whereRw`; /repo/sql_parsing/utils.py
`to_join_call` 361-373 gives the form of a joined table (`on` and `using` that are None are removed by `scrub`).  The text of the rewritten query is the
subject of C62.

Simplifications:
  * MySQL is the evaluator below, from the MySQL reference manual ("JOIN Clause"): FROM is evaluated from left to right, a comma is a product, conditions
    are three-valued, names are compared exactly.  SQL leaves the order of the rows of a join open; here it is the order of nested loops, for the client's
    tables and for the stored ones alike;
  * tables are separated by commas or joined, but not both in one query (C62: the formatter drops the commas then);
  * the client's queries are those with conditions that are equalities of columns under AND and OR; the columns are written with their tables.
-/
import Verif.Whole.Session
import Verif.Clause.NameProps

namespace EulerDB.Join

open EulerDB EulerDB.Clause EulerDB.Delta EulerDB.Whole

/-! ### Queries -/

/-- A column with its table. -/
abbrev Ref := String × String

def dotted (a : Ref) : String := a.1 ++ "." ++ a.2

/-- A condition. -/
inductive On where
  | eq (a b : Ref)
  | and (l : List On)
  | or (l : List On)

inductive Kind where
  | join | inner | left | right
  deriving DecidableEq, Repr

def Kind.key : Kind → String
  | .join => "join"
  | .inner => "inner join"
  | .left => "left join"
  | .right => "right join"

/-- A further table, after a comma or joined. -/
structure Step where
  table : String
  how : Option (Kind × On)

/-- `SELECT items FROM first steps WHERE cond`; without items: `*`. -/
structure Query where
  items : Option (List Ref)
  first : String
  steps : List Step
  cond : Option On

def Query.tables (q : Query) : List String := q.first :: q.steps.map (·.table)

/-! ### As parsed -/

mutual
def On.json : On → Json
  | .eq a b => .dict [("eq", .list [.str (dotted a), .str (dotted b)])]
  | .and l => .dict [("and", .list (On.jsons l))]
  | .or l => .dict [("or", .list (On.jsons l))]

def On.jsons : List On → List Json
  | [] => []
  | c :: r => c.json :: On.jsons r
end

def Step.json (s : Step) : Json :=
  match s.how with
  | none => .str s.table
  | some (k, c) => .dict [(k.key, .str s.table), ("on", c.json)]

def Query.select (q : Query) : Json :=
  match q.items with
  | none => .str "*"
  | some l => colsIn (l.map dotted)

def Query.from (q : Query) : Json := .list (.str q.first :: q.steps.map Step.json)

def Query.json (q : Query) : Dict String Json :=
  ("select", q.select) :: ("from", q.from) :: (match q.cond with | none => [] | some c => [("where", c.json)])

/-! ### Joining -/

/-- One row of every table so far; no row where an outer join found none. -/
abbrev Env (α : Type) := List (String × Option α)

/-- The environments with a row of one more table: `kind` is none for a product. -/
def joinStep {α : Type} (kind : Option Kind) (prev : List String) (t : String) (rows : List α) (on : Env α → Bool) (envs : List (Env α)) : List (Env α) :=
  match kind with
  | some .left => envs.flatMap fun e =>
      let l := (rows.map fun r => e ++ [(t, some r)]).filter on
      if l.isEmpty then [e ++ [(t, none)]] else l
  | some .right => rows.flatMap fun r =>
      let l := (envs.map fun e => e ++ [(t, some r)]).filter on
      if l.isEmpty then [prev.map (fun p => (p, none)) ++ [(t, some r)]] else l
  | _ => envs.flatMap fun e => (rows.map fun r => e ++ [(t, some r)]).filter on

/-- AND of truth values; `none` is unknown. -/
def and3 : Option Bool → Option Bool → Option Bool
  | some false, _ => some false
  | _, some false => some false
  | some true, some true => some true
  | _, _ => none

/-- OR of truth values. -/
def or3 : Option Bool → Option Bool → Option Bool
  | some true, _ => some true
  | _, some true => some true
  | some false, some false => some false
  | _, _ => none

/-! ### What the client means -/

/-- The value of a column; `none` is NULL. -/
def valueOf (e : Env PRow) (a : Ref) : Option Val :=
  match Dict.get? e a.1 with
  | some (some row) => Dict.get? row a.2
  | _ => none

/-- `=`; unknown if a value is NULL. -/
def eqVal : Option Val → Option Val → Option Bool
  | some x, some y => some (x = y)
  | _, _ => none

mutual
def On.truth (e : Env PRow) : On → Option Bool
  | .eq a b => eqVal (valueOf e a) (valueOf e b)
  | .and l => On.allTrue e l
  | .or l => On.someTrue e l

def On.allTrue (e : Env PRow) : List On → Option Bool
  | [] => some true
  | c :: r => and3 (c.truth e) (On.allTrue e r)

def On.someTrue (e : Env PRow) : List On → Option Bool
  | [] => some false
  | c :: r => or3 (c.truth e) (On.someTrue e r)
end

def Step.kind (s : Step) : Option Kind := s.how.map Prod.fst

def Step.keep (s : Step) (e : Env PRow) : Bool :=
  match s.how with
  | none => true
  | some (_, c) => c.truth e == some true

def rowsOf (st : PTables) (t : String) : List PRow := (Dict.get? st t).getD []

def joinAll (st : PTables) : List Step → List String → List (Env PRow) → List (Env PRow)
  | [], _, envs => envs
  | s :: r, prev, envs => joinAll st r (prev ++ [s.table]) (joinStep s.kind prev s.table (rowsOf st s.table) s.keep envs)

def Query.envs (q : Query) (st : PTables) : List (Env PRow) :=
  (joinAll st q.steps [q.first] ((rowsOf st q.first).map fun r => [(q.first, some r)])).filter fun e =>
    match q.cond with
    | none => true
    | some c => c.truth e == some true

/-- The columns of a table, with the table. -/
def starOf (db : Db) (t : String) : List Ref :=
  match Dict.get? db t with
  | none => []
  | some tm => (Dict.keys tm.columns).map fun n => (t, n)

/-- The columns selected. -/
def Query.refs (q : Query) (db : Db) : List Ref :=
  match q.items with
  | some l => l
  | none => q.tables.flatMap (starOf db)

def outOf (e : Env PRow) (a : Ref) : OutVal :=
  match valueOf e a with
  | some v => v.out
  | none => .null

/-- The answer of a database without encryption. -/
def Query.answer (q : Query) (db : Db) (st : PTables) : List (List OutVal) := (q.envs st).map fun e => (q.refs db).map (outOf e)

/-! ### What MySQL does -/

/-- The value of a column written as `t.c`; `none`: there is no such column. -/
def look (e : Env Row) (s : String) : Option DbVal :=
  match splitDot s with
  | [t, n] =>
    match Dict.get? e t with
    | some (some row) => Dict.get? row n
    | some none => some .null
    | none => none
  | _ => none

/-- `=`: the outer `none` is outside the model (values of different kinds). -/
def eq3 : DbVal → DbVal → Option (Option Bool)
  | .null, _ => some none
  | _, .null => some none
  | x, y => (dbEq x y).map some

mutual
def truthJ (e : Env Row) : Json → Option (Option Bool)
  | .dict d => truthD e d
  | _ => none

def truthD (e : Env Row) : List (String × Json) → Option (Option Bool)
  | [(k, v)] => truthO e k v
  | _ => none

def truthO (e : Env Row) (k : String) : Json → Option (Option Bool)
  | .list l =>
    if k = "and" then truthAll e l
    else if k = "or" then truthSome e l
    else if k = "eq" then
      match l with
      | [.str a, .str b] =>
        match look e a, look e b with
        | some x, some y => eq3 x y
        | _, _ => none
      | _ => none
    else none
  | _ => none

def truthAll (e : Env Row) : List Json → Option (Option Bool)
  | [] => some (some true)
  | c :: r =>
    match truthJ e c, truthAll e r with
    | some a, some b => some (and3 a b)
    | _, _ => none

def truthSome (e : Env Row) : List Json → Option (Option Bool)
  | [] => some (some false)
  | c :: r =>
    match truthJ e c, truthSome e r with
    | some a, some b => some (or3 a b)
    | _, _ => none
end

def kindOf (k : String) : Option Kind :=
  if k = "join" then some .join
  else if k = "inner join" then some .inner
  else if k = "left join" then some .left
  else if k = "right join" then some .right
  else none

/-- A further table of FROM: its kind, its name and its condition.  (INNER) JOIN without ON is a product, an outer join without ON an error. -/
def stepOf : Json → Option (Option Kind × String × Option Json)
  | .str t => some (none, t, none)
  | .dict [(k, .str t), ("on", c)] => (kindOf k).map fun k => (some k, t, some c)
  | .dict [(k, .str t)] => if k = "join" ∨ k = "inner join" then some (none, t, none) else none
  | _ => none

/-- Is the condition a truth value here? -/
def defined (c : Option Json) (e : Env Row) : Bool :=
  match c with
  | none => true
  | some c => (truthJ e c).isSome

def keeps (c : Option Json) (e : Env Row) : Bool :=
  match c with
  | none => true
  | some c => truthJ e c == some (some true)

def bjoin (st : Tables) : List Json → List String → List (Env Row) → Option (List (Env Row))
  | [], _, envs => some envs
  | j :: r, prev, envs =>
    match stepOf j with
    | none => none
    | some (k, t, c) =>
      match Dict.get? st t with
      | none => none
      | some rows =>
        if t ∈ prev then none
        else if envs.all fun e => rows.all fun row => defined c (e ++ [(t, some row)]) then bjoin st r (prev ++ [t]) (joinStep k prev t rows (keeps c) envs)
        else none

def isStr : Json → Bool
  | .str _ => true
  | _ => false

/-- The environments of FROM. -/
def fromRows (st : Tables) : Json → Option (List (Env Row))
  | .list (.str t :: js) =>
    match Dict.get? st t with
    | none => none
    | some rows => if js.all isStr || js.all (fun j => !isStr j) then bjoin st js [t] (rows.map fun r => [(t, some r)]) else none
  | _ => none

/-- The columns of the select list. -/
def namesOf : Json → Option (List String)
  | .list l => selectNames l
  | .dict [("value", .str n)] => some [n]
  | _ => none

/-- The answer of MySQL. -/
def runJoin (st : Tables) (json : Dict String Json) : Option (List (List DbVal)) :=
  match Dict.get? json "select", Dict.get? json "from" with
  | some sel, some fr =>
    match namesOf sel, fromRows st fr with
    | some ns, some envs =>
      if envs.all (defined (Dict.get? json "where")) then (envs.filter (keeps (Dict.get? json "where"))).mapM fun e => ns.mapM (look e)
      else none
    | _, _ => none
  | _, _ => none

end EulerDB.Join
