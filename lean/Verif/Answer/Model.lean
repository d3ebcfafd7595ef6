/-
C81: queries with DISTINCT, aggregates, GROUP BY, HAVING, ORDER BY and LIMIT.  What such a query means to the client, what the parser makes of it and what MySQL
does with the rewritten query.

Code: /repo/scheduler/handers/clause/__init__.py 11-38 (the clauses that are rewritten: neither GROUP BY nor HAVING nor LIMIT is among them), function.py 8-13 and
sql_select.py 14-135 are `Clause.clauseKeys`, `Clause.orderRw` and `Clause.selRw`; the form of the parsed query is that of C62 (Verif/Statement/Grammar.lean).

Simplifications:
  * MySQL is the evaluator below, from the MySQL reference manual ("SELECT Statement", "MySQL Handling of GROUP BY", with the default ONLY_FULL_GROUP_BY): a column
    of the select list, of HAVING or of ORDER BY must be among those of GROUP BY if the query is grouped, and one of ORDER BY must be selected under DISTINCT;
  * texts are equal if they are the same; how texts are ordered is the parameter `le`;
  * SQL leaves the order of the rows open as far as ORDER BY does not fix it: a query has many admissible answers (`Admissible`);
  * one table; items are columns, COUNT(*), MAX and MIN of a column (SUM and AVG are C13-C15 and C56; COUNT of a column is C30_fails_count_column); HAVING compares
    one item with a number.
-/
import Verif.Whole.Session
import Verif.Clause.OrderProps

namespace EulerDB.Answer

open EulerDB EulerDB.Clause EulerDB.Delta EulerDB.Whole

/-! ### Queries -/

/-- An item of a select list. -/
inductive Item where
  | col (n : String)
  | count
  | max (n : String)
  | min (n : String)
  deriving DecidableEq, Repr

def Item.aggregate : Item → Bool
  | .col _ => false
  | _ => true

/-- `item op z`. -/
structure Having where
  item : Item
  op : Cmp
  z : Int

structure Query where
  distinct : Bool := false
  items : List Item
  table : String
  cond : Option Cond := none
  group : List String := []
  having : Option Having := none
  order : Option SortKey := none
  /-- The number of rows, and the number of rows to be left out before. -/
  limit : Option (Nat × Option Nat) := none

/-! ### As parsed -/

def Item.value : Item → Json
  | .col n => .str n
  | .count => .dict [("count", .str "*")]
  | .max n => .dict [("max", .str n)]
  | .min n => .dict [("min", .str n)]

def listIn : List Item → Json
  | [i] => .dict [("value", i.value)]
  | l => .list (l.map fun i => .dict [("value", i.value)])

def groupIn : List String → Dict String Json
  | [] => []
  | [g] => [("groupby", .dict [("value", .str g)])]
  | l => [("groupby", .list (l.map fun g => .dict [("value", .str g)]))]

def havingIn : Option Having → Dict String Json
  | none => []
  | some h => [("having", .dict [(h.op.name, .list [h.item.value, .int h.z])])]

def orderIn : Option SortKey → Dict String Json
  | none => []
  | some k => [("orderby", k.json)]

def limitIn : Option (Nat × Option Nat) → Dict String Json
  | none => []
  | some (n, none) => [("limit", .int n)]
  | some (n, some m) => [("limit", .int n), ("offset", .int m)]

def Query.selectKey (q : Query) : String := if q.distinct then "select_distinct" else "select"

def Query.json (q : Query) : Dict String Json :=
  (q.selectKey, listIn q.items) :: ("from", .str q.table) :: (whereIn q.cond ++ (groupIn q.group ++ (havingIn q.having ++ (orderIn q.order ++ limitIn q.limit))))

/-! ### Grouping, choosing, ordering -/

/-- The first of those with the same `f`. -/
def firsts {α κ : Type} [DecidableEq κ] (f : α → κ) : List α → List α
  | [] => []
  | a :: r => a :: (firsts f r).filter fun b => decide (f b ≠ f a)

/-- Those with the same key together. -/
def groups {α κ : Type} [DecidableEq κ] (key : α → κ) (l : List α) : List (List α) := (firsts key l).map fun a => l.filter fun b => decide (key b = key a)

/-- The rows that make one row of the answer together: a group, or all rows if there are only aggregates, or a single row. -/
def units {α κ : Type} [DecidableEq κ] (aggregated grouped : Bool) (key : α → κ) (l : List α) : List (List α) :=
  if grouped then groups key l else if aggregated then [l] else l.map fun a => [a]

/-- The greatest. -/
def best {α : Type} (le : α → α → Bool) : List α → Option α
  | [] => none
  | a :: r =>
    match best le r with
    | none => some a
    | some b => if le b a then some a else some b

/-- `a` may stand before `b`; without ORDER BY (`none`) anything may. -/
def before {α : Type} (le : α → α → Bool) (desc : Bool) : Option α → Option α → Bool
  | some a, some b => if desc then le b a else le a b
  | _, _ => true

/-- LIMIT and OFFSET. -/
def window {α : Type} : Option (Nat × Nat) → List α → List α
  | none, l => l
  | some (n, m), l => (l.drop m).take n

/-- An answer: the rows with their sort keys, in some order that ORDER BY allows, cut by LIMIT. -/
def Admissible {ρ κ : Type} (le : κ → κ → Bool) (desc : Bool) (w : Option (Nat × Nat)) (l : List (ρ × Option κ)) (ans : List ρ) : Prop :=
  ∃ l' : List (ρ × Option κ), l'.Perm l ∧ (l'.Pairwise fun a b => before le desc a.2 b.2 = true) ∧ ans = window w (l'.map Prod.fst)

/-! ### What the client means -/

/-- Values of a column in order; `le` is the order of texts.  (A column has values of one kind only.) -/
def leVal (le : String → String → Bool) : Val → Val → Bool
  | .int a, .int b => decide (a ≤ b)
  | .text a, .text b => le a b
  | .int _, .text _ => true
  | .text _, .int _ => false

/-- Sort keys in order: NULL comes first ("Working with NULL Values" of the manual). -/
def leKey (le : String → String → Bool) : Option Val → Option Val → Bool
  | none, _ => true
  | some a, some b => leVal le a b
  | some _, none => false

/-- The value of an item; `none` is NULL. -/
def Item.eval (le : String → String → Bool) (u : List PRow) : Item → Option Val
  | .col n =>
    match u with
    | [] => none
    | row :: _ => Dict.get? row n
  | .count => some (.int u.length)
  | .max n => best (leVal le) (u.filterMap fun row => Dict.get? row n)
  | .min n => best (fun a b => leVal le b a) (u.filterMap fun row => Dict.get? row n)

def Having.holds (le : String → String → Bool) (u : List PRow) (h : Having) : Bool :=
  match h.item.eval le u with
  | some (.int y) => h.op.eval y h.z
  | _ => false

def Query.aggregated (q : Query) : Bool := !q.group.isEmpty || q.items.any Item.aggregate

def Query.key (q : Query) (row : PRow) : List (Option Val) := q.group.map fun g => Dict.get? row g

def Query.units (q : Query) (st : PTables) : List (List PRow) :=
  Answer.units q.aggregated (!q.group.isEmpty) q.key (((Dict.get? st q.table).getD []).filter (selected q.cond))

/-- HAVING. -/
def Query.keeps (q : Query) (le : String → String → Bool) (u : List PRow) : Bool :=
  match q.having with
  | none => true
  | some h => h.holds le u

/-- A row of the answer and its sort key. -/
def Query.line (q : Query) (le : String → String → Bool) (u : List PRow) : List (Option Val) × Option (Option Val) :=
  (q.items.map fun i => i.eval le u, q.order.map fun k => (Item.col k.col).eval le u)

def Query.lines (q : Query) (le : String → String → Bool) (st : PTables) : List (List (Option Val) × Option (Option Val)) :=
  let l := ((q.units st).filter (q.keeps le)).map (q.line le)
  if q.distinct then firsts Prod.fst l else l

def outVal : Option Val → OutVal
  | none => .null
  | some v => v.out

def Query.desc (q : Query) : Bool := match q.order with | none => false | some k => k.desc

def Query.window (q : Query) : Option (Nat × Nat) := q.limit.map fun p => (p.1, p.2.getD 0)

/-- The answers a database without encryption may give. -/
def Query.Answers (q : Query) (le : String → String → Bool) (st : PTables) (ans : List (List OutVal)) : Prop :=
  ∃ a, Admissible (leKey le) q.desc q.window (q.lines le st) a ∧ ans = a.map fun r => r.map outVal

/-! ### What MySQL does -/

/-- The order of MySQL: NULL comes first.  (A column has values of one kind only.) -/
def leDb (le : String → String → Bool) : DbVal → DbVal → Bool
  | .null, _ => true
  | .int a, .int b => decide (a ≤ b)
  | .text a, .text b => le a b
  | .int _, .text _ => true
  | _, _ => false

def itemOf : Json → Option Item
  | .str n => some (.col n)
  | .dict [("count", .str "*")] => some .count
  | .dict [("max", .str n)] => some (.max n)
  | .dict [("min", .str n)] => some (.min n)
  | _ => none

/-- The select list. -/
def itemsOf : Json → Option (List Item)
  | .list l => l.mapM itemOf
  | .dict [("value", v)] => (itemOf v).map fun i => [i]
  | _ => none

def nameOf : Json → Option String
  | .dict [("value", .str n)] => some n
  | _ => none

/-- The columns of GROUP BY. -/
def groupOf : Option Json → Option (List String)
  | none => some []
  | some (.list l) => l.mapM nameOf
  | some j => (nameOf j).map fun n => [n]

def cmpOf (k : String) : Option Cmp :=
  if k = "gt" then some .gt
  else if k = "lt" then some .lt
  else if k = "gte" then some .gte
  else if k = "lte" then some .lte
  else none

def havingOf : Option Json → Option (Option Having)
  | none => some none
  | some (.dict [(k, .list [v, .int z])]) =>
    match cmpOf k, itemOf v with
    | some op, some i => some (some ⟨i, op, z⟩)
    | _, _ => none
  | some _ => none

/-- The column of ORDER BY. -/
def orderOf : Option Json → Option (Option String)
  | none => some none
  | some (.dict d) =>
    match Dict.get? d "value" with
    | some (.str n) => some (some n)
    | _ => none
  | some _ => none

def descOf : Option Json → Bool
  | some (.dict d) => sortDesc d
  | _ => false

def windowOf : Option Json → Option Json → Option (Option (Nat × Nat))
  | none, none => some none
  | some (.int n), none => some (some (n.toNat, 0))
  | some (.int n), some (.int m) => some (some (n.toNat, m.toNat))
  | _, _ => none

/-- The value of an item for the rows `u`; `none`: there is no such column. -/
def itemVal (le : String → String → Bool) (u : List Row) : Item → Option DbVal
  | .col n =>
    match u with
    | [] => some .null
    | row :: _ => Dict.get? row n
  | .count => some (.int u.length)
  | .max n => (u.mapM fun row => Dict.get? row n).map fun l => (best (leDb le) (l.filter fun x => decide (x ≠ .null))).getD .null
  | .min n => (u.mapM fun row => Dict.get? row n).map fun l => (best (fun a b => leDb le b a) (l.filter fun x => decide (x ≠ .null))).getD .null

/-- Does HAVING keep the rows? -/
def havingVal (le : String → String → Bool) (h : Option Having) (u : List Row) : Option Bool :=
  match h with
  | none => some true
  | some h =>
    match itemVal le u h.item with
    | some (.int y) => some (h.op.eval y h.z)
    | some .null => some false
    | _ => none

/-- Rows for which a test holds; `none` if it fails for one of them. -/
def pickBy {α : Type} (p : α → Option Bool) : List α → Option (List α)
  | [] => some []
  | a :: r =>
    match p a, pickBy p r with
    | some b, some l => some (if b then a :: l else l)
    | _, _ => none

def whereVal (w : Option Json) (row : Row) : Option Bool :=
  match w with
  | none => some true
  | some j => evalCond row j

/-- A row of the answer and its sort key. -/
def lineOf (le : String → String → Bool) (items : List Item) (order : Option String) (u : List Row) : Option (List DbVal × Option DbVal) :=
  match items.mapM (itemVal le u), order with
  | some out, none => some (out, none)
  | some out, some n => (itemVal le u (.col n)).map fun x => (out, some x)
  | none, _ => none

/-- Does ONLY_FULL_GROUP_BY (or DISTINCT) allow the query? -/
def allowed (distinct aggregated : Bool) (items : List Item) (group : List String) (having : Option Having) (order : Option String) : Bool :=
  let inGroup : Item → Bool := fun i => match i with | .col n => group.contains n | _ => true
  (!aggregated || (items.all inGroup && (match having with | none => true | some h => inGroup h.item) && match order with | none => true | some n => group.contains n)) &&
    (!distinct || match order with | none => true | some n => items.contains (.col n)) && (aggregated || having.isNone)

/-- The rows of the answer with their sort keys, before they are ordered and cut. -/
def runLines (le : String → String → Bool) (distinct : Bool) (items : List Item) (w : Option Json) (group : List String) (having : Option Having) (order : Option String)
    (rows : List Row) : Option (List (List DbVal × Option DbVal)) :=
  let aggregated := !group.isEmpty || items.any Item.aggregate
  if allowed distinct aggregated items group having order then
    match pickBy (whereVal w) rows with
    | none => none
    | some rows =>
      if rows.all fun row => group.all fun g => (Dict.get? row g).isSome then
        match pickBy (havingVal le having) (units aggregated (!group.isEmpty) (fun row => group.map fun g => Dict.get? row g) rows) with
        | none => none
        | some us =>
          match us.mapM (lineOf le items order) with
          | none => none
          | some l => some (if distinct then firsts Prod.fst l else l)
      else none
  else none

/-- The select list of a statement, and whether it is DISTINCT. -/
def selectOf (json : Dict String Json) : Option (Bool × Json) :=
  match Dict.get? json "select", Dict.get? json "select_distinct" with
  | some v, none => some (false, v)
  | none, some v => some (true, v)
  | _, _ => none

def run (le : String → String → Bool) (st : Tables) (json : Dict String Json) : Option (List (List DbVal × Option DbVal)) :=
  match selectOf json, Dict.get? json "from" with
  | some (distinct, sel), some (.str t) =>
    match itemsOf sel, groupOf (Dict.get? json "groupby"), havingOf (Dict.get? json "having"), orderOf (Dict.get? json "orderby"), Dict.get? st t with
    | some items, some group, some having, some order, some rows => runLines le distinct items (Dict.get? json "where") group having order rows
    | _, _, _, _, _ => none
  | _, _ => none

/-- The answers MySQL may give. -/
def Answers (le : String → String → Bool) (st : Tables) (json : Dict String Json) (ans : List (List DbVal)) : Prop :=
  ∃ l w, run le st json = some l ∧ windowOf (Dict.get? json "limit") (Dict.get? json "offset") = some w ∧
    Admissible (leDb le) (descOf (Dict.get? json "orderby")) w l ans

end EulerDB.Answer
