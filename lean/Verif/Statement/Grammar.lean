/-
The query statement as MySQL's grammar has it, and how it is read from the pieces of a text.

This file is a specification: it is written from the reference manual of MySQL 5.7/8
("SELECT Statement", "JOIN Clause"), not from the code of the proxy, and it is trusted.

A query has a list of select items, a comma-separated list of tables each followed by its joins,
and the optional clauses in the fixed order WHERE, GROUP BY, HAVING, ORDER BY, LIMIT [OFFSET].
An alias may be written with or without AS.  `α` is the type of expressions and names, `σ` that of
subqueries.
-/
import Verif.Statement.Model

namespace EulerDB.Statement

/-- A table or subquery with its alias. -/
structure Src (α σ : Type) where
  base : α ⊕ σ
  nick : Option α := none
  deriving DecidableEq

/-- The condition of a join. -/
inductive JCond (α : Type)
  | none
  | on (e : α)
  | cols (l : List α)
  deriving DecidableEq

structure Join (α σ : Type) where
  kind : String
  src : Src α σ
  cond : JCond α
  deriving DecidableEq

structure Query (α σ : Type) where
  distinct : Bool := false
  items : List (α × Option α)
  tables : List (Src α σ × List (Join α σ)) := []
  cond : Option α := none
  group : List α := []
  having : Option α := none
  order : List (α × Option String) := []
  limit : List α := []
  offset : Option α := none
  deriving DecidableEq

/-! ### Reading -/

section Read

/-- The result of reading: what was read and what is left. -/
abbrev Parser (β : Type) := List Tok → Option (β × List Tok)

def rLeaf : Parser String
  | .leaf s :: r => some (s, r)
  | _ => none

/-- `[AS] alias`. -/
def rAlias (t : List Tok) : Option String × List Tok :=
  match t with
  | .kw "AS" :: .leaf s :: r => (some s, r)
  | .leaf s :: r => (some s, r)
  | r => (none, r)

/-- A comma-separated list; the number bounds its length. -/
def sepBy {β : Type} (p : Parser β) : Nat → Parser (List β)
  | 0, _ => none
  | n + 1, t =>
    match p t with
    | none => none
    | some (b, .comma :: r) => (sepBy p n r).map fun q => (b :: q.1, q.2)
    | some (b, r) => some ([b], r)

def rItem : Parser (String × Option String) := fun t =>
  (rLeaf t).map fun p => ((p.1, (rAlias p.2).1), (rAlias p.2).2)

variable {σ : Type} (sub : Parser σ)

/-- A table name or a parenthesised query, with its alias. -/
def rSrc : Parser (Src String σ)
  | .leaf s :: r => some (⟨.inl s, (rAlias r).1⟩, (rAlias r).2)
  | .lp :: r =>
    match sub r with
    | some (q, .rp :: r') => some (⟨.inr q, (rAlias r').1⟩, (rAlias r').2)
    | _ => none
  | _ => none

/-- The words that begin a join in MySQL (it has no FULL JOIN). -/
def mysqlJoins : List String :=
  ["JOIN", "CROSS JOIN", "INNER JOIN", "LEFT JOIN", "RIGHT JOIN", "RIGHT OUTER JOIN", "LEFT OUTER JOIN"]

/-- `ON e`, `USING (a, b, …)` or nothing. -/
def rCond : Parser (JCond String)
  | .kw "ON" :: r => (rLeaf r).map fun p => (.on p.1, p.2)
  | .kw "USING" :: .lp :: r =>
    match sepBy rLeaf r.length r with
    | some (l, .rp :: r') => some (.cols l, r')
    | _ => none
  | .kw "USING" :: _ => none
  | r => some (.none, r)

/-- The joins that follow a table. -/
def rJoins : Nat → Parser (List (Join String σ))
  | 0, _ => none
  | n + 1, t =>
    match t with
    | .kw k :: r =>
      if k ∈ mysqlJoins then
        match rSrc sub r with
        | none => none
        | some (s, r1) =>
          match rCond r1 with
          | none => none
          | some (c, r2) => (rJoins n r2).map fun q => (⟨k, s, c⟩ :: q.1, q.2)
      else some ([], t)
    | t => some ([], t)

def rTable : Parser (Src String σ × List (Join String σ)) := fun t =>
  match rSrc sub t with
  | none => none
  | some (s, r) => (rJoins sub (r.length + 1) r).map fun q => ((s, q.1), q.2)

/-- A clause that begins with the word `w`, or nothing. -/
def rOpt {β : Type} (w : String) (p : Parser β) (dflt : β) : Parser β
  | .kw k :: r => if k = w then p r else some (dflt, .kw k :: r)
  | r => some (dflt, r)

def rList {β : Type} (p : Parser β) : Parser (List β) := fun t => sepBy p t.length t

def rSome : Parser (Option String) := fun t => (rLeaf t).map fun p => (some p.1, p.2)

def rOrder : Parser (String × Option String)
  | .leaf s :: .kw "ASC" :: r => some ((s, some "ASC"), r)
  | .leaf s :: .kw "DESC" :: r => some ((s, some "DESC"), r)
  | .leaf s :: r => some ((s, none), r)
  | _ => none

/-- `LIMIT n` or `LIMIT m, n`. -/
def rLimit : Parser (List String)
  | .leaf a :: .comma :: .leaf b :: r => some ([a, b], r)
  | .leaf a :: r => some ([a], r)
  | _ => none

/-- `OFFSET n` may follow `LIMIT n` only. -/
def rOffset (limit : List String) : Parser (Option String) := fun t =>
  if limit.length = 1 then rOpt "OFFSET" rSome none t else some (none, t)

def rDistinct : List Tok → Bool × List Tok
  | .kw "DISTINCT" :: r => (true, r)
  | r => (false, r)

/-- A query, given how its subqueries are read. -/
def rQuery : Parser (Query String σ)
  | .kw "SELECT" :: r => do
    let (distinct, r) := rDistinct r
    let (items, r) ← rList rItem r
    let (tables, r) ← rOpt "FROM" (rList (rTable sub)) [] r
    let (cond, r) ← rOpt "WHERE" rSome none r
    let (group, r) ← rOpt "GROUP BY" (rList rLeaf) [] r
    let (having, r) ← rOpt "HAVING" rSome none r
    let (order, r) ← rOpt "ORDER BY" (rList rOrder) [] r
    let (limit, r) ← rOpt "LIMIT" rLimit [] r
    let (offset, r) ← rOffset limit r
    some ({ distinct, items, tables, cond, group, having, order, limit, offset }, r)
  | _ => none

end Read

/-! ### Queries with subqueries to any depth -/

/-- Queries whose subqueries are nested less than `n` deep. -/
def Deep (α : Type) : Nat → Type
  | 0 => Empty
  | n + 1 => Query α (Deep α n)

def rDeep : (n : Nat) → Parser (Deep String n)
  | 0 => fun _ => none
  | n + 1 => rQuery (rDeep n)

/-! ### Renaming the expressions -/

section Map
variable {α β σ τ : Type} (f : α → β) (g : σ → τ)

def Src.map (s : Src α σ) : Src β τ :=
  ⟨match s.base with | .inl a => .inl (f a) | .inr q => .inr (g q), s.nick.map f⟩

def JCond.map : JCond α → JCond β
  | .none => .none
  | .on e => .on (f e)
  | .cols l => .cols (l.map f)

def Join.map (j : Join α σ) : Join β τ := ⟨j.kind.toUpper, j.src.map f g, j.cond.map f⟩

def Query.map (q : Query α σ) : Query β τ where
  distinct := q.distinct
  items := q.items.map fun i => (f i.1, i.2.map f)
  tables := q.tables.map fun t => (t.1.map f g, t.2.map fun j => j.map f g)
  cond := q.cond.map f
  group := q.group.map f
  having := q.having.map f
  order := q.order.map fun o => (f o.1, o.2.map String.toUpper)
  limit := q.limit.map f
  offset := q.offset.map f

end Map

/-- Every expression of the query replaced by its text. -/
def Deep.map {α β : Type} (f : α → β) : (n : Nat) → Deep α n → Deep β n
  | 0, q => nomatch q
  | n + 1, q => Query.map f (Deep.map f n) q

/-! ### What the parser returns for a query -/

section Json
variable {σ : Type} (sub : σ → Json)

/-- utils.py `scrub` 95-105: a list of one element is the element. -/
def unlist : List Json → Json
  | [j] => j
  | l => .list l

/-- `named_column`, `select_column`: `{"value": e}` with `"name"` if there is an alias. -/
def itemJson (i : Json × Option Json) : Json :=
  match i.2 with
  | none => .dict [("value", i.1)]
  | some a => .dict [("value", i.1), ("name", a)]

/-- `to_table`, utils.py 561-566. -/
def Src.json (s : Src Json σ) : Json :=
  let b := match s.base with | .inl e => e | .inr q => sub q
  match s.nick with
  | none => b
  | some a => .dict [("value", b), ("name", a)]

/-- `to_join_call`, utils.py 361-373. -/
def Join.json (j : Join Json σ) : Json :=
  match j.cond with
  | .none => .dict [(j.kind, j.src.json sub)]
  | .on e => .dict [(j.kind, j.src.json sub), ("on", e)]
  | .cols l => .dict [(j.kind, j.src.json sub), ("using", unlist l)]

def tableJson (t : Src Json σ × List (Join Json σ)) : List Json := t.1.json sub :: t.2.map (Join.json sub)

def orderJson (o : Json × Option String) : Json :=
  match o.2 with
  | none => .dict [("value", o.1)]
  | some s => .dict [("value", o.1), ("sort", .str s)]

/-- An entry if there is anything to say. -/
def entry (k : String) : Option Json → Dict String Json
  | none => []
  | some v => [(k, v)]

def listEntry (k : String) : List Json → Dict String Json
  | [] => []
  | l => [(k, unlist l)]

/-- `to_union_call`, utils.py 497-525, of a query without set operations. -/
def Query.dict (q : Query Json σ) : Dict String Json :=
  (if q.distinct then "select_distinct" else "select", unlist (q.items.map itemJson)) ::
    (listEntry "from" (q.tables.flatMap (tableJson sub)) ++ entry "where" q.cond ++
      listEntry "groupby" (q.group.map fun e => .dict [("value", e)]) ++ entry "having" q.having ++
      listEntry "orderby" (q.order.map orderJson) ++ listEntry "limit" q.limit ++ entry "offset" q.offset)

end Json

def Deep.json : (n : Nat) → Deep Json n → Json
  | 0, q => nomatch q
  | n + 1, q => .dict (Query.dict (Deep.json n) q)

end EulerDB.Statement
