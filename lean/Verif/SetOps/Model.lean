import Verif.Py

/-!
# Queries combined by UNION, INTERSECT, EXCEPT and MINUS

Transcribed from
* /repo/sql_parsing/sql_parser.py 448-486: `limit`, `ordered_sql` (a first query, further queries each after
  a set operation, then ORDER BY, LIMIT, OFFSET and FETCH), `with_expr` and `query`;
* /repo/sql_parsing/utils.py `to_union_call` 497-525 and `to_query` 550-558, `is_set_op` 290;
* /repo/sql_parsing/formatting.py `Operator` 66-88, `dispatch` 166-197, `op` 268-292, `with_` 490-499, `ordered_query` 456-475,
  `unordered_query` 477-488, `from_` 531-549, `fetch` 580-582, the clause lists 109-128, the methods
  `_union` … `_except` 153-157; /repo/sql_parsing/keywords.py precedences 283-291.

Simplifications. A SELECT without set operations is a number (`sel i`); so are what follows ORDER BY and a WITH
clause (`W`). LIMIT, OFFSET and FETCH are given natural numbers, whose truth value is what Python tests.
The dictionaries of the parse result are the trees `Q`, whose `with` keys are the field `w`; keys whose value is
`NO_RESULTS` are dropped by `scrub`, so they are `none` here. `VALUES (…)` as an operand is left out.
Texts are lists of tokens. Precedences are in quarters (`Operator` adds 0.25 for its first operand).
-/

namespace EulerDB.SetOps

inductive Kind where
  | union | intersect | except | minus
  deriving DecidableEq, Repr

inductive Mod where
  | plain | all | distinct
  deriving DecidableEq, Repr

/-- sql_parser.py 465-467: an operation and `Optional(ALL | DISTINCT)`. The code joins the two words by `_`. -/
structure Op where
  kind : Kind
  mod : Mod := .plain
  deriving DecidableEq, Repr

/-- What a WITH clause defines; `recursive` is `with recursive`, kept under the key `with_recursive`. -/
structure W where
  id : Nat
  recursive : Bool := false
  deriving DecidableEq, Repr

structure Tail where
  order : Option Nat := none
  limit : Option Nat := none
  offset : Option Nat := none
  fetch : Option Nat := none
  deriving DecidableEq, Repr

mutual
/-- An operand: a SELECT, or a query in parentheses (with its own WITH, operations and tail). -/
inductive Src where
  | sel (i : Nat)
  | paren (w : Option W) (o : Src) (r : Rest) (t : Tail)
inductive Rest where
  | nil
  | cons (op : Op) (o : Src) (r : Rest)
end

structure Query where
  w : Option W
  o : Src
  r : Rest
  t : Tail

/-! ## The parse result -/

mutual
inductive Q where
  /-- the dictionary of a SELECT with the keys of its tail -/
  | sel (w : Option W) (i : Nat) (t : Tail)
  /-- `{op: [q, …]}` -/
  | node (w : Option W) (op : Op) (q : Q) (qs : Qs)
  /-- `{"from": q, "orderby": …, "limit": …, …}` -/
  | wrap (w : Option W) (q : Q) (t : Tail)
inductive Qs where
  | nil
  | cons (q : Q) (qs : Qs)
end

def Qs.snoc : Qs → Q → Qs
  | .nil, x => .cons x .nil
  | .cons q qs, x => .cons q (qs.snoc x)

/-- utils.py 553-554: `output["with"] = tokens["with"]`, whether or not there is one. -/
def Q.setWith (w : Option W) : Q → Q
  | .sel _ i t => .sel w i t
  | .node _ op q qs => .node w op q qs
  | .wrap _ q t => .wrap w q t

def Q.with? : Q → Option W
  | .sel w _ _ => w
  | .node w _ _ _ => w
  | .wrap w _ _ => w

/-- utils.py 510-513: one step of the loop over the operations. -/
def step (acc : Q) (last : Option Op) (op : Op) (so : Q) : Q :=
  if last = some op ∧ op.kind = .union then
    match acc with
    | .node w op' q qs => .node w op' q (qs.snoc so)
    | acc => acc
  else .node none op acc (.cons so .nil)

/-- Python's `not tokens[…]` for a number that may be missing. -/
def falsy : Option Nat → Bool
  | none => true
  | some n => n == 0

/-- utils.py 516. -/
def Tail.ignored (t : Tail) : Bool := t.order.isNone && falsy t.offset && falsy t.limit

/-- utils.py 509-514. -/
def loop (acc : Q) (last : Option Op) : List (Op × Q) → Q
  | [] => acc
  | (op, so) :: r => loop (step acc last op so) (some op) r

/-- `to_union_call`; `one` is the SELECT when the first operand is one that is not in parentheses. -/
def unionCall (one : Option Nat) (first : Q) (rest : List (Op × Q)) (t : Tail) : Q :=
  match rest, one with
  | [], some i => .sel none i t
  | [], none => first
  | r, _ => if t.ignored then loop first none r else .wrap none (loop first none r) t

def Src.one : Src → Option Nat
  | .sel i => some i
  | .paren .. => none

mutual
/-- The parse result of an operand: in parentheses, of a query. -/
def operand : Src → Q
  | .sel i => .sel none i {}
  | .paren w o r t => (unionCall o.one (operand o) (operands r) t).setWith w
def operands : Rest → List (Op × Q)
  | .nil => []
  | .cons op s r => (op, operand s) :: operands r
end

/-- `query`: `to_query` of `to_union_call`. -/
def Query.parse (q : Query) : Q := (unionCall q.o.one (operand q.o) (operands q.r) q.t).setWith q.w

/-! ## Meaning -/

/-- Any way to give queries a meaning: `leaf env i` is the SELECT `i` where the WITH clauses `env` are in scope. -/
structure Alg (β : Type) where
  leaf : List W → Nat → β
  bin : Op → β → β → β
  order : Nat → β → β
  limit : Nat → β → β
  offset : Nat → β → β
  fetch : Nat → β → β

variable {β : Type} (A : Alg β)

def opt (f : Nat → β → β) : Option Nat → β → β
  | none, b => b
  | some n, b => f n b

/-- ORDER BY, then OFFSET, then LIMIT (or FETCH). -/
def Tail.apply (t : Tail) (b : β) : β := opt A.fetch t.fetch (opt A.limit t.limit (opt A.offset t.offset (opt A.order t.order b)))

def scope : Option W → List W → List W
  | none, e => e
  | some w, e => w :: e

/-- The operations applied from left to right. -/
def left (a : β) : List (Op × β) → β
  | [] => a
  | (op, b) :: r => left (A.bin op a b) r

/-- The operands that INTERSECT binds to `b`, and what follows them. -/
def absorb (b : β) : List (Op × β) → β × List (Op × β)
  | [] => (b, [])
  | (op, c) :: r => if op.kind = .intersect then absorb (A.bin op b c) r else (b, (op, c) :: r)

theorem absorb_length (b : β) : (r : List (Op × β)) → (absorb A b r).2.length ≤ r.length
  | [] => Nat.le_refl _
  | (op, c) :: r => by
    unfold absorb
    split
    · exact Nat.le_succ_of_le (absorb_length _ r)
    · exact Nat.le_refl _

/-- The meaning of a chain of operations in SQL (and in MySQL): INTERSECT binds tighter than the others,
operations that bind equally are applied from left to right. -/
def chain (a : β) (r : List (Op × β)) : β :=
  match r with
  | [] => a
  | (op, b) :: r =>
    if op.kind = .intersect then chain (A.bin op a b) r
    else chain (A.bin op a (absorb A b r).1) (absorb A b r).2
termination_by r.length
decreasing_by
  · exact Nat.lt_succ_self _
  · exact Nat.lt_succ_of_le (absorb_length A b r)

mutual
def Src.mean (e : List W) : Src → β
  | .sel i => A.leaf e i
  | .paren w o r t => t.apply A (chain A (o.mean (scope w e)) (r.mean (scope w e)))
def Rest.mean (e : List W) : Rest → List (Op × β)
  | .nil => []
  | .cons op o r => (op, o.mean e) :: r.mean e
end

/-- What a query means, read from the text. -/
def Query.mean (e : List W) (q : Query) : β := q.t.apply A (chain A (q.o.mean A (scope q.w e)) (q.r.mean A (scope q.w e)))

mutual
/-- What a parse result means: `{op: [a, b, c]}` is `(a op b) op c`. -/
def Q.mean (e : List W) : Q → β
  | .sel w i t => t.apply A (A.leaf (scope w e) i)
  | .node w op q qs => qs.mean (scope w e) op (q.mean (scope w e))
  | .wrap w q t => t.apply A (q.mean (scope w e))
def Qs.mean (e : List W) (op : Op) (a : β) : Qs → β
  | .nil => a
  | .cons q qs => qs.mean e op (A.bin op a (q.mean e))
end

/-! ## The text written -/

inductive Tok where
  | sel (i : Nat) | op (o : Op) | lp | rp | comma
  | order (n : Nat) | limit (n : Nat) | offset (n : Nat) | fetch (n : Nat)
  | with (n : Nat) | withRecursive (n : Nat) | from
  /-- `UNION_DISTINCT(`: an operation the formatter does not know is written as a function -/
  | call (o : Op)
  deriving DecidableEq, Repr

def word (f : Nat → Tok) : Option Nat → List Tok
  | none => []
  | some n => [f n]

/-- formatting.py 153-157: the keys with a method. -/
def Op.known : Op → Bool
  | ⟨_, .plain⟩ => true
  | ⟨.union, .all⟩ => true
  | _ => false

/-- The clauses of `ordered_clauses` that are keys of the dictionary. -/
def Tail.keyed (t : Tail) : Bool := t.order.isSome || t.limit.isSome || t.offset.isSome || t.fetch.isSome

/-- formatting.py 464-470, 561-582: `fetch` writes `json["offset"]`. -/
def Tail.write (t : Tail) : Except PyErr (List Tok) :=
  match t.fetch, t.offset with
  | none, _ => .ok (word .order t.order ++ word .limit t.limit ++ word .offset t.offset)
  | some _, some n => .ok (word .order t.order ++ word .limit t.limit ++ word .offset t.offset ++ [.fetch n])
  | some _, none => .error .keyError

/-- `with` is a clause that is written, `with_recursive` is not. -/
def withWord : Option W → List Tok
  | some ⟨n, false⟩ => [.with n]
  | _ => []

def enclose (b : Bool) (l : List Tok) : List Tok := if b then [.lp] ++ l ++ [.rp] else l

mutual
/-- `dispatch(json, prec)`, `prec` in quarters: 120 is `from`, 160 a set operation, 200 `order`, 400 the default. -/
def Q.write : Q → Nat → Except PyErr (List Tok)
  | .sel w i t, p => do
    if t.keyed then
      let tl ← t.write
      .ok (enclose (decide (p < 200)) (withWord w ++ [.sel i] ++ tl))
    else .ok (enclose (decide (p < 120)) (withWord w ++ [.sel i]))
  | .node w op q qs, p =>
    match w with
    | some ⟨n, false⟩ => .ok (enclose (decide (p < 120)) [.with n])
    | some ⟨_, true⟩ => .error .generic
    | none =>
      if op.known then do
        let a ← q.write 161
        let b ← qs.write op
        .ok (enclose (decide (p < 160)) (a ++ b))
      else do
        let a ← q.write 400
        let b ← qs.args
        .ok ([.call op] ++ a ++ b ++ [.rp])
  | .wrap w q t, p =>
    match w with
    | some ⟨n, false⟩ => do
      let f ← q.source
      let tl ← t.write
      .ok (enclose (decide (p < 200)) ([.with n, .from] ++ f ++ tl))
    | _ => do
      let f ← q.write 200
      let tl ← t.write
      .ok (enclose (decide (p < 200)) (f ++ tl))
/-- `from_` 531-549 for a dictionary: a set operation is written by `op` at precedence 30, anything else
dispatched at 29. -/
def Q.source : Q → Except PyErr (List Tok)
  | .sel w i t => do
    if t.keyed then
      let tl ← t.write
      .ok (enclose true (withWord w ++ [.sel i] ++ tl))
    else .ok (enclose true (withWord w ++ [.sel i]))
  | .node w op q qs =>
    match w with
    | some ⟨n, false⟩ => if op.known then .error .generic else .ok (enclose true [.with n])
    | some ⟨_, true⟩ => .error .generic
    | none =>
      if op.known then do
        let a ← q.write 161
        let b ← qs.write op
        .ok (enclose true (a ++ b))
      else do
        let a ← q.write 400
        let b ← qs.args
        .ok ([.call op] ++ a ++ b ++ [.rp])
  | .wrap w q t =>
    match w with
    | some ⟨n, false⟩ => do
      let f ← q.source
      let tl ← t.write
      .ok (enclose true ([.with n, .from] ++ f ++ tl))
    | _ => do
      let f ← q.write 200
      let tl ← t.write
      .ok (enclose true (f ++ tl))
def Qs.write (op : Op) : Qs → Except PyErr (List Tok)
  | .nil => .ok []
  | .cons q qs => do
    let a ← q.write 160
    let b ← qs.write op
    .ok ([.op op] ++ a ++ b)
def Qs.args : Qs → Except PyErr (List Tok)
  | .nil => .ok []
  | .cons q qs => do
    let a ← q.write 400
    let b ← qs.args
    .ok ([.comma] ++ a ++ b)
end

/-- `format(json)`. -/
def Q.text (q : Q) : Except PyErr (List Tok) := q.write 400

/-! ## The text of a query -/

def withToks : Option W → List Tok
  | none => []
  | some ⟨n, false⟩ => [.with n]
  | some ⟨n, true⟩ => [.withRecursive n]

def Tail.toks (t : Tail) : List Tok := word .order t.order ++ word .limit t.limit ++ word .offset t.offset ++ word .fetch t.fetch

mutual
def Src.toks : Src → List Tok
  | .sel i => [.sel i]
  | .paren w o r t => [.lp] ++ (withToks w ++ (o.toks ++ (r.toks ++ t.toks))) ++ [.rp]
def Rest.toks : Rest → List Tok
  | .nil => []
  | .cons op o r => [.op op] ++ o.toks ++ r.toks
end

def Query.toks (q : Query) : List Tok := withToks q.w ++ (q.o.toks ++ (q.r.toks ++ q.t.toks))

/-- MySQL rows for the examples: bags of numbers. ORDER BY 0 sorts upwards, any other sorts downwards. -/
def insertBy (le : Nat → Nat → Bool) (x : Nat) : List Nat → List Nat
  | [] => [x]
  | y :: l => if le x y then x :: y :: l else y :: insertBy le x l

def sortBy (le : Nat → Nat → Bool) : List Nat → List Nat
  | [] => []
  | x :: l => insertBy le x (sortBy le l)

def rows (tables : List W → Nat → List Nat) : Alg (List Nat) where
  leaf := tables
  bin op a b :=
    match op.kind, op.mod with
    | .union, .all => a ++ b
    | .union, _ => (a ++ b).eraseDups
    | .intersect, .all => a.filter (b.contains ·)
    | .intersect, _ => (a.filter (b.contains ·)).eraseDups
    | _, .all => b.foldl List.erase a
    | _, _ => (a.filter fun x => !b.contains x).eraseDups
  order n := sortBy fun x y => if n = 0 then decide (x ≤ y) else decide (y ≤ x)
  limit := List.take
  offset := List.drop
  fetch := List.take

end EulerDB.SetOps
