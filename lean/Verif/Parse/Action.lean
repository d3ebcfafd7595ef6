/-
Model of `to_json_operator`, which turns an applied operator into the tree the rest of
the proxy works on.

Code: /repo/sql_parsing/utils.py `to_json_operator` 137-213, `binary_ops` 243-288,
`SQL_NULL` 33; /repo/sql_parsing/keywords.py 78-122, 148-157 (the names of the operators);
/repo/sql_parsing/formatting.py 132-157 (the operators that can be written back), 285-292
(all others are written as function calls).

Simplifications:
  * operands are NULL, numbers, truth values and names; other operands are names;
  * `AT TIME ZONE`, `SIMILAR TO` and `->`, which MySQL does not have, get no meaning;
  * that a parenthesised operand is wrapped in `Group`/`Forward` layers, which 195-202
    remove, is not represented: the operand is the tree inside.
-/
import Verif.Parse.Tree

namespace EulerDB.Parse

/-- An expression as `make_tree` hands it over, operator by operator. -/
inductive E
  | null
  | bool (b : Bool)
  | num (i : Int)
  | name (s : String)
  | bin (o : Bop) (l r : E)
  | un (p : Pre) (e : E)
  | btw (neg : Bool) (a b c : E)
  deriving DecidableEq, Repr

/-- The operators of the resulting tree. -/
inductive JOp
  | collate | concat | mul | div | mod | add | sub | band | bor
  | gte | lte | lt | gt | eq | neq | eqBang | neBang
  | atz | isin | nin
  | like | notLike | rlike | notRlike | similar | notSimilar
  | and | or | lambda
  deriving DecidableEq, Repr

/-- The resulting tree: `Call(op, args, {})`. -/
inductive J
  | null
  | bool (b : Bool)
  | num (i : Int)
  | name (s : String)
  | call (o : JOp) (args : List J)
  | missing (e : J)
  | exists (e : J)
  | un (p : Pre) (e : J)
  | btw (neg : Bool) (a b c : J)
  deriving Repr

/-- utils.py 154-157 and `binary_ops` 243-288: the operator name after the lookup.
`is` becomes `eq`, `is_not` becomes `neq`, `<=>` and `is distinct from` both become
`eq!`. -/
def jop : Bop → JOp
  | .collate => .collate | .concat => .concat | .mul => .mul | .div => .div | .mod => .mod
  | .add => .add | .sub => .sub | .band => .band | .bor => .bor
  | .gte => .gte | .lte => .lte | .lt => .lt | .gt => .gt
  | .eq => .eq | .is => .eq | .neq => .neq | .isNot => .neq
  | .deq => .eqBang | .idf => .eqBang | .indf => .neBang
  | .atz => .atz | .isin => .isin | .nin => .nin
  | .like => .like | .notLike => .notLike | .rlike => .rlike | .notRlike => .notRlike
  | .similar => .similar | .notSimilar => .notSimilar
  | .and => .and | .or => .or | .lambda => .lambda

/-- utils.py 192: the operators whose nested applications are merged. -/
def assocOp : JOp → Bool
  | .add => true | .mul => true | .and => true | .or => true
  | _ => false

/-- utils.py 204-211: the operands contributed by one operand. -/
def spread (o : JOp) : J → List J
  | .call o' args => if o' = o then args else [.call o' args]
  | x => [x]

/-- utils.py 158-213 for two operands; `l` and `r` are the operands after their own
actions. -/
def actBin (o : JOp) (l r : J) : J :=
  match o, l, r with
  | .eq, l, .null => .missing l
  | .eq, .null, r => .missing r
  | .neq, l, .null => .exists l
  | .neq, .null, r => .exists r
  | .eqBang, l, .null => .missing l
  | .eqBang, .null, r => .missing r
  | .neBang, l, .null => .exists l
  | .neBang, .null, r => .exists r
  | o, l, r => if assocOp o then .call o (spread o l ++ spread o r) else .call o [l, r]

/-- utils.py 139-147 for one operand: a negated number is a number. -/
def actUn : Pre → J → J
  | .neg, .num i => .num (-i)
  | p, e => .un p e

/-- The action applied bottom up, as the reductions of `make_tree` do. -/
def act : E → J
  | .null => .null
  | .bool b => .bool b
  | .num i => .num i
  | .name s => .name s
  | .bin o l r => actBin (jop o) (act l) (act r)
  | .un p e => actUn p (act e)
  | .btw n a b c => .btw n (act a) (act b) (act c)

/-! ### What the expressions mean to MySQL -/

/-- A meaning of the operators: the values `V`, and the laws of MySQL that matter here.
Trusted: MySQL's operators satisfy the laws (`Sem.Assoc` is assumed separately,
where it is needed). -/
structure Sem (V : Type) where
  null : V
  bool : Bool → V
  num : Int → V
  name : String → V
  bin : Bop → V → V → V
  un : Pre → V → V
  btw : Bool → V → V → V → V
  /-- `v IS NULL` and `v IS NOT NULL` -/
  isNull : V → V
  notNull : V → V
  is_null : ∀ v, bin .is v null = isNull v
  isNot_null : ∀ v, bin .isNot v null = notNull v
  isNull_ne : ∀ v, isNull v ≠ null
  notNull_ne : ∀ v, notNull v ≠ null
  deq_null : ∀ v, bin .deq v null = isNull v ∧ bin .deq null v = isNull v
  eq_null : ∀ v, bin .eq v null = null ∧ bin .eq null v = null
  neq_null : ∀ v, bin .neq v null = null ∧ bin .neq null v = null
  neg_num : ∀ i, un .neg (num i) = num (-i)

/-- The law needed to merge nested applications. -/
def Sem.Assoc {V : Type} (s : Sem V) (o : Bop) : Prop :=
  ∀ a b c, s.bin o (s.bin o a b) c = s.bin o a (s.bin o b c)

variable {V : Type}

/-- The value of the expression as the client wrote it. -/
def Sem.eval (s : Sem V) : E → V
  | .null => s.null
  | .bool b => s.bool b
  | .num i => s.num i
  | .name n => s.name n
  | .bin o l r => s.bin o (s.eval l) (s.eval r)
  | .un p e => s.un p (s.eval e)
  | .btw n a b c => s.btw n (s.eval a) (s.eval b) (s.eval c)

/-- The infix operator an operator is written as (formatting.py 132-157); `eq!` and
`ne!` have none and are written as calls of functions of that name, which MySQL does
not parse (a minus sign before anything but a number is written `NEG(..)`, see
`Verif/Format/Expr.lean`). -/
def JOp.infix : JOp → Option Bop
  | .collate => some .collate | .concat => some .concat | .mul => some .mul | .div => some .div
  | .mod => some .mod | .add => some .add | .sub => some .sub | .band => some .band
  | .bor => some .bor | .gte => some .gte | .lte => some .lte | .lt => some .lt | .gt => some .gt
  | .eq => some .eq | .neq => some .neq | .eqBang => none | .neBang => none
  | .atz => none | .isin => some .isin | .nin => some .nin
  | .like => some .like | .notLike => some .notLike | .rlike => some .rlike
  | .notRlike => some .notRlike | .similar => none | .notSimilar => none
  | .and => some .and | .or => some .or | .lambda => none

mutual
/-- The value of the tree: operands are combined from the left, as the text that is
written for them is read.  `none`: the text is not SQL. -/
def Sem.jeval (s : Sem V) : J → Option V
  | .null => some s.null
  | .bool b => some (s.bool b)
  | .num i => some (s.num i)
  | .name n => some (s.name n)
  | .call _ [] => none
  | .call o (a :: as) =>
    match o.infix, s.jeval a with
    | some b, some v => s.jfold b v as
    | _, _ => none
  | .missing e => (s.jeval e).map s.isNull
  | .exists e => (s.jeval e).map s.notNull
  | .un .neg _ => none
  | .un p e => (s.jeval e).map (s.un p)
  | .btw n a b c =>
    match s.jeval a, s.jeval b, s.jeval c with
    | some x, some y, some z => some (s.btw n x y z)
    | _, _, _ => none
def Sem.jfold (s : Sem V) (b : Bop) (v : V) : List J → Option V
  | [] => some v
  | a :: as =>
    match s.jeval a with
    | some w => s.jfold b (s.bin b v w) as
    | none => none
end

end EulerDB.Parse
