/-
The backend, from the characters of a statement to the stored rows: part of the trusted base.

MySQL 5.7/8 in its default mode, as far as the statements of C71 need it:
INSERT INTO t (names) VALUES (literals), SELECT names FROM t, UPDATE t SET name = literal, …,
DELETE FROM t, the last three with an optional WHERE made of comparisons, AND, OR and parentheses
(reference manual, "Lexical Structure", "Expressions", "Data Manipulation Statements").

Simplifications:
  * a text outside these forms is not read (`none`): comments, `*`, quoted names, numbers that are
    no decimal integers, strings with an introducer, functions, several rows in one INSERT;
  * names are compared exactly, texts as under a binary collation, and no value is converted to
    another type: a comparison of values of different types is `none`;
  * types, constraints and defaults of columns are not modelled: a column not named in an INSERT
    is missing from the stored row.
-/
import Verif.Clause.WhereProps
import Verif.Format.Literal

namespace EulerDB.Whole

open EulerDB EulerDB.Clause

/-! ### Tokens -/

/-- Comparison operators. -/
inductive MCmp where
  | eq | neq | gt | lt | gte | lte
  deriving DecidableEq, Repr

inductive MTok where
  | word (s : List Char)
  | num (n : Nat)
  | str (s : List Char)
  | lp | rp | comma | minus
  | cmp (o : MCmp)
  deriving DecidableEq, Repr

def space (c : Char) : Bool := c == ' ' || c == '\t' || c == '\n' || c == '\r'

def cmpChar (c : Char) : Bool := c == '<' || c == '>' || c == '='

def cmpOf (s : List Char) : Option MCmp :=
  if s = ['='] then some .eq
  else if s = ['<', '>'] then some .neq
  else if s = ['>'] then some .gt
  else if s = ['<'] then some .lt
  else if s = ['>', '='] then some .gte
  else if s = ['<', '='] then some .lte
  else none

/-- A word or a number; a word next to a quote would be an introducer. -/
def wordTok (w r : List Char) : Option (MTok × List Char) :=
  match Text.parseNat w with
  | .ok n => some (.num n, r)
  | .error _ =>
    match w, r with
    | c :: _, d :: _ => if c.isDigit || d == '\'' || d == '"' then none else some (.word w, r)
    | c :: _, [] => if c.isDigit then none else some (.word w, r)
    | [], _ => none

/-- The token that begins with `c`, which is no blank, and what follows it. -/
def tokAt (c : Char) (t : List Char) : Option (MTok × List Char) :=
  if c = '\'' ∨ c = '"' then (Format.readStr true c t).map fun p => (.str p.1, p.2)
  else if Format.nameChar c then wordTok (c :: t.takeWhile Format.nameChar) (t.dropWhile Format.nameChar)
  else if cmpChar c then (cmpOf (c :: t.takeWhile cmpChar)).map fun o => (.cmp o, t.dropWhile cmpChar)
  else if c = '(' then some (.lp, t)
  else if c = ')' then some (.rp, t)
  else if c = ',' then some (.comma, t)
  else if c = '-' then (if t.head? = some '-' then none else some (.minus, t))
  else none

/-- The tokens of a text; every token takes a character, so that its length bounds the steps. -/
def lex : Nat → List Char → Option (List MTok)
  | n, s =>
    match s.dropWhile space with
    | [] => some []
    | c :: t =>
      match n with
      | 0 => none
      | n + 1 =>
        match tokAt c t with
        | none => none
        | some (k, r) => (lex n r).map (k :: ·)

/-! ### Expressions -/

inductive MEx where
  | name (s : String)
  | text (s : String)
  | int (z : Int)
  | cmp (o : MCmp) (a b : MEx)
  | and (a b : MEx)
  | or (a b : MEx)
  deriving DecidableEq, Repr

/-- Is the word this keyword? -/
def isKw (k : String) (w : List Char) : Bool := w.map Char.toUpper == k.toList

section
/- The reserved words. -/
variable (res : List Char → Bool)

section
variable (ex : List MTok → Option (MEx × List MTok))

/-- `)` after an expression. -/
def closeParen : Option (MEx × List MTok) → Option (MEx × List MTok)
  | some (e, .rp :: r) => some (e, r)
  | _ => none

def prim : List MTok → Option (MEx × List MTok)
  | .num n :: r => some (.int n, r)
  | .minus :: .num n :: r => some (.int (-(n : Int)), r)
  | .str s :: r => some (.text (String.ofList s), r)
  | .word w :: r => if res w then none else some (.name (String.ofList w), r)
  | .lp :: r => closeParen (ex r)
  | _ => none

/-- The second operand of a comparison, if there is one. -/
def cmpTail (a : MEx) : List MTok → Option (MEx × List MTok)
  | .cmp o :: r => (prim res ex r).map fun p => (.cmp o a p.1, p.2)
  | r => some (a, r)

def compar (t : List MTok) : Option (MEx × List MTok) := (prim res ex t).bind fun p => cmpTail res ex p.1 p.2

/-- `AND x AND y …`. -/
def andTail : Nat → MEx → List MTok → Option (MEx × List MTok)
  | 0, a, t => some (a, t)
  | n + 1, a, .word w :: r =>
    if isKw "AND" w then (compar res ex r).bind fun p => andTail n (.and a p.1) p.2 else some (a, .word w :: r)
  | _ + 1, a, t => some (a, t)

def conj (t : List MTok) : Option (MEx × List MTok) := (compar res ex t).bind fun p => andTail res ex p.2.length p.1 p.2

/-- `OR x OR y …`. -/
def orTail : Nat → MEx → List MTok → Option (MEx × List MTok)
  | 0, a, t => some (a, t)
  | n + 1, a, .word w :: r =>
    if isKw "OR" w then (conj res ex r).bind fun p => orTail n (.or a p.1) p.2 else some (a, .word w :: r)
  | _ + 1, a, t => some (a, t)

def disj (t : List MTok) : Option (MEx × List MTok) := (conj res ex t).bind fun p => orTail res ex p.2.length p.1 p.2

end

/-- An expression with at most `n` nested parentheses. -/
def expr : Nat → List MTok → Option (MEx × List MTok)
  | 0, t => disj res (fun _ => none) t
  | n + 1, t => disj res (expr n) t

/-! ### Statements -/

inductive MStmt where
  | insert (table : String) (names : List String) (vals : List DbVal)
  | select (names : List String) (table : String) (cond : Option MEx)
  | update (table : String) (sets : List (String × DbVal)) (cond : Option MEx)
  | delete (table : String) (cond : Option MEx)
  deriving DecidableEq, Repr

def pName : List MTok → Option (String × List MTok)
  | .word w :: r => if res w then none else some (String.ofList w, r)
  | _ => none

def pLit : List MTok → Option (DbVal × List MTok)
  | .num n :: r => some (.int n, r)
  | .minus :: .num n :: r => some (.int (-(n : Int)), r)
  | .str s :: r => some (.text (String.ofList s), r)
  | _ => none

/-- `name = literal`. -/
def pSet (t : List MTok) : Option ((String × DbVal) × List MTok) :=
  match pName res t with
  | some (n, .cmp .eq :: r) => (pLit r).map fun p => ((n, p.1), p.2)
  | _ => none

/-- `x, …, x`, at most `n + 1` of them. -/
def pSep {α : Type} (p : List MTok → Option (α × List MTok)) : Nat → List MTok → Option (List α × List MTok)
  | 0, t => (p t).map fun q => ([q.1], q.2)
  | n + 1, t =>
    match p t with
    | some (a, .comma :: r) => (pSep p n r).map fun q => (a :: q.1, q.2)
    | some (a, r) => some ([a], r)
    | none => none

/-- A keyword. -/
def pKw (k : String) : List MTok → Option (List MTok)
  | .word w :: r => if isKw k w then some r else none
  | _ => none

/-- The rest of a statement: nothing, or WHERE and a condition. -/
def pWhere : List MTok → Option (Option MEx)
  | [] => some none
  | t =>
    match pKw "WHERE" t with
    | none => none
    | some r =>
      match expr res r.length r with
      | some (e, []) => some (some e)
      | _ => none

def pInsert (t : List MTok) : Option MStmt := do
  let t ← pKw "INTO" t
  let (tab, t) ← pName res t
  match t with
  | .lp :: t => do
    let (ns, t) ← pSep (pName res) t.length t
    match t with
    | .rp :: t => do
      let t ← pKw "VALUES" t
      match t with
      | .lp :: t => do
        let (vs, t) ← pSep pLit t.length t
        match t with
        | [.rp] => some (.insert tab ns vs)
        | _ => none
      | _ => none
    | _ => none
  | _ => none

def pSelect (t : List MTok) : Option MStmt := do
  let (ns, t) ← pSep (pName res) t.length t
  let t ← pKw "FROM" t
  let (tab, t) ← pName res t
  let w ← pWhere res t
  some (.select ns tab w)

def pUpdate (t : List MTok) : Option MStmt := do
  let (tab, t) ← pName res t
  let t ← pKw "SET" t
  let (ss, t) ← pSep (pSet res) t.length t
  let w ← pWhere res t
  some (.update tab ss w)

def pDelete (t : List MTok) : Option MStmt := do
  let t ← pKw "FROM" t
  let (tab, t) ← pName res t
  let w ← pWhere res t
  some (.delete tab w)

def pStmt : List MTok → Option MStmt
  | .word w :: r =>
    if isKw "INSERT" w then pInsert res r
    else if isKw "SELECT" w then pSelect res r
    else if isKw "UPDATE" w then pUpdate res r
    else if isKw "DELETE" w then pDelete res r
    else none
  | _ => none

/-- The statement a text is. -/
def readStmt (s : List Char) : Option MStmt := (lex s.length s).bind (pStmt res)

end

/-! ### Execution -/

/-- A stored row. -/
abbrev Row := Dict String DbVal

/-- The tables. -/
abbrev Tables := Dict String (List Row)

def value (row : Row) : MEx → Option DbVal
  | .name s => Dict.get? row s
  | .text s => some (.text s)
  | .int z => some (.int z)
  | _ => none

def MCmp.eval : MCmp → DbVal → DbVal → Option Bool
  | .eq, a, b => dbEq a b
  | .neq, a, b => (dbEq a b).map (!·)
  | .gt, a, b => dbCmp .gt a b
  | .lt, a, b => dbCmp .lt a b
  | .gte, a, b => dbCmp .gte a b
  | .lte, a, b => dbCmp .lte a b

/-- Two truth values, if there are two. -/
def both (f : Bool → Bool → Bool) : Option Bool → Option Bool → Option Bool
  | some a, some b => some (f a b)
  | _, _ => none

def truth (row : Row) : MEx → Option Bool
  | .cmp o a b =>
    match value row a, value row b with
    | some x, some y => o.eval x y
    | _, _ => none
  | .and a b => both (· && ·) (truth row a) (truth row b)
  | .or a b => both (· || ·) (truth row a) (truth row b)
  | _ => none

/-- Does the statement concern the row? -/
def concerns (w : Option MEx) (row : Row) : Option Bool :=
  match w with
  | none => some true
  | some e => truth row e

/-- The rows concerned. -/
def pick (w : Option MEx) : List Row → Option (List Row)
  | [] => some []
  | row :: rs =>
    match concerns w row, pick w rs with
    | some b, some l => some (if b then row :: l else l)
    | _, _ => none

/-- `f` on the rows concerned; without a result the row is removed. -/
def change (w : Option MEx) (f : Row → Option Row) : List Row → Option (List Row)
  | [] => some []
  | row :: rs =>
    match concerns w row, change w f rs with
    | some b, some l => some (if b then (f row).toList ++ l else row :: l)
    | _, _ => none

/-- The columns to be set are there. -/
def assign : List (String × DbVal) → Row → Row
  | [], row => row
  | (n, v) :: l, row => assign l (Dict.set row n v)

/-- The new tables and the rows answered; `none` is an error of the backend or outside this model. -/
def exec (st : Tables) : MStmt → Option (Tables × List (List DbVal))
  | .insert t ns vs =>
    match Dict.get? st t with
    | none => none
    | some rows => if ns.Nodup ∧ ns.length = vs.length then some (Dict.set st t (rows ++ [ns.zip vs]), []) else none
  | .select ns t w =>
    match Dict.get? st t with
    | none => none
    | some rows =>
      match pick w rows with
      | none => none
      | some l => (l.mapM fun row => ns.mapM fun n => Dict.get? row n).map fun out => (st, out)
  | .update t ss w =>
    match Dict.get? st t with
    | none => none
    | some rows =>
      if ss.all fun p => rows.all fun row => (Dict.get? row p.1).isSome then
        (change w (fun row => some (assign ss row)) rows).map fun l => (Dict.set st t l, [])
      else none
  | .delete t w =>
    match Dict.get? st t with
    | none => none
    | some rows => (change w (fun _ => none) rows).map fun l => (Dict.set st t l, [])

end EulerDB.Whole
