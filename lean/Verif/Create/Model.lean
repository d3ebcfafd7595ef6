/-
Model of CREATE TABLE on characters: the grammar, and the backend that keeps the declared types.

Code: /repo/scheduler/handers/table.py `rewrite_table` 12-148 (its rewriting is `Verif/Table/Model.lean`);
/repo/sql_parsing/sql_parser.py `table_element` 525-527, `create_table` 529-546;
/repo/sql_parsing/types.py `_size` 37, the types 42-66, `simple_types` 104-143, `column_options` 202-214,
`column_definition` 216-218; /repo/sql_parsing/utils.py `keyword` 38-41, `flag` 43-47, `assign` 50-51,
`to_json_call` 304-323; /repo/sql_parsing/__init__.py `_parse` 75-83.

Simplifications:
  * the types of `types` below, the options NOT NULL, NULL, UNIQUE, AUTO_INCREMENT, PRIMARY KEY; any other
    type or option, an option given twice, a size with a sign or an exponent, table constraints, OR REPLACE, TEMPORARY, table options
    and AS are outside the model (`R.unmod`);
  * an element that is no column definition might be a constraint: `R.unmod`;
  * the elements of types.py are built at import, with whitespace that knows no comments (as those of
    keywords.py); those of `column_options` within the grammar.
-/
import Verif.Table.Props
import Verif.Sql.StmtProps
import Verif.Whole.Serve

namespace EulerDB.Create

open EulerDB EulerDB.Sql EulerDB.Table EulerDB.Delta

/-! ### The grammar -/

/-- The types: the keyword, whether a size may follow, whether UNSIGNED may follow. -/
def types : List (String × Bool × Bool) :=
  [("bigint", true, true), ("bool", false, false), ("boolean", false, false), ("char", true, false), ("double", false, true), ("float", false, true),
   ("integer", false, true), ("int", true, true), ("real", false, true), ("text", false, false), ("smallint", false, true), ("tinyint", true, true),
   ("varchar", true, false)]

/-- types.py 37: `(n)`, if it follows. -/
def size (s : List Char) : R TypeArg :=
  match litAt ['('] (skipWhite s) with
  | none => .ok .none s
  | some r =>
    match digits (skipWhite r) with
    | ([], r1) => if r1.head? = some '-' ∨ r1.head? = some '+' then .unmod else .ok .none s
    | (w, r1) =>
      match (intExp r1).1 with
      | some _ => .unmod
      | none =>
        match litAt [')'] (skipWhite r1) with
        | some r2 => .ok (.num (natOf 0 w)) r2
        | none => .ok .none s

/-- A type: its keyword in lower case, its size, and whether it is UNSIGNED. -/
def typeAt (s : List Char) : R (String × TypeArg × Bool) :=
  match types.find? fun t => (kw t.1 s).isSome with
  | none => .unmod
  | some (w, sized, uns) =>
    match kw w s with
    | none => .unmod
    | some r =>
      if w = "double" ∧ (kwsTail ["precision"] r).isSome then .unmod
      else
        match (if sized then size r else .ok .none r) with
        | .ok a r1 =>
          match (if uns then kwsTail ["unsigned"] r1 else none) with
          | some r2 => .ok (w, a, true) r2
          | none => .ok (w, a, false) r1
        | .fail => .fail
        | .crash => .crash
        | .unmod => .unmod

/-- The options of a column. -/
structure Opts where
  nullable : Option Bool := none
  unique : Bool := false
  auto : Bool := false
  pk : Bool := false
  deriving DecidableEq, Repr

/-- Options that are outside the model. -/
def otherOptions : List String := ["comment", "collate", "generated", "references", "check", "default"]

/-- types.py 202-214: `ZeroOrMore`, at most `n`. -/
def options : Nat → Opts → List Char → R Opts
  | 0, o, s => .ok o s
  | n + 1, o, s =>
    match (kw "not" s).bind (kw "null") with
    | some r => if o.nullable.isSome then .unmod else options n { o with nullable := some false } r
    | none =>
      match kw "null" s with
      | some r => if o.nullable.isSome then .unmod else options n { o with nullable := some true } r
      | none =>
        match kw "unique" s with
        | some r => if o.unique then .unmod else options n { o with unique := true } r
        | none =>
          match kw "auto_increment" s with
          | some r => if o.auto then .unmod else options n { o with auto := true } r
          | none =>
            match (kw "primary" s).bind (kw "key") with
            | some r => if o.pk then .unmod else options n { o with pk := true } r
            | none => if anyKw otherOptions s then .unmod else .ok o s

/-- A column definition as it is parsed. -/
structure Col where
  name : String
  type : String
  arg : TypeArg
  unsigned : Bool
  opts : Opts
  deriving DecidableEq, Repr

/-- types.py 216-218. -/
def column (s : List Char) : R Col :=
  match varName s with
  | .ok n r =>
    match typeAt r with
    | .ok (w, a, u) r1 =>
      match options r1.length {} r1 with
      | .ok o r2 => .ok ⟨strOf n, w, a, u, o⟩ r2
      | .fail => .fail
      | .crash => .crash
      | .unmod => .unmod
    | .fail => .fail
    | .crash => .crash
    | .unmod => .unmod
  | .fail => .unmod
  | .crash => .crash
  | .unmod => .unmod

/-- Words that may follow the list of columns. -/
def tailWords : List String := ["engine", "collate", "auto_increment", "comment", "default", "as"]

/-- After the name of the table. -/
def elements (n : List Char) (s : List Char) : R (String × List Col) :=
  match lit "(" s with
  | none => .unmod
  | some r =>
    match listOf column r with
    | .ok cols r1 =>
      match lit ")" r1 with
      | none => .fail
      | some r2 => if anyKw tailWords r2 then .unmod else .ok (strOf n, cols) r2
    | .fail => .fail
    | .crash => .crash
    | .unmod => .unmod

/-- IF NOT EXISTS, if it follows. -/
def ifNotExists (s : List Char) : List Char :=
  match ((kw "if" s).bind (kw "not")).bind (kw "exists") with
  | some r => r
  | none => s

/-- sql_parser.py 529-546. -/
def createStmt (s : List Char) : R (String × List Col) :=
  match kw "create" s with
  | none => .unmod
  | some r =>
    if anyKw ["or", "temporary"] r then .unmod
    else
      match kw "table" r with
      | none => .unmod
      | some r1 =>
        match varName (ifNotExists r1) with
        | .ok n r2 => elements n r2
        | .fail => .fail
        | .crash => .crash
        | .unmod => .unmod

/-- `parse(query)` for a CREATE TABLE; `none`: rejected or outside the model. -/
def parseCreate (space : Char → Bool) (sql : List Char) : Option (String × List Col) :=
  match createStmt (rstrip (· == ';') (rstrip space sql)) with
  | .ok a r => if atEnd r then some a else none
  | _ => none

/-- What `rewrite_table` reads of a column: `unique` is not looked at. -/
def Col.def_ (c : Col) : ColDef :=
  { name := c.name, typeName := c.type, typeArg := c.arg, nullable := c.opts.nullable, primaryKey := c.opts.pk, autoIncrement := c.opts.auto }

/-- table.py 12-148.  A column with UNSIGNED has the type `{"unsigned": True, "int": ..}`: an encrypted one raises AttributeError (56-57: `element_type` has no
UNSIGNED), a plaintext one is written twice (38-51), which is not modelled here (`notSupported`); see `unsignedTexts`. -/
def rewriteCreate (env : Table.Env) (opts : Dict String EncOpt) (t : String) (cols : List Col) : Except PyErr Rewritten :=
  if cols.any fun c => c.unsigned && (Dict.get? opts c.name).isSome then .error .attributeError
  else if cols.any Col.unsigned then .error .notSupported
  else rewriteTable env [] "" opts { name := t, columns := cols.map Col.def_ }

/-- table.py 38-51 for a plaintext column whose type has UNSIGNED: one text for every entry of the type. -/
def unsignedTexts (c : Col) : List String :=
  let rest := nullText c.def_ ++ pkText c.def_
  [c.name ++ " " ++ "unsigned(True)" ++ rest,
   c.name ++ " " ++ (if c.arg.truthy then c.type ++ "(" ++ c.arg.str ++ ")" else c.type) ++ rest]

/-! ### The backend

MySQL 8 with InnoDB (reference manual, "Data Types", "CREATE TABLE Statement", "Limits on Table Column Count and Row Size", "InnoDB Limits"), in strict mode.
Part of the trusted base, as `Verif/Whole/Mysql.lean`.  A text is read if it is `CREATE TABLE IF NOT EXISTS name(column, ..);` with the types and options below.
NULL, defaults, NULL bits in the row size and the conversion of values to the type of their column are left out. -/

section
open EulerDB.Whole EulerDB.Clause

/-- A type: integers of so many bytes, floating point numbers of so many bytes, decimal numbers (digits, digits after the point), texts (fixed length or not,
number of characters). -/
inductive MType where
  | integer (bytes : Nat)
  | real (bytes : Nat)
  | decimal (p s : Nat)
  | chars (fixed : Bool) (n : Nat)
  deriving DecidableEq, Repr

/-- The type that a word (in capitals) and its arguments name. -/
def mtype (w : String) (args : List Nat) : Option MType :=
  match args with
  | [] =>
    if w = "TINYINT" ∨ w = "BOOL" ∨ w = "BOOLEAN" then some (.integer 1)
    else if w = "SMALLINT" then some (.integer 2)
    else if w = "INT" ∨ w = "INTEGER" then some (.integer 4)
    else if w = "BIGINT" then some (.integer 8)
    else if w = "FLOAT" then some (.real 4)
    else if w = "DOUBLE" ∨ w = "REAL" then some (.real 8)
    else if w = "DECIMAL" then some (.decimal 10 0)
    else if w = "CHAR" then some (.chars true 1)
    else none
  | [n] =>
    if w = "TINYINT" ∧ n ≤ 255 then some (.integer 1)
    else if w = "INT" ∧ n ≤ 255 then some (.integer 4)
    else if w = "BIGINT" ∧ n ≤ 255 then some (.integer 8)
    else if w = "DECIMAL" ∧ n ≤ 65 then some (.decimal n 0)
    else if w = "CHAR" ∧ n ≤ 255 then some (.chars true n)
    else if w = "VARCHAR" then some (.chars false n)
    else none
  | [p, s] => if w = "DECIMAL" ∧ p ≤ 65 ∧ s ≤ 30 ∧ s ≤ p then some (.decimal p s) else none
  | _ => none

/-- A column of the backend. -/
structure MCol where
  name : String
  type : MType
  pk : Bool
  auto : Bool
  deriving DecidableEq, Repr

/-- `(n)`, `(n, m)` or nothing. -/
def pArgs : List MTok → List Nat × List MTok
  | .lp :: .num n :: .rp :: r => ([n], r)
  | .lp :: .num n :: .comma :: .num m :: .rp :: r => ([n, m], r)
  | r => ([], r)

/-- The options of a column, at most `n`: whether it is the primary key, whether it is AUTO_INCREMENT. -/
def pOptions : Nat → Bool → Bool → List MTok → Bool × Bool × List MTok
  | 0, k, a, t => (k, a, t)
  | n + 1, k, a, t =>
    match (pKw "NOT" t).bind (pKw "NULL") with
    | some r => pOptions n k a r
    | none =>
      match pKw "NULL" t with
      | some r => pOptions n k a r
      | none =>
        match (pKw "PRIMARY" t).bind (pKw "KEY") with
        | some r => pOptions n true a r
        | none =>
          match pKw "AUTO_INCREMENT" t with
          | some r => pOptions n k true r
          | none => (k, a, t)

def pCol (res : List Char → Bool) (t : List MTok) : Option (MCol × List MTok) :=
  match pName res t with
  | some (n, .word w :: r) =>
    match mtype (String.ofList (w.map Char.toUpper)) (pArgs r).1 with
    | some ty =>
      let o := pOptions (pArgs r).2.length false false (pArgs r).2
      some (⟨n, ty, o.1, o.2.1⟩, o.2.2)
    | none => none
  | _ => none

def pCreate (res : List Char → Bool) (t : List MTok) : Option (String × List MCol) := do
  let t ← pKw "CREATE" t
  let t ← pKw "TABLE" t
  let t ← pKw "IF" t
  let t ← pKw "NOT" t
  let t ← pKw "EXISTS" t
  let (n, t) ← pName res t
  match t with
  | .lp :: t => do
    let (cs, t) ← pSep (pCol res) t.length t
    match t with
    | [.rp] => some (n, cs)
    | _ => none
  | _ => none

/-- The table that a text creates; the semicolon ends the statement. -/
def readCreate (res : List Char → Bool) (s : List Char) : Option (String × List MCol) :=
  match s.getLast? with
  | some c => if c = ';' then (lex s.dropLast.length s.dropLast).bind (pCreate res) else none
  | none => none

/-- The bytes of `d` decimal digits. -/
def decBytes (d : Nat) : Nat := 4 * (d / 9) + (d % 9 + 1) / 2

/-- The bytes a value of the type takes in a row; a character takes up to `w` bytes. -/
def MType.bytes (w : Nat) : MType → Nat
  | .integer b => b
  | .real b => b
  | .decimal p s => decBytes (p - s) + decBytes s
  | .chars true n => w * n
  | .chars false n => w * n + (if w * n > 255 then 2 else 1)

/-- The bytes in an index. -/
def MType.keyBytes (w : Nat) : MType → Nat
  | .chars _ n => w * n
  | t => t.bytes w

/-- Lower case, as column names are compared. -/
def low (s : String) : List Char := s.toList.map Char.toLower

/-- Does the backend accept the columns? -/
def legal (w : Nat) (cols : List MCol) : Bool :=
  !cols.isEmpty && decide (cols.length ≤ 1017) && decide ((cols.map fun c => low c.name).Nodup) &&
    decide ((cols.map fun c => c.type.bytes w).sum ≤ 65535) && decide ((cols.filter MCol.pk).length ≤ 1) &&
    cols.all (fun c => !c.pk || decide (c.type.keyBytes w ≤ 3072)) &&
    cols.all (fun c => !c.auto || (c.pk && match c.type with | .integer _ => true | .real _ => true | _ => false))

/-- The backend: rows and declared columns. -/
structure Store where
  rows : Tables
  cols : Dict String (List MCol)

/-- CREATE TABLE IF NOT EXISTS. -/
def Store.create (w : Nat) (st : Store) (n : String) (cols : List MCol) : Option Store :=
  match Dict.get? st.cols n with
  | some _ => some st
  | none => if legal w cols then some ⟨Dict.set st.rows n [], Dict.set st.cols n cols⟩ else none

/-- Does the value fit the type? -/
def MType.fits : MType → DbVal → Bool
  | .integer b, .int z => decide (-(2 : Int) ^ (8 * b - 1) ≤ z ∧ z < 2 ^ (8 * b - 1))
  | .decimal p 0, .int z => decide (z.natAbs < 10 ^ p)
  | .chars _ n, .text s => decide (s.toList.length ≤ n)
  | _, _ => false

/-- A row has a fitting value for every column and no others. -/
def rowFits (cols : List MCol) (row : Row) : Bool :=
  row.all (fun e => cols.any fun c => c.name == e.1) &&
    cols.all fun c => match Dict.get? row c.name with | some v => c.type.fits v | none => false

/-- The values of a column, which must differ if it is the primary key. -/
def keyed (cols : List MCol) (rows : List Row) : Bool :=
  cols.all fun c => !c.pk || decide ((rows.map fun row => Dict.get? row c.name).Nodup)

def Store.fine (st : Store) : Bool :=
  st.cols.all fun e => match Dict.get? st.rows e.1 with
    | some rows => rows.all (rowFits e.2) && keyed e.2 rows
    | none => false

end

/-! ### The proxy in front of it -/

section
open EulerDB.Whole EulerDB.Clause

/-- The metadata of the proxy, and the backend. -/
structure World where
  db : Db
  store : Store

/-- What a client may ask: to create a table (with the options chosen for the encrypted columns; the random names come with it), or a statement. -/
inductive Req where
  | create (sql : List Char) (opts : Dict String EncOpt) (env : Table.Env)
  | stmt (sql : List Char)

/-- The backend characters: bytes of a character, reserved words. -/
structure Back where
  width : Nat
  res : List Char → Bool

/-- One request: the new state and the rows answered.  `none`: somebody refuses.  A table is recorded before the backend has created it (table.py 147), but a
refused request ends the session here. -/
def serve (P : Proxy) (B : Back) (w : World) : Req → Option (World × List (List OutVal))
  | .create sql opts env =>
    match parseCreate P.space sql with
    | none => none
    | some (t, cols) =>
      match rewriteCreate env opts t cols with
      | .error _ => none
      | .ok r =>
        match readCreate B.res r.text.toList with
        | none => none
        | some (n, cs) =>
          match w.store.create B.width n cs with
          | none => none
          | some st => some (⟨Dict.set w.db t r.meta_, st⟩, [])
  | .stmt sql =>
    match { P with db := w.db }.serve B.res w.store.rows sql with
    | none => none
    | some (rows, out) => if Store.fine ⟨rows, w.store.cols⟩ then some (⟨w.db, ⟨rows, w.store.cols⟩⟩, out) else none

def session (P : Proxy) (B : Back) (w : World) : List Req → Option (World × List (List (List OutVal)))
  | [] => some (w, [])
  | q :: qs =>
    match serve P B w q with
    | none => none
    | some (w1, out) =>
      match session P B w1 qs with
      | none => none
      | some (w2, outs) => some (w2, out :: outs)

end

end EulerDB.Create
