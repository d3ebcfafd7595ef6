import Verif.Meta
import Verif.Delta.Model
import Verif.Aes.Model
import Verif.Text

/-!
# Rewriting CREATE TABLE (scheduler/handers/table.py)
-/

namespace EulerDB.Table

open EulerDB EulerDB.Delta

/-- A DEFAULT clause that Python takes for true, as the parser returns it: a bare word, `{'null': {}}`, or something else (`{'literal': ..}`, a number). -/
inductive DefaultVal where
  | word (s : String)
  | null
  | otherwise
  deriving DecidableEq, Repr

/-- The argument of a column type: none (`{}`), a number, or several numbers. -/
inductive TypeArg where
  | none
  | num (n : Nat)
  | many (ns : List Nat)
  deriving DecidableEq, Repr

/-- Python truth of the argument (table.py 39, 63): `{}`, `0` and `[]` are false. -/
def TypeArg.truthy : TypeArg → Bool
  | .none => false
  | .num n => n != 0
  | .many ns => !ns.isEmpty

/-- `str(t_v)`. -/
def TypeArg.str : TypeArg → String
  | .none => "{}"
  | .num n => String.ofList (Text.natStr n)
  | .many ns => "[" ++ String.intercalate ", " (ns.map fun n => String.ofList (Text.natStr n)) ++ "]"

/-- One entry of `json['create table']['columns']`. -/
structure ColDef where
  name : String
  typeName : String
  typeArg : TypeArg
  nullable : Option Bool := .none
  primaryKey : Bool := false
  autoIncrement : Bool := false
  default : Option DefaultVal := .none
  comment : Option String := .none
  deriving DecidableEq, Repr

/-- One entry of `encrypted_cols`: the options chosen for an encrypted column (built by the web handler, which always sets `key` and `fuzzy`). -/
structure EncOpt where
  key : String
  fuzzy : Bool
  arithmetic : Bool
  homKey : Option (Nat × Nat)
  sm4 : Bool
  sm4Key : String
  deriving DecidableEq, Repr

/-- A column of the backend table: name, type and the rest of its definition. -/
structure BCol where
  name : String
  type : String
  rest : String
  deriving DecidableEq, Repr

/-- The text of a column, table.py 51, 77, 91, 105, 120. -/
def BCol.text (b : BCol) : String := b.name ++ " " ++ b.type ++ b.rest

/-- The outside world of `rewrite_table`: the random names drawn (59-60, 80-81, 94-95, 109-110) in order, the name of the table (126), and the text of an
encrypted DEFAULT clause per cipher, which may raise (68-74, 82-88, 96-102, 111-117: AESCipher, SM4CipherBytes or HomomorphicCipher applied to the default). -/
structure Env where
  names : Nat → String
  anon : String
  encDefault : String → EncOpt → DefaultVal → Except PyErr String

/-- `s.upper()` on a type name (the grammar only has ASCII type names). -/
def upper (s : String) : String := String.ofList (s.toList.map Char.toUpper)

/-- A value of `element_type`, schema/metadata.py 54-78: a fixed type or the function `get_type_and_len`. -/
inductive ElemType where
  | fixed (s : String)
  | func
  deriving DecidableEq, Repr

/-- `element_type.get(t)`, schema/metadata.py 54-78 and table.py 56. -/
def elementType (t : String) : Option (Dict String ElemType) :=
  if t = "INT" then some [("order-preserving", .fixed "BIGINT"), ("symmetric", .fixed "VARCHAR(300)")]
  else if t = "VARCHAR" then some [("symmetric", .func)]
  else if t = "CHAR" then some [("symmetric", .func)]
  else if t = "FLOAT" then some [("order-preserving", .fixed "DECIMAL(65)"), ("symmetric", .fixed "VARCHAR(1000)")]
  else if t = "DOUBLE" then some [("order-preserving", .fixed "DECIMAL(65)"), ("symmetric", .fixed "VARCHAR(1000)")]
  else none

/-- `get_type_and_len`, metadata.py 44-51, on a number; on a list the arithmetic raises TypeError for char types and the list is passed on for others. -/
def getTypeAndLen (tk : String) (tv : TypeArg) : Except PyErr (String × String) :=
  if tk = "char" ∨ tk = "varchar" then
    match tv with
    | .num n =>
      let r := Aes.typeAndLen (tk = "char") n
      .ok (if r.1 then "char" else "varchar", String.ofList (Text.natStr r.2))
    | _ => .error .typeError
  else .ok (tk, tv.str)

/-- `enc_col_type`, table.py 63-67 and the concatenation in 77: calling a string, or concatenating a function, raises TypeError.
(The latter happens after the DEFAULT clause was encrypted; only which of two exceptions is raised depends on that.) -/
def encColType (v : ElemType) (tk : String) (tv : TypeArg) : Except PyErr String :=
  if tv.truthy then
    match v with
    | .fixed _ => .error .typeError
    | .func =>
      match getTypeAndLen tk tv with
      | .error e => .error e
      | .ok (k, l) => .ok (k ++ "(" ++ l ++ ")")
  else
    match v with
    | .fixed s => .ok s
    | .func => .error .typeError

/-- `is_nullable`, table.py 31-34. -/
def nullText (c : ColDef) : String :=
  match c.nullable with
  | some true => " NULL "
  | some false => " NOT NULL "
  | .none => ""

/-- `primary_key`, table.py 25-26. -/
def pkText (c : ColDef) : String :=
  if c.primaryKey then " primary key" ++ (if c.autoIncrement then " auto_increment " else "") else ""

/-- The DEFAULT text of a plaintext column, table.py 43-50: a bare word is copied, null becomes NULL, anything else raises TypeError. -/
def plainDefault (c : ColDef) : Except PyErr String :=
  match c.default with
  | .none => .ok ""
  | some (.word s) => .ok (" DEFAULT " ++ s)
  | some .null => .ok " DEFAULT NULL "
  | some .otherwise => .error .typeError

/-- The DEFAULT text of a cipher column. -/
def cipherDefault (env : Env) (cipher : String) (o : EncOpt) (c : ColDef) : Except PyErr String :=
  match c.default with
  | .none => .ok ""
  | some d =>
    match env.encDefault cipher o d with
    | .error e => .error e
    | .ok s => .ok (" DEFAULT " ++ s)

/-- The branch for a column that is not encrypted, table.py 37-55. -/
def plainCol (c : ColDef) : Except PyErr (List BCol × ColMeta) :=
  let t := if c.typeArg.truthy then c.typeName ++ "(" ++ c.typeArg.str ++ ")" else c.typeName
  match plainDefault c with
  | .error e => .error e
  | .ok d => .ok ([⟨c.name, t, nullText c ++ pkText c ++ d⟩],
      { plaintext := true, type := c.typeName, key := "", encCols := [], comment := c.comment })

/-- The loop over `element_type`, table.py 57-78, starting with the `i`-th random name. -/
def elemCols (env : Env) (o : EncOpt) (c : ColDef) : Nat → Dict String ElemType → Except PyErr (List (String × BCol))
  | _, [] => .ok []
  | i, (k, v) :: r =>
    match encColType v c.typeName c.typeArg with
    | .error e => .error e
    | .ok t =>
      match cipherDefault env "symmetric" o c with
      | .error e => .error e
      | .ok d =>
        match elemCols env o c (i + 1) r with
        | .error e => .error e
        | .ok bs => .ok ((k, ⟨env.names i, t, nullText c ++ (if k = "symmetric" then pkText c else "") ++ d⟩) :: bs)

/-- One of the optional cipher columns, table.py 79-92, 93-107, 108-122. -/
def optCol (env : Env) (o : EncOpt) (c : ColDef) (i : Nat) (on : Bool) (k type : String) : Except PyErr (List (String × BCol)) :=
  if on then
    match cipherDefault env k o c with
    | .error e => .error e
    | .ok d => .ok [(k, ⟨env.names i, type, nullText c ++ d⟩)]
  else .ok []

/-- The branch for an encrypted column, table.py 56-125.  Returns the cipher columns with their cipher. -/
def cipherCols (env : Env) (o : EncOpt) (c : ColDef) (i : Nat) : Except PyErr (List (String × BCol)) :=
  match elementType (upper c.typeName) with
  | none => .error .attributeError
  | some et =>
    match elemCols env o c i et with
    | .error e => .error e
    | .ok l1 =>
      match optCol env o c (i + l1.length) o.fuzzy "fuzzy" "VARCHAR(2000)" with
      | .error e => .error e
      | .ok l2 =>
        match optCol env o c (i + l1.length + l2.length) o.arithmetic "arithmetic" "Decimal(65,0)" with
        | .error e => .error e
        | .ok l3 =>
          match optCol env o c (i + l1.length + l2.length + l3.length) o.sm4 "sm4" "VARCHAR(2000)" with
          | .error e => .error e
          | .ok l4 => .ok (l1 ++ l2 ++ l3 ++ l4)

/-- One column, table.py 24-125; `i` counts the random names drawn so far. -/
def rewriteCol (env : Env) (opts : Dict String EncOpt) (i : Nat) (c : ColDef) : Except PyErr (List BCol × ColMeta × Nat) :=
  match Dict.get? opts c.name with
  | none =>
    match plainCol c with
    | .error e => .error e
    | .ok (bs, m) => .ok (bs, m, i)
  | some o =>
    match cipherCols env o c i with
    | .error e => .error e
    | .ok kbs =>
      .ok (kbs.map Prod.snd,
        { plaintext := false, type := c.typeName, key := o.key, encCols := kbs.foldl (fun d e => Dict.set d e.1 e.2.name) [],
          homKey := if o.arithmetic then o.homKey else none, sm4Key := if o.sm4 then some o.sm4Key else none, comment := c.comment },
        i + kbs.length)

/-- The loop over the columns, table.py 24-125: `enc_columns` and `columns_kv`. -/
def rewriteCols (env : Env) (opts : Dict String EncOpt) : Nat → List ColDef → List BCol → Dict String ColMeta →
    Except PyErr (List BCol × Dict String ColMeta)
  | _, [], bs, kv => .ok (bs, kv)
  | i, c :: r, bs, kv =>
    match rewriteCol env opts i c with
    | .error e => .error e
    | .ok (b, m, j) => rewriteCols env opts j r (bs ++ b) (Dict.set kv c.name m)

/-- A FOREIGN KEY's target: table and columns. -/
structure Reference where
  table : String
  columns : List String
  deriving DecidableEq, Repr

/-- A table constraint: optional name, and a primary or foreign key (`none`: some other constraint). -/
structure Constraint where
  name : Option String
  key : Option (List String × Option Reference)
  deriving DecidableEq, Repr

/-- `get_enc_columns`, table.py 151-159. -/
def getEncColumns (info : Dict String ColMeta) (cipher : String) : List String → Except PyErr (List String)
  | [] => .ok []
  | c :: r =>
    let one : Except PyErr String :=
      match Dict.get? info c with
      | none => .error .keyError
      | some m => if m.plaintext then .ok c else Dict.getItem m.encCols cipher
    match one with
    | .error e => .error e
    | .ok x =>
      match getEncColumns info cipher r with
      | .error e => .error e
      | .ok xs => .ok (x :: xs)

/-- `get_reference_phrase`, table.py 175-179. -/
def referencePhrase (m : Meta ColMeta) (db : String) (ref : Reference) : Except PyErr String :=
  match find m db ref.table with
  | none => .error .keyError
  | some tm =>
    match getEncColumns tm.columns "symmetric" ref.columns with
    | .error e => .error e
    | .ok cs => .ok (" REFERENCES " ++ tm.anonymous ++ "(" ++ String.intercalate "," cs ++ ")")

/-- `get_constraint_key`, table.py 162-172. -/
def constraintKey (m : Meta ColMeta) (db : String) (kv : Dict String ColMeta) (c : Constraint) : Except PyErr String :=
  let nm := match c.name with | some n => "CONSTRAINT " ++ n ++ " " | none => ""
  match c.key with
  | none => .error .assertion
  | some (cols, ref) =>
    let phrase : Except PyErr String := match ref with | none => .ok "" | some r => referencePhrase m db r
    match phrase with
    | .error e => .error e
    | .ok ph =>
      match getEncColumns kv "symmetric" cols with
      | .error e => .error e
      | .ok cs => .ok (nm ++ (match ref with | none => "PRIMARY KEY" | some _ => "FOREIGN KEY") ++ "(" ++ String.intercalate "," cs ++ ")" ++ ph)

/-- All constraints, table.py 127-133. -/
def constraintKeys (m : Meta ColMeta) (db : String) (kv : Dict String ColMeta) : List Constraint → Except PyErr (List String)
  | [] => .ok []
  | c :: r =>
    match constraintKey m db kv c with
    | .error e => .error e
    | .ok s =>
      match constraintKeys m db kv r with
      | .error e => .error e
      | .ok ss => .ok (s :: ss)

/-- A parsed CREATE TABLE; `tail` is the ENGINE / AUTO_INCREMENT / COLLATE text (table.py 134-136). -/
structure CreateTable where
  name : String
  columns : List ColDef
  constraints : List Constraint := []
  tail : String := ""
  comment : Option String := none

/-- The result of rewriting: the backend's column list and constraint texts, the statement text and the metadata. -/
structure Rewritten where
  bcols : List BCol
  constraints : List String
  text : String
  meta_ : TableMeta ColMeta

/-- `rewrite_table`, table.py 12-148, up to the call of `update_delta`. -/
def rewriteTable (env : Env) (m : Meta ColMeta) (db : String) (opts : Dict String EncOpt) (ct : CreateTable) : Except PyErr Rewritten :=
  match rewriteCols env opts 0 ct.columns [] [] with
  | .error e => .error e
  | .ok (bs, kv) =>
    match constraintKeys m db kv ct.constraints with
    | .error e => .error e
    | .ok cs =>
      .ok ⟨bs, cs,
        "CREATE TABLE IF NOT EXISTS " ++ env.anon ++ "(" ++ String.intercalate "," (bs.map BCol.text) ++
          (if cs = [] then "" else "," ++ String.intercalate "," cs) ++ ")" ++ ct.tail ++ ";",
        ⟨env.anon, kv, ct.comment⟩⟩

/-- `rewrite_table` with its effect on the metadata (147). -/
def createTable (env : Env) (s : State ColMeta) (db : String) (opts : Dict String EncOpt) (ct : CreateTable) :
    State ColMeta × Except PyErr String :=
  match rewriteTable env s.meta db opts ct with
  | .error e => (s, .error e)
  | .ok r => (updateDelta s db ct.name r.meta_, .ok r.text)

end EulerDB.Table
