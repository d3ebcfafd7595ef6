import Verif.Clause.Select

/-!
# The clause loop (rewrite_hander.py), the key statements of ALTER TABLE and the decryption of results
-/

namespace EulerDB.Clause

open EulerDB EulerDB.Delta

/-- The keys of `clause`, clause/__init__.py 11-29. -/
def clauseKeys : List String :=
  ["insert", "delete", "update", "select", "select_distinct", "from", "where", "set", "orderby", "columns", "drop", "query", "alter",
    "reference_table", "add primary key", "add foreign key", "reference_feature"]

/-- `table_key`, clause/__init__.py 31-38. -/
def tableKeys : List String := ["insert", "from", "select_distinct", "update", "delete", "drop", "alter"]

/-- rewrite_hander.py 32-37, 83-88. -/
def findTable (json : Dict String Json) : List String → Except PyErr Json
  | [] => .error .generic
  | k :: r =>
    match Dict.get? json k with
    | some t => .ok t
    | none => findTable json r

/-- `__inner__` on the items of `json['query']`, rewrite_hander.py 39-47: a list goes to `SQLValues`; a dict (the one-column INSERT) is
indexed with the key of the item.  (If that key exists the code descends further; the grammar gives no such value and the model
returns None.) -/
def innerItems (c : Crypto) (db : Db) (table : Json) (columns : Option Json) : List (String × Json) → Except PyErr (List (String × Json))
  | [] => .ok []
  | (k, v) :: r =>
    let x : Except PyErr Json :=
      match v with
      | .dict d =>
        match Dict.get? d k with
        | none => .error .keyError
        | some _ => .ok .null
      | v => if k = "select" then valuesRw c db table columns v else .error .keyError
    match x with
    | .error e => .error e
    | .ok x =>
      match innerItems c db table columns r with
      | .error e => .error e
      | .ok r' => .ok ((k, x) :: r')

/-- One clause, rewrite_hander.py 67-71, 110-114.  "add primary key", "add foreign key" and "reference_feature" have `SQLSelect` objects of
their own, so the record of the select list does not change. -/
def stepKey (c : Crypto) (db : Db) (table : Json) (columns : Option Json) (key : String) (v : Json) (s : Sel) : Except PyErr (Json × Sel) :=
  if key = "select" ∨ key = "select_distinct" then selRw db table "symmetric" s v
  else
    let r : Except PyErr Json :=
      if key = "insert" ∨ key = "delete" ∨ key = "update" ∨ key = "alter" ∨ key = "reference_table" then anonRw db table
      else if key = "from" then fromRw c db table
      else if key = "where" then whereRw c db table "symmetric" "" v
      else if key = "set" then
        match table, v with
        | .str t, .dict d => (setRw c db t d).map .dict
        | .str _, _ => .error .attributeError
        | _, _ => .error .typeError
      else if key = "orderby" then orderRw db table v
      else if key = "columns" then columnsRw db table v
      else if key = "drop" then
        match v with
        | .dict d => (dropRw db d []).map .dict
        | _ => .error .attributeError
      else if key = "query" then
        match v with
        | .dict d => (innerItems c db table columns d).map .dict
        | _ => .error .attributeError
      else
        match selRw db table "symmetric" {} v with
        | .error e => .error e
        | .ok (v', _) => .ok v'
    match r with
    | .error e => .error e
    | .ok v' => .ok (v', s)

/-- The loop over the clauses, rewrite_hander.py 49-71, 100-114; `fromStep` handles FROM. -/
def clauseLoop (c : Crypto) (db : Db) (fromStep : Json → Json → Sel → Except PyErr (Json × Sel)) (table : Json) (columns : Option Json) :
    List String → Dict String Json → Sel → Except PyErr (Dict String Json × Sel)
  | [], json, s => .ok (json, s)
  | key :: r, json, s =>
    match Dict.get? json key with
    | none => clauseLoop c db fromStep table columns r json s
    | some v =>
      match (if key = "from" then fromStep table v s else stepKey c db table columns key v s) with
      | .error e => .error e
      | .ok (v', s') => clauseLoop c db fromStep table columns r (Dict.set json key v') s'

/-- `json['from']['value'] = self.rewrite_clause(json['from']['value'])`, rewrite_hander.py 64-66, 107-109; a string in which "value" occurs
cannot be indexed with a string. -/
def fromValue (nested : Sel → Json → Except PyErr (Json × Sel)) (v : Json) (s : Sel) : Except PyErr (Json × Sel) :=
  match v with
  | .dict d =>
    match Dict.get? d "value" with
    | none => .error .keyError
    | some x =>
      match nested s x with
      | .error e => .error e
      | .ok (x', s') => .ok (.dict (Dict.set d "value" x'), s')
  | _ => .error .typeError

/-- FROM in `rewrite_clause`, rewrite_hander.py 105-114. -/
def fromInner (c : Crypto) (db : Db) (nested : Sel → Json → Except PyErr (Json × Sel)) (table v : Json) (s : Sel) : Except PyErr (Json × Sel) :=
  if pyIn "value" v then fromValue nested v s
  else
    match fromRw c db table with
    | .error e => .error e
    | .ok v' => .ok (v', s)

/-- The loop over a FROM list in `rewrite_query`, rewrite_hander.py 57-62 (`i` is the index). -/
def fromItems (c : Crypto) (db : Db) (nested : Sel → Json → Except PyErr (Json × Sel)) (table : Json) :
    Nat → List Json → Sel → Except PyErr (List Json × Sel)
  | _, [], s => .ok ([], s)
  | i, v :: r, s =>
    let x : Except PyErr (Json × Sel) :=
      if pyIn "value" v then fromValue nested v s
      else
        match fromRw c db table with
        | .error e => .error e
        | .ok (.list l) =>
          match l[i]? with
          | some y => .ok (y, s)
          | none => .error .indexError
        | .ok _ => .error .typeError
    match x with
    | .error e => .error e
    | .ok (x, s') =>
      match fromItems c db nested table (i + 1) r s' with
      | .error e => .error e
      | .ok (xs, s'') => .ok (x :: xs, s'')

/-- FROM in `rewrite_query`, rewrite_hander.py 54-71. -/
def fromOuter (c : Crypto) (db : Db) (nested : Sel → Json → Except PyErr (Json × Sel)) (table v : Json) (s : Sel) : Except PyErr (Json × Sel) :=
  match v with
  | .list l =>
    match fromItems c db nested table 0 l s with
    | .error e => .error e
    | .ok (xs, s') => .ok (.list xs, s')
  | v => fromInner c db nested table v s

/-- `rewrite_clause`, rewrite_hander.py 79-115; `fuel` stands for the recursion limit of CPython.  The code does not copy the FROM value, so a nested
FROM is already rewritten when the WHERE clause next to it is handled; `SQLWhere` and `OrderBy` never look inside a dict. -/
def rewriteClause (c : Crypto) (db : Db) : Nat → Sel → Json → Except PyErr (Json × Sel)
  | 0, _, _ => .error .nonterm
  | fuel + 1, s, json =>
    match json with
    | .str t => (tableOf db t).map fun tm => (.str tm.anonymous, s)
    | .dict d =>
      match findTable d tableKeys with
      | .error e => .error e
      | .ok table =>
        match clauseLoop c db (fromInner c db (rewriteClause c db fuel)) table (Dict.get? d "columns") clauseKeys d s with
        | .error e => .error e
        | .ok (d', s') => .ok (.dict d', s')
    | _ => .error .attributeError

/-- `rewrite_query` on a parsed statement, rewrite_hander.py 31-74: the rewritten statement, the value of `table` and the record of the select
list. -/
def rewriteQuery (c : Crypto) (db : Db) (fuel : Nat) (json : Dict String Json) : Except PyErr (Dict String Json × Json × Sel) :=
  match findTable json tableKeys with
  | .error e => .error e
  | .ok table =>
    match clauseLoop c db (fromOuter c db (rewriteClause c db fuel)) table (Dict.get? json "columns") clauseKeys json {} with
    | .error e => .error e
    | .ok (json', s) => .ok (json', table, s)

/-! ### ALTER TABLE -/

/-- Python truth. -/
def truthy : Json → Bool
  | .null => false
  | .int z => z ≠ 0
  | .float q => q ≠ 0
  | .str s => s ≠ ""
  | .list l => !l.isEmpty
  | .dict d => !d.isEmpty

/-- `','.join([i['value'] for i in x])`, sql_parsing/__init__.py 204-221. -/
def joinValues : List Json → Except PyErr (List String)
  | [] => .ok []
  | j :: r =>
    match pyItem "value" j with
    | .error e => .error e
    | .ok (.str s) =>
      match joinValues r with
      | .error e => .error e
      | .ok l => .ok (s :: l)
    | .ok _ => .error .typeError

/-- `x` as an f-string shows it (strings only). -/
def shown : Json → String
  | .str s => s
  | _ => ""

/-- A key list of a statement, or a raised exception. -/
def keyList (json : Dict String Json) (k : String) : Except PyErr String :=
  match Dict.get? json k with
  | none => .error .keyError
  | some v =>
    match pyIter v with
    | .error e => .error e
    | .ok l => (joinValues l).map fun l => String.ofList (Text.join ',' (l.map String.toList))

/-- `json.get(k)` is truthy. -/
def has (json : Dict String Json) (k : String) : Bool := match Dict.get? json k with | some v => truthy v | none => false

/-- `json[k]` inside an f-string. -/
def field (json : Dict String Json) (k : String) : Except PyErr String :=
  match Dict.get? json k with
  | some v => .ok (shown v)
  | none => .error .keyError

/-- `format_alter_key`, sql_parsing/__init__.py 201-224. -/
def formatAlter (json : Dict String Json) : Except PyErr (Option String) := do
  let t ← field json "alter"
  if has json "add primary key" then
    let k ← keyList json "add primary key"
    return some ("alter table " ++ t ++ " add primary key(" ++ k ++ ");")
  else if has json "drop primary key" then return some ("alter table " ++ t ++ " drop primary key;")
  else if has json "add foreign key" then
    let n ← field json "add constraint"
    let k ← keyList json "add foreign key"
    let u ← field json "reference_table"
    let f ← keyList json "reference_feature"
    return some ("alter table " ++ t ++ " add constraint " ++ n ++ " foreign key(" ++ k ++ ") REFERENCES " ++ u ++ "(" ++ f ++ ");")
  else if has json "drop foreign key" then
    let n ← field json "drop foreign key"
    return some ("alter table " ++ t ++ " drop foreign key " ++ n ++ ";")
  else if has json "add index" then
    let n ← field json "add index"
    let k ← keyList json "add index feature"
    return some ("alter table " ++ t ++ " add index " ++ n ++ "(" ++ k ++ ");")
  else if has json "add unique" then
    let n ← field json "add unique"
    let k ← keyList json "add unique feature"
    return some ("alter table " ++ t ++ " add unique " ++ n ++ "(" ++ k ++ ");")
  else if has json "add fulltext" then
    let n ← field json "add fulltext"
    let k ← keyList json "add fulltext feature"
    return some ("alter table " ++ t ++ " add fulltext " ++ n ++ "(" ++ k ++ ");")
  else if has json "drop index" then
    let n ← field json "drop index"
    return some ("alter table " ++ t ++ " drop index " ++ n ++ ";")
  else return none

/-- ALTER TABLE through the proxy, rewrite_hander.py 27-28, 75-76. -/
def alterQuery (c : Crypto) (db : Db) (fuel : Nat) (json : Dict String Json) : Except PyErr (Option String) :=
  match rewriteQuery c db fuel json with
  | .error e => .error e
  | .ok (json', _, _) => formatAlter json'

/-! ### Decryption of a result -/

/-- A value the backend stores or returns. -/
inductive DbVal where
  | null
  | int (z : Int)
  | text (s : String)
  deriving DecidableEq, Repr

/-- A value `decrypt` returns. -/
inductive OutVal where
  | null
  | int (z : Int)
  | num (q : ℚ)
  | text (s : String)
  deriving DecidableEq, Repr

/-- `decode`, encrypt.py 72-85.  `eval` of a text is modelled only as far as the decimal integers the ciphers produce are concerned: such a text
gives the integer; what any other text gives is the parameter `ev`. -/
def decodeVal (ev : String → Option OutVal) (type : String) (v : DbVal) : Except PyErr OutVal :=
  let w : OutVal :=
    match v with
    | .null => .null
    | .int z => .int z
    | .text s =>
      if type = "int" ∨ type = "float" ∨ type = "double" then
        match Text.parseInt s.toList with
        | .ok z => .int z
        | .error _ => (ev s).getD (.text s)
      else .text s
  if type = "float" then
    match w with
    | .int z => .ok (.num (Codec.decodeFloat z))
    | _ => .error .typeError
  else if type = "double" then
    match w with
    | .int z => (Codec.decodeDouble z).map .num
    | _ => .error .typeError
  else .ok w

/-- The column a recorded name stands for, decrypt_handler.py 65-73. -/
def decCol (db : Db) (table : Json) (col : String) : Except PyErr ColMeta :=
  match (match splitDot col with
    | [_] => .ok (table, col)
    | [t, n] => (origin t table).map fun o => (o, n)
    | _ => .error .valueError : Except PyErr (Json × String)) with
  | .error e => .error e
  | .ok (t, n) =>
    match tableOfJson db (match t with | .dict d => getNest d | t => t) with
    | .error e => .error e
    | .ok tm => Dict.getItem tm.columns n

/-- `__decrypt__`, decrypt_handler.py 64-78.  `homDec` is Paillier decryption.  (`AESCipher.decrypt` of an integer and `OPECipher.decrypt` of a
text raise; the constructors of the other two ciphers are called as well but cannot fail for a stored key.) -/
def decryptVal (c : Crypto) (homDec : Nat × Nat → DbVal → Except PyErr DbVal) (ev : String → Option OutVal) (db : Db) (table : Json) (v : DbVal)
    (col state : String) : Except PyErr OutVal :=
  if v = .null then .ok .null
  else
    match decCol db table col with
    | .error e => .error e
    | .ok cm =>
      let p : Except PyErr DbVal :=
        if state = "symmetric" then
          match v with
          | .text s => (c.symDec cm.key s).map .text
          | _ => .error .typeError
        else if state = "order-preserving" then
          match v with
          | .int z => (c.opeDec cm.key z).map .int
          | _ => .error .typeError
        else if state = "arithmetic" then
          match cm.homKey with
          | some k => homDec k v
          | none => .error .typeError
        else .error .keyError
      match p with
      | .error e => .error e
      | .ok p => decodeVal ev cm.type p

/-- A value as it is, decrypt_handler.py 27-34. -/
def plainVal : DbVal → OutVal
  | .null => .null
  | .int z => .int z
  | .text s => .text s

/-- One row, decrypt_handler.py 26-36: `zip` of the recorded columns, the recorded states and the values. -/
def decryptRow (c : Crypto) (homDec : Nat × Nat → DbVal → Except PyErr DbVal) (ev : String → Option OutVal) (db : Db) (table : Json) :
    List String → List String → List DbVal → Except PyErr (List OutVal)
  | col :: cols, st :: sts, v :: vs =>
    match (if st = "plaintext" then .ok (plainVal v) else decryptVal c homDec ev db table v col st) with
    | .error e => .error e
    | .ok x =>
      match decryptRow c homDec ev db table cols sts vs with
      | .error e => .error e
      | .ok xs => .ok (x :: xs)
  | _, _, _ => .ok []

end EulerDB.Clause
