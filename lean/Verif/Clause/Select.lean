import Verif.Clause.Where

/-!
# Rewriting the other clauses

clause/utils.py, sql_select.py, sql_from.py, function.py, sql_drop.py, anonymous_table.py, sql_columns.py, sql_values.py.
-/

namespace EulerDB.Clause

open EulerDB EulerDB.Delta

/-- Python's `a in b` on strings. -/
def isSub (a b : List Char) : Bool := a.isPrefixOf b || match b with | [] => false | _ :: r => isSub a r

/-- `key in x` for a string or a dict; for a list it is membership of the string. -/
def pyIn (key : String) : Json → Bool
  | .str s => isSub key.toList s.toList
  | .dict d => (Dict.get? d key).isSome
  | .list l => l.any fun j => match j with | .str s => s = key | _ => false
  | _ => false

/-- `x[key]`. -/
def pyItem (key : String) : Json → Except PyErr Json
  | .dict d => Dict.getItem d key
  | _ => .error .typeError

/-! ### clause/utils.py -/

mutual
/-- `get_table`, utils.py 2-11. -/
def getTable (k : String) : Json → Option String
  | .str s => if k ∈ ["from", "join", "left join", "right join", "inner join", "value"] then some s else none
  | .dict d => getTableDict d
  | _ => none

/-- The loop of `get_table` and `get_nest_table`. -/
def getTableDict : List (String × Json) → Option String
  | [] => none
  | (k, v) :: r =>
    match getTable k v with
    | some s => some s
    | none => getTableDict r
end

/-- `get_nest_table`, utils.py 14-20: the dict itself if nothing is found. -/
def getNest (d : List (String × Json)) : Json :=
  match getTableDict d with
  | some s => .str s
  | none => .dict d

/-- `for key in keys: if key in table: table = table[key]`. -/
def descend : List String → Json → Except PyErr Json
  | [], t => .ok t
  | k :: r, t =>
    if pyIn k t then
      match pyItem k t with
      | .error e => .error e
      | .ok t' => descend r t'
    else descend r t

/-- `get_origin_table` on a string or a dict, utils.py 23-33, 38-41.  The empty string stands for "not found". -/
def originOne (name : String) : Json → Except PyErr Json
  | .dict d =>
    match descend ["join", "inner join", "left join", "right join"] (.dict d) with
    | .error e => .error e
    | .ok (.str s) => .ok (.str (if name = s then s else ""))
    | .ok (.dict d') =>
      match Dict.get? d' "name" with
      | some (.str n) => if n = name then .ok (getNest d') else .ok (.str "")
      | _ => .ok (.str "")
    | .ok _ => .ok (.str "")
  | .str s => .ok (.str (if name = s then s else ""))
  | _ => .ok (.str "")

/-- Python truth of what `get_origin_table` returns. -/
def found : Json → Bool
  | .str s => s ≠ ""
  | .dict d => !d.isEmpty
  | _ => false

/-- The loop of `get_origin_table` over a list, utils.py 34-37 (the elements are strings or dicts). -/
def originList (name : String) : List Json → Json → Except PyErr Json
  | [], res => .ok res
  | t :: r, res =>
    match originOne name t with
    | .error e => .error e
    | .ok x => originList name r (if found x then x else res)

/-- `get_origin_table`, utils.py 23-41. -/
def origin (name : String) : Json → Except PyErr Json
  | .list l => originList name l (.str "")
  | t => originOne name t

/-! ### sql_select.py -/

/-- `select_columns`, `select_types`, `select_state`, sql_select.py 10-12. -/
structure Sel where
  columns : List String := []
  types : List String := []
  state : List String := []
  deriving DecidableEq, Repr

def Sel.push (s : Sel) (col type state : String) : Sel := ⟨s.columns ++ [col], s.types ++ [type], s.state ++ [state]⟩

/-- `FUNC_CIPHERS`, schema/metadata.py 86-91. -/
def funcCipher (k : String) : Option String :=
  if k = "max" then some "order-preserving"
  else if k = "min" then some "order-preserving"
  else if k = "sum" then some "arithmetic"
  else if k = "avg" then some "arithmetic"
  else none

/-- `join_list`, sql_from.py 4. -/
def joinList : List String := ["inner join", "join", "left join", "right join"]

/-- The prefix of a column of `*`, sql_select.py 27-42: `ti` is the FROM item, `single` the table found in it, `many` whether FROM has
several items. -/
def starPrefix (db : Db) (many : Bool) (single : String) (ti : Json) : Except PyErr String :=
  let p : Except PyErr String :=
    match ti with
    | .dict d =>
      match descend joinList (.dict d) with
      | .error e => .error e
      | .ok (.dict d') =>
        match Dict.get? d' "name" with
        | some (.str n) => if n = "" then (if many then (tableOf db single).map (·.anonymous) else .ok "") else .ok n
        | _ => if many then (tableOf db single).map (·.anonymous) else .ok ""
      | .ok t => (tableOfJson db t).map (·.anonymous)
    | _ => if many then (tableOf db single).map (·.anonymous) else .ok ""
  match p with
  | .error e => .error e
  | .ok a => .ok (if a = "" then a else a ++ ".")

/-- The columns of one table under `*`, sql_select.py 26-51. -/
def starCols (db : Db) (many : Bool) (single : String) (ti : Json) (cipher : String) :
    Dict String ColMeta → Sel → Except PyErr (List Json × Sel)
  | [], s => .ok ([], s)
  | (k, v) :: r, s =>
    match starPrefix db many single ti with
    | .error e => .error e
    | .ok p =>
      match (if v.plaintext then .ok k else Dict.getItem v.encCols cipher) with
      | .error e => .error e
      | .ok n =>
        match starCols db many single ti cipher r (s.push ((if many then single ++ "." else "") ++ k) v.type (if v.plaintext then "plaintext" else cipher)) with
        | .error e => .error e
        | .ok (js, s') => .ok (.str (p ++ n) :: js, s')

/-- The tables under `*`, sql_select.py 22-24. -/
def starTables (db : Db) (many : Bool) (cipher : String) : List Json → Sel → Except PyErr (List Json × Sel)
  | [], s => .ok ([], s)
  | ti :: r, s =>
    match (match ti with | .dict d => getNest d | t => t) with
    | .str single =>
      match tableOf db single with
      | .error e => .error e
      | .ok tm =>
        match starCols db many single ti cipher tm.columns s with
        | .error e => .error e
        | .ok (js, s') =>
          match starTables db many cipher r s' with
          | .error e => .error e
          | .ok (js', s'') => .ok (js ++ js', s'')
    | t =>
      match tableOfJson db t with
      | .error e => .error e
      | .ok _ => .error .typeError

/-- `SELECT *`, sql_select.py 20-52. -/
def selStar (db : Db) (table : Json) (cipher : String) (s : Sel) : Except PyErr (Json × Sel) :=
  let tables := match table with | .list l => l | t => [t]
  match starTables db (tables.length > 1) cipher tables s with
  | .error e => .error e
  | .ok (js, s') => .ok (.list js, s')

/-- `s.split('.') if '.' in s else ('', s)` with the two-way unpacking, sql_select.py 77, 92. -/
def splitQual (v : String) : Except PyErr (String × String) :=
  match splitDot v with
  | [a] => .ok ("", a)
  | [a, b] => .ok (a, b)
  | _ => .error .valueError

/-- A column of a single table, sql_select.py 77-86 and 92-101; `t` is the table, `v` the column as written. -/
def selCol (db : Db) (t : Json) (cipher : String) (s : Sel) (v : String) : Except PyErr (Json × Sel) :=
  match splitQual v with
  | .error e => .error e
  | .ok (q, n) =>
    match tableOfJson db t with
    | .error e => .error e
    | .ok tm =>
      match Dict.getItem tm.columns n with
      | .error e => .error e
      | .ok cm =>
        match (if cm.plaintext then .ok n else Dict.getItem cm.encCols cipher) with
        | .error e => .error e
        | .ok x => .ok (.str ((if q = "" then "" else q ++ ".") ++ x), s.push v cm.type (if cm.plaintext then "plaintext" else cipher))

/-- A column of a joined table, sql_select.py 61-74. -/
def selJoinCol (db : Db) (table : Json) (cipher : String) (s : Sel) (v : String) : Except PyErr (Json × Sel) :=
  match splitTableCol (.str v) with
  | .error e => .error e
  | .ok (t, n) =>
    match origin t table with
    | .error e => .error e
    | .ok o =>
      match tableOfJson db o with
      | .error e => .error e
      | .ok tm =>
        match Dict.getItem tm.columns n with
        | .error e => .error e
        | .ok cm =>
          let q := match o with | .str o => if t ≠ o then t else tm.anonymous ++ "." | _ => t
          match (if cm.plaintext then .ok n else Dict.getItem cm.encCols cipher) with
          | .error e => .error e
          | .ok x => .ok (.str (q ++ x), s.push v cm.type (if cm.plaintext then "plaintext" else cipher))

/-- A string in a select list, sql_select.py 60-101 (the name is recorded before anything can raise; a raised exception drops the whole
request, so the record is made at the end here). -/
def selStr (db : Db) (table : Json) (cipher : String) (s : Sel) (v : String) : Except PyErr (Json × Sel) :=
  match table with
  | .list _ => selJoinCol db table cipher s v
  | .dict d => selCol db (getNest d) cipher s v
  | t => selCol db t cipher s v

/-- The Paillier key of a summand, sql_select.py 118-129: `v` is the rewritten summand. -/
def addKey (db : Db) (table : Json) (v : Json) : Except PyErr (Nat × Nat) :=
  let col : Except PyErr ColMeta :=
    match v with
    | .str s =>
      match splitDot s with
      | [_] =>
        match tableOfJson db table with
        | .error e => .error e
        | .ok tm => Dict.getItem tm.columns s
      | [t, n] =>
        match origin t table with
        | .error e => .error e
        | .ok o =>
          match tableOfJson db o with
          | .error e => .error e
          | .ok tm => Dict.getItem tm.columns n
      | _ => .error .valueError
    | .int _ => .error .typeError
    | .float _ => .error .typeError
    | .null => .error .typeError
    | v =>
      match tableOfJson db table with
      | .error e => .error e
      | .ok tm => colOfJson tm.columns v
  match col with
  | .error e => .error e
  | .ok cm =>
    match cm.homKey with
    | none => .error .keyError
    | some k => .ok k

/-- The end of an addition, sql_select.py 110-132. -/
def addEnd (db : Db) (table : Json) (v0 v1 : Json) (s : Sel) (acc : Dict String Json) : Except PyErr (Dict String Json × Sel) :=
  match s.state.reverse, s.types.reverse with
  | c :: st, _ :: ty =>
    match st with
    | a :: b :: _ =>
      if a = b ∧ (c = "plaintext" ∨ c = "arithmetic") then
        let s' : Sel := ⟨s.columns, ty.reverse, st.reverse⟩
        if c = "plaintext" then .ok (Dict.set acc "add" (.list [v0, v1]), s')
        else
          match addKey db table v0 with
          | .error e => .error e
          | .ok p0 =>
            match addKey db table v1 with
            | .error e => .error e
            | .ok p1 =>
              if p0 = p1 then
                .ok (Dict.set acc "mod" (.list [.dict [("mul", .list [v0, v1])], .int (((p1.1 * p1.1) ^ 2 : Nat) : Int)]), s')
              else .error .assertion
      else .error .assertion
    | _ => .error .indexError
  | _, _ => .error .indexError

/-- `select_val == {'count': '*'}`, sql_select.py 53. -/
def isCountStar : List (String × Json) → Bool
  | [(k, .str x)] => k = "count" && x = "*"
  | _ => false

mutual
/-- `SQLSelect.rewrite`, sql_select.py 14-135. -/
def selRw (db : Db) (table : Json) (cipher : String) (s : Sel) : Json → Except PyErr (Json × Sel)
  | .str v => if v = "*" then selStar db table cipher s else selStr db table cipher s v
  | .list l =>
    match selList db table s l with
    | .error e => .error e
    | .ok (js, s') => .ok (.list js, s')
  | .dict d =>
    if isCountStar d then .ok (.dict d, s.push "count" "int" "plaintext")
    else
      match selDict db table s d [] with
      | .error e => .error e
      | .ok (d', s') => .ok (.dict d', s')
  | _ => .ok (.null, s)

/-- `[self.rewrite(v['value'], table) for v in select_val]`, sql_select.py 58-59. -/
def selList (db : Db) (table : Json) (s : Sel) : List Json → Except PyErr (List Json × Sel)
  | [] => .ok ([], s)
  | j :: r =>
    match selItem db table s j with
    | .error e => .error e
    | .ok (j', s') =>
      match selList db table s' r with
      | .error e => .error e
      | .ok (r', s'') => .ok (j' :: r', s'')

/-- One element of the list. -/
def selItem (db : Db) (table : Json) (s : Sel) : Json → Except PyErr (Json × Sel)
  | .dict d => selValueOf db table s d
  | _ => .error .typeError

/-- `self.rewrite(d['value'], table)`. -/
def selValueOf (db : Db) (table : Json) (s : Sel) : List (String × Json) → Except PyErr (Json × Sel)
  | [] => .error .keyError
  | (k, v) :: r => if k = "value" then selRw db table "symmetric" s v else selValueOf db table s r

/-- The loop over a dict, sql_select.py 104-135. -/
def selDict (db : Db) (table : Json) (s : Sel) : List (String × Json) → Dict String Json → Except PyErr (Dict String Json × Sel)
  | [], acc => .ok (acc, s)
  | (k, v) :: r, acc =>
    if k = "add" then
      match v with
      | .list (a :: b :: _) =>
        match selRw db table "symmetric" s a with
        | .error e => .error e
        | .ok (v0, s1) =>
          match selRw db table "symmetric" s1 b with
          | .error e => .error e
          | .ok (v1, s2) =>
            match addEnd db table v0 v1 s2 acc with
            | .error e => .error e
            | .ok (acc', s3) => selDict db table s3 r acc'
      | _ => .error .typeError
    else
      match selRw db table ((funcCipher k).getD "symmetric") s v with
      | .error e => .error e
      | .ok (v', s') => selDict db table s' r (Dict.set acc k v')
end

/-! ### sql_from.py, function.py, sql_drop.py, anonymous_table.py -/

/-- The loop of `SQLFrom.join`, sql_from.py 47-52. -/
def joinItems (c : Crypto) (db : Db) : List (String × Json) → Dict String Json → Except PyErr (Dict String Json)
  | [], acc => .ok acc
  | (k, v) :: r, acc =>
    if k ∈ joinList then
      match tableOfJson db v with
      | .error e => .error e
      | .ok tm => joinItems c db r (Dict.set acc k (.str tm.anonymous))
    else if k = "on" then
      match whereRw c db (.list []) "symmetric" "" v with
      | .error e => .error e
      | .ok v' => joinItems c db r (Dict.set acc k v')
    else joinItems c db r acc

/-- One item of a FROM list, sql_from.py 16-20, 45-55. -/
def fromItem (c : Crypto) (db : Db) : Json → Except PyErr Json
  | .str t => (tableOf db t).map fun tm => .str tm.anonymous
  | .dict d => (joinItems c db d []).map .dict
  | _ => .error .generic

/-- The loop of sql_from.py 16-20. -/
def fromList (c : Crypto) (db : Db) : List Json → Except PyErr (List Json)
  | [] => .ok []
  | t :: r =>
    match fromItem c db t with
    | .error e => .error e
    | .ok t' =>
      match fromList c db r with
      | .error e => .error e
      | .ok r' => .ok (t' :: r')

/-- `SQLFrom.rewrite`, sql_from.py 13-43: for a dict the function falls off its end and returns None. -/
def fromRw (c : Crypto) (db : Db) (table : Json) : Except PyErr Json :=
  match table with
  | .list l => (fromList c db l).map .list
  | .str t => (tableOf db t).map fun tm => .str tm.anonymous
  | _ => .ok .null

/-- `OrderBy.rewrite`, function.py 8-13. -/
def orderRw (db : Db) (table : Json) (v : Json) : Except PyErr Json :=
  match tableOfJson db table with
  | .error e => .error e
  | .ok tm =>
    match pyItem "value" v with
    | .error e => .error e
    | .ok x =>
      match colOfJson tm.columns x with
      | .error e => .error e
      | .ok cm =>
        if cm.plaintext then .ok v
        else
          match Dict.getItem cm.encCols "order-preserving" with
          | .error e => .error e
          | .ok n => .ok (.dict [("value", .str n)])

/-- `SQLDrop.rewrite`, sql_drop.py 8-12. -/
def dropRw (db : Db) : List (String × Json) → Dict String Json → Except PyErr (Dict String Json)
  | [], acc => .ok acc
  | (k, v) :: r, acc =>
    match tableOfJson db v with
    | .error e => .error e
    | .ok tm => dropRw db r (Dict.set acc k (.str tm.anonymous))

/-- `AnonymousTable.rewrite`, anonymous_table.py 8-9: the value is ignored. -/
def anonRw (db : Db) (table : Json) : Except PyErr Json := (tableOfJson db table).map fun tm => .str tm.anonymous

/-! ### sql_columns.py, sql_values.py -/

/-- `for x in j`. -/
def pyIter : Json → Except PyErr (List Json)
  | .list l => .ok l
  | .str s => .ok (s.toList.map fun ch => .str (String.ofList [ch]))
  | .dict d => .ok (d.map fun e => .str e.1)
  | _ => .error .typeError

/-- The loop of `SQLColumns.rewrite`, sql_columns.py 11-16. -/
def columnsLoop (cols : Dict String ColMeta) : List Json → Except PyErr (List Json)
  | [] => .ok []
  | j :: r =>
    match colOfJson cols j with
    | .error e => .error e
    | .ok cm =>
      match columnsLoop cols r with
      | .error e => .error e
      | .ok r' => .ok ((if cm.plaintext then [j] else cm.encCols.map fun e => .str e.2) ++ r')

/-- `SQLColumns.rewrite`, sql_columns.py 8-17. -/
def columnsRw (db : Db) (table : Json) (columns : Json) : Except PyErr Json :=
  match tableOfJson db table with
  | .error e => .error e
  | .ok tm =>
    match pyIter columns with
    | .error e => .error e
    | .ok l => (columnsLoop tm.columns l).map .list

/-- `encode(value, type)`, encrypt.py 63-69 (a number of any Python type is a rational; `None * n` raises TypeError, and the repetition of
a string `10 ** 12` times is a MemoryError or fails in `int`). -/
def encodeJson (type : String) (v : Json) : Except PyErr Json :=
  if type = "float" then
    match v with
    | .int z => .ok (.int (Codec.encodeFloat z))
    | .float q => .ok (.int (Codec.encodeFloat q))
    | _ => .error .typeError
  else if type = "double" then
    match v with
    | .int z => (Codec.encodeDouble z).map .int
    | .float q => (Codec.encodeDouble q).map .int
    | _ => .error .typeError
  else .ok v

/-- `int(value)`.  (Python also allows surrounding blanks, underscores and a plus sign in the text.) -/
def pyInt : Json → Except PyErr Int
  | .int z => .ok z
  | .float q => .ok (Codec.trunc q)
  | .str s => Text.parseInt s.toList
  | _ => .error .typeError

/-- `str(value)` (of a number or a string; the text of a list or dict is not modelled). -/
def pyStr (c : Crypto) : Json → Except PyErr String
  | .int z => .ok (intText z)
  | .float q => .ok (c.floatRepr q)
  | .str s => .ok s
  | .null => .ok "None"
  | _ => .error .notImplemented

/-- `SQLValues.encrypt_value`, sql_values.py 20-33.  For "sm4" (and any other name) the function returns None. -/
def encryptValue (c : Crypto) (cm : ColMeta) (value : Json) (enc : String) : Except PyErr Json :=
  let v : Except PyErr Json := match value with | .dict d => Dict.getItem d "literal" | v => .ok v
  match v with
  | .error e => .error e
  | .ok v =>
    match encodeJson cm.type v with
    | .error e => .error e
    | .ok v =>
      if enc = "order-preserving" then
        match pyInt v with
        | .error e => .error e
        | .ok z => (c.opeEnc cm.key z).map fun z => .dict [("value", .int z)]
      else if enc = "symmetric" then
        match pyStr c v with
        | .error e => .error e
        | .ok t => (c.sym cm.key t).map fun t => .dict [("value", Json.lit t)]
      else if enc = "fuzzy" then
        match pyStr c v with
        | .error e => .error e
        | .ok t => (c.fuzzy cm.key t).map fun t => .dict [("value", Json.lit t)]
      else if enc = "arithmetic" then
        match cm.homKey with
        | none => .error .keyError
        | some k =>
          match pyInt v with
          | .error e => .error e
          | .ok z => .ok (.dict [("value", Json.lit (c.hom k z))])
      else .ok .null

/-- The loop over the ciphers of a column, sql_values.py 16-17. -/
def encryptAll (c : Crypto) (cm : ColMeta) (value : Json) : List String → Except PyErr (List Json)
  | [] => .ok []
  | enc :: r =>
    match encryptValue c cm value enc with
    | .error e => .error e
    | .ok x =>
      match encryptAll c cm value r with
      | .error e => .error e
      | .ok xs => .ok (x :: xs)

/-- The loop of `SQLValues.rewrite`, sql_values.py 12-17: `zip` stops at the shorter list. -/
def valuesLoop (c : Crypto) (cols : Dict String ColMeta) : List Json → List Json → Except PyErr (List Json)
  | j :: js, v :: vs =>
    match colOfJson cols j with
    | .error e => .error e
    | .ok cm =>
      let xs : Except PyErr (List Json) :=
        if cm.plaintext then .ok [v]
        else
          match pyItem "value" v with
          | .error e => if cm.encCols.isEmpty then .ok [] else .error e
          | .ok x => encryptAll c cm x (Dict.keys cm.encCols)
      match xs with
      | .error e => .error e
      | .ok xs =>
        match valuesLoop c cols js vs with
        | .error e => .error e
        | .ok r => .ok (xs ++ r)
  | _, _ => .ok []

/-- `SQLValues.rewrite`, sql_values.py 9-18; `columns` is `json['columns']` of the original statement. -/
def valuesRw (c : Crypto) (db : Db) (table : Json) (columns : Option Json) (values : Json) : Except PyErr Json :=
  match tableOfJson db table with
  | .error e => .error e
  | .ok tm =>
    match columns with
    | none => .error .keyError
    | some cols =>
      match pyIter cols with
      | .error e => .error e
      | .ok cs =>
        match pyIter values with
        | .error e => .error e
        | .ok vs => (valuesLoop c tm.columns cs vs).map .list

end EulerDB.Clause
