import Verif.Dict
import Verif.Py

/-!
# Key rotation (scheduler/utils/key_rotation_support.py)

Simplifications: the text of a column's metadata is already read (`json.loads`, 64 and 95, none if that raises) and the values in it are texts; the table whose
column is rotated is a value of some type `τ`, the server a function from a statement and a table to a table or an error; `durable` says whether a change
outlives its connection without a commit (false for transactional tables under mysql.connector's default, autocommit off). Each function opens its own
connection and drops it, so that a change that is neither durable nor committed is undone when the function ends. Connections are always made; an interruption
is a point between two statements. A run is the list of the states of the two databases that an interruption could leave, in order, and its outcome.
-/

namespace EulerDB.Rotation

open EulerDB

abbrev Name := List Char

/-- A value in the metadata of a column; `other` is an object that is not a text, such as a cipher. -/
inductive Value where
  | text (s : Name)
  | other
  deriving DecidableEq, Repr

/-- The metadata of a column. -/
abbrev Column := Dict Name Value

/-- A value of `meta[db][table]`: the name of the table on the server, or its columns. -/
inductive Entry where
  | text (s : Name)
  | cols (d : Dict Name Column)

/-- A row of `p_db_meta`: its columns 0, 2, 3 and 4. -/
structure MetaRow where
  db : Name
  table : Name
  anon : Name
  cols : Option (Dict Name Column)

abbrev Meta := Dict Name (Dict Name (Dict Name Entry))

def anonymous : Name := ['a', 'n', 'o', 'n', 'y', 'm', 'o', 'u', 's']

def columns : Name := ['c', 'o', 'l', 'u', 'm', 'n', 's']

def keyName : Name := ['k', 'e', 'y']

/-- `dict.update`. -/
def update {α : Type} (d e : Dict Name α) : Dict Name α := e.foldl (fun d p => Dict.set d p.1 p.2) d

/-- `if k not in d.keys(): d[k] = v`. -/
def setMissing {α : Type} (d : Dict Name α) (k : Name) (v : α) : Dict Name α := if (Dict.get? d k).isNone then Dict.set d k v else d

/-- What the loop does to the entry of a table, 60-64 and 91-95. -/
def loadTable (t : Dict Name Entry) (row : MetaRow) : Except PyErr (Dict Name Entry) :=
  match row.cols with
  | none => .error .valueError
  | some c =>
    match Dict.get? (setMissing (setMissing t anonymous (.text row.anon)) columns (.cols [])) columns with
    | some (.cols d) => .ok (Dict.set (setMissing (setMissing t anonymous (.text row.anon)) columns (.cols [])) columns (.cols (update d c)))
    | _ => .error .attributeError

/-- One turn of the loop, 54-64 and 85-95. -/
def loadRow (m : Meta) (row : MetaRow) : Except PyErr Meta :=
  match loadTable ((Dict.get? ((Dict.get? m row.db).getD []) row.table).getD []) row with
  | .error e => .error e
  | .ok t' => .ok (Dict.set m row.db (Dict.set ((Dict.get? m row.db).getD []) row.table t'))

def load : Meta → List MetaRow → Except PyErr Meta
  | m, [] => .ok m
  | m, r :: rs =>
    match loadRow m r with
    | .error e => .error e
    | .ok m' => load m' rs

/-- `meta[db][table]`. -/
def tableOf (m : Meta) (db table : Name) : Except PyErr (Dict Name Entry) :=
  match Dict.getItem m db with
  | .error e => .error e
  | .ok d => Dict.getItem d table

/-- `meta[db][table]['columns']`. -/
def columnsOf (t : Dict Name Entry) : Except PyErr (Dict Name Column) :=
  match Dict.getItem t columns with
  | .error e => .error e
  | .ok (.text _) => .error .typeError
  | .ok (.cols d) => .ok d

/-- `get_key_info`, 40-67: none is the empty dict of 52-53. The second part is the metadata of the column, which the caller takes for its name. The key must be a
text: `AESCipher.__init__` encodes it (encrypt.py 161-162). -/
def getKeyInfo (rows : List MetaRow) (db table feature : Name) : Except PyErr (Option (Name × Column × Entry)) :=
  match rows with
  | [] => .ok none
  | _ :: _ =>
    match load [] rows with
    | .error e => .error e
    | .ok m =>
      match tableOf m db table with
      | .error e => .error e
      | .ok t =>
        match columnsOf t with
        | .error e => .error e
        | .ok d =>
          match Dict.getItem d feature with
          | .error e => .error e
          | .ok c =>
            match Dict.getItem c keyName with
            | .error e => .error e
            | .ok .other => .error .attributeError
            | .ok (.text k) =>
              match Dict.getItem t anonymous with
              | .error e => .error e
              | .ok a => .ok (some (k, c, a))

/-- The inner loop, 102-104: of each row that is to be inserted, the parts that differ; `dumps` is `json.dumps` of the pair of a name and a value. -/
def innerRows (dumps : Name → Value → Except PyErr Name) (tname : Name) (anon : Column) : List (Name × Value) → Except PyErr (List (Name × Column × Name))
  | [] => .ok []
  | (k, v) :: r =>
    match dumps k v with
    | .error e => .error e
    | .ok s =>
      match innerRows dumps tname anon r with
      | .error e => .error e
      | .ok l => .ok ((tname, anon, s) :: l)

/-- The loop of `update_proxy_db`, 98-104, over the items of `meta[db][table]`. -/
def metaRows (dumps : Name → Value → Except PyErr Name) : List (Name × Entry) → Except PyErr (List (Name × Column × Name))
  | [] => .ok []
  | (_, .text _) :: _ => .error .typeError                -- 101: t_value['anonymous'] where t_value is a text
  | (n, .cols d) :: r =>
    match Dict.getItem d anonymous with
    | .error e => .error e
    | .ok a =>
      match Dict.getItem d columns with
      | .error e => .error e
      | .ok c =>
        match innerRows dumps n a c with
        | .error e => .error e
        | .ok l =>
          match metaRows dumps r with
          | .error e => .error e
          | .ok l' => .ok (l ++ l')

/-- `update_proxy_db`, 71-106: the rows that are inserted and committed. -/
def updateProxy (dumps : Name → Value → Except PyErr Name) (rows : List MetaRow) (db table feature : Name) (newKey : Value) :
    Except PyErr (List (Name × Column × Name)) :=
  match rows with
  | [] => .ok []
  | _ :: _ =>
    match load [] rows with
    | .error e => .error e
    | .ok m =>
      match tableOf m db table with
      | .error e => .error e
      | .ok t =>
        match columnsOf t with
        | .error e => .error e
        | .ok d =>
          match Dict.getItem d feature with
          | .error e => .error e
          | .ok c => metaRows dumps (Dict.set t columns (.cols (Dict.set d feature (Dict.set c keyName newKey))))

/-! ### The run -/

/-- The two databases: the table whose column is rotated, the metadata, and the rows that rotation has added to the metadata. -/
structure World (τ : Type) where
  table : τ
  metaRows : List MetaRow
  added : List (Name × Column × Name)

/-- What the code depends on. -/
structure Env (τ : Type) where
  /-- The server runs a statement on the table. -/
  exec : List Char → τ → Except PyErr τ
  durable : Bool
  /-- `str` of a dict and of the name of a table, in a statement. -/
  showCol : Column → List Char
  showTable : Entry → List Char
  dumps : Name → Value → Except PyErr Name
  /-- `AESCipher(key).decrypt`. -/
  dec : Name → Name → Except PyErr Name
  /-- `multiprocessing` can send a local function to its workers (it cannot; decrypt_support.py 18-26, 103-105). -/
  sendable : Bool
  /-- `pd.read_csv(csv_path, header=0).values`, 37; none without a path. -/
  raw : Except PyErr (Option (List Name))
  /-- `new_aes_key.encrypt`, none if it has no such attribute, and the key as a value. -/
  newEnc : Option (Name → Except PyErr Name)
  newKey : Value

variable {τ : Type}

/-- The statement of `drop_data`, 30: the literal ends at the second quote and the next one is appended to it. -/
def dropSql (table feature : List Char) : List Char :=
  "UPDATE ".toList ++ table ++ " SET ".toList ++ feature ++ " = ".toList ++ ";".toList

/-- The statement of `upload_encrypted_data`, 120. -/
def insertSql (table feature cipher : List Char) : List Char :=
  "insert into ".toList ++ table ++ "(".toList ++ feature ++ ") values(".toList ++ cipher ++ ")".toList

def mapE {α β : Type} (f : α → Except PyErr β) : List α → Except PyErr (List β)
  | [] => .ok []
  | a :: r =>
    match f a with
    | .error e => .error e
    | .ok b =>
      match mapE f r with
      | .error e => .error e
      | .ok l => .ok (b :: l)

/-- `decrypt_data`, 131-133, with `pool_decrypt` and `pool_run`, decrypt_support.py 17-26 and 101-105. -/
def decryptData (e : Env τ) (key : Name) : Option (List Name) → Except PyErr (List Name)
  | none => .error .typeError
  | some l => if e.sendable || l.isEmpty then mapE (e.dec key) l else .error .attributeError

/-- `encrypt_data`, 124-128. -/
def encryptData (e : Env τ) (l : List Name) : Except PyErr (List Name) :=
  mapE (fun x => match e.newEnc with
    | none => .error .attributeError
    | some f => f x) l

/-- The states that `upload_encrypted_data`, 110-121, goes through on its connection, and how it ends. -/
def upload (e : Env τ) (table feature : List Char) : List Name → τ → List τ × Except PyErr Unit
  | [], _ => ([], .ok ())
  | c :: r, t =>
    match e.exec (insertSql table feature c) t with
    | .error er => ([], .error er)
    | .ok t' => (t' :: (upload e table feature r t').1, (upload e table feature r t').2)

/-- The state an interruption leaves: the table as it was before the connection, unless changes are durable. -/
def leave (e : Env τ) (w : World τ) (t : τ) : World τ := { w with table := if e.durable then t else w.table }

/-- The last step, 18. -/
def finish (e : Env τ) (w : World τ) (db table feature : Name) : List (World τ) × Except PyErr Unit :=
  match updateProxy e.dumps w.metaRows db table feature e.newKey with
  | .error er => ([w], .error er)
  | .ok rows => ([w, { w with added := w.added ++ rows }], .ok ())

/-- Steps 17 and 18, from the states `w` and `w1` and given what the upload does. -/
def uploadAndFinish (e : Env τ) (w w1 : World τ) (u : List τ × Except PyErr Unit) (db table feature : Name) : List (World τ) × Except PyErr Unit :=
  match u.2 with
  | .error er => (w :: w1 :: u.1.map (leave e w1), .error er)
  | .ok () =>
    (w :: w1 :: u.1.map (leave e w1) ++ (finish e ((u.1.map (leave e w1)).getLastD w1) db table feature).1,
      (finish e ((u.1.map (leave e w1)).getLastD w1) db table feature).2)

/-- `rotate_key`, 11-18: the states that an interruption may leave, and how the run ends. -/
def rotate (e : Env τ) (w : World τ) (db table feature : Name) : List (World τ) × Except PyErr Unit :=
  match e.raw with
  | .error er => ([w], .error er)
  | .ok cipher =>
    match getKeyInfo w.metaRows db table feature with
    | .error er => ([w], .error er)
    | .ok none => ([w], .error .valueError)               -- 13: three names for an empty dict
    | .ok (some (key, col, anon)) =>
      match e.exec (dropSql (e.showTable anon) (e.showCol col)) w.table with
      | .error er => ([w], .error er)
      | .ok t1 =>
        match decryptData e key cipher with
        | .error er => ([w, leave e w t1], .error er)
        | .ok raw =>
          match encryptData e raw with
          | .error er => ([w, leave e w t1], .error er)
          | .ok enc =>
            uploadAndFinish e w (leave e w t1) (upload e (e.showTable anon) (e.showCol col) enc (leave e w t1).table) db table feature

end EulerDB.Rotation
