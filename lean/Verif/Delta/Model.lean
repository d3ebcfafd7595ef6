import Verif.Dict

/-!
# The proxy's metadata (scheduler/schema/metadata.py, class Delta)

The metadata lives three times: in the class attribute `Delta.meta`, possibly in an instance attribute `self.meta` that hides it, and in the rows of
the table `p_db_meta` of the metadata database.  `Col` is the description of a column (the dict under a column name); the code stores it with
`json.dumps` and reads it with `json.loads`, taken to be inverse to each other.
-/

namespace EulerDB.Delta

open EulerDB

/-- A logical or backend name. -/
abbrev Name := String

/-- The value of `meta[db][table]`: rewrite_table, scheduler/handers/table.py 140-146. -/
structure TableMeta (Col : Type) where
  anonymous : Name
  columns : Dict Name Col
  comment : Option String
  deriving DecidableEq, Repr

/-- `meta[db]`. -/
abbrev DbMeta (Col : Type) := Dict Name (TableMeta Col)

/-- `Delta.meta`. -/
abbrev Meta (Col : Type) := Dict Name (DbMeta Col)

/-- A row of `p_db_meta`: metadata.py 142 (the constant columns 'mysql' and '' are left out). -/
structure Row (Col : Type) where
  db : Name
  table : Name
  anonymous : Name
  colName : Name
  col : Col
  deriving DecidableEq, Repr

/-- The state of the metadata: class attribute, instance attribute if set, stored rows. -/
structure State (Col : Type) where
  cls : Meta Col
  inst : Option (Meta Col)
  rows : List (Row Col)
  deriving DecidableEq, Repr

variable {Col : Type}

/-- `Delta().meta` / `self.meta`: the instance attribute hides the class attribute. -/
def State.meta (s : State Col) : Meta Col := s.inst.getD s.cls

/-- In-place change of the dict object that `self.meta` refers to. -/
def State.mutate (s : State Col) (f : Meta Col → Meta Col) : State Col :=
  match s.inst with
  | some m => { s with inst := some (f m) }
  | none => { s with cls := f s.cls }

/-- The rows `update_db_meta` inserts for one table, metadata.py 137-142. -/
def rowsOf (db t : Name) (tm : TableMeta Col) : List (Row Col) :=
  tm.columns.map fun e => ⟨db, t, tm.anonymous, e.1, e.2⟩

/-- The memory half of `Delta.update_delta(db, {t: tm})`, metadata.py 107-117. -/
def updateMem (s : State Col) (db t : Name) (tm : TableMeta Col) : State Col :=
  if s.meta ≠ [] then
    s.mutate fun m =>
      match Dict.get? m db with
      | none => Dict.set m db [(t, tm)]
      | some d => Dict.set m db (Dict.set d t tm)
  else { s with inst := some [(db, [(t, tm)])] }

/-- The stored half, `update_db_meta`, metadata.py 133-147. -/
def updateRows (s : State Col) (db t : Name) (tm : TableMeta Col) : State Col :=
  { s with rows := s.rows ++ rowsOf db t tm }

/-- `Delta.update_delta`, metadata.py 107-120. -/
def updateDelta (s : State Col) (db t : Name) (tm : TableMeta Col) : State Col := updateRows (updateMem s db t tm) db t tm

/-- The memory half of `Delta.delete_delta`, metadata.py 123: KeyError for an unknown database. -/
def deleteMem (s : State Col) (db t : Name) : Except PyErr (State Col) :=
  match Dict.get? s.meta db with
  | none => .error .keyError
  | some d => .ok (s.mutate fun m => Dict.set m db (Dict.erase d t))

/-- The stored half, metadata.py 124-131.  `same` is the comparison of the metadata database: equality for sqlite; MySQL's default
collations also identify names that differ in case.  (The names are pasted into the SQL text; a name with a quote character would end the
literal, which is not modelled.) -/
def deleteRows (same : Name → Name → Bool) (s : State Col) (db t : Name) : State Col :=
  { s with rows := s.rows.filter fun r => !(same r.db db && same r.table t) }

/-- `Delta.delete_delta`, metadata.py 122-131. -/
def deleteDelta (same : Name → Name → Bool) (s : State Col) (db t : Name) : Except PyErr (State Col) :=
  match deleteMem s db t with
  | .error e => .error e
  | .ok s' => .ok (deleteRows same s' db t)

/-- The body of the loop of `load_delta`, metadata.py 158-167.  Rows are read in insertion order. -/
def loadStep (m : Meta Col) (r : Row Col) : Meta Col :=
  let d := (Dict.get? m r.db).getD []
  let tm := (Dict.get? d r.table).getD ⟨r.anonymous, [], none⟩
  Dict.set m r.db (Dict.set d r.table { tm with columns := Dict.set tm.columns r.colName r.col })

/-- `Delta.load_delta`, metadata.py 149-168. -/
def load (rows : List (Row Col)) : Meta Col := rows.foldl loadStep []

/-- A restart: a new process loads the class attribute from the stored rows (`__new__`, metadata.py 100-105). -/
def restart (s : State Col) : State Col := ⟨load s.rows, none, s.rows⟩

/-- `meta[db][table]`, if present. -/
def find (m : Meta Col) (db t : Name) : Option (TableMeta Col) := (Dict.get? m db).bind fun d => Dict.get? d t

/-- Where the aggregate path looks: `cls.meta[db][table_name]`, `get_paillier_procedure_info`, metadata.py 220. -/
def aggregateFind (s : State Col) (db t : Name) : Option (TableMeta Col) := find s.cls db t

/-- The metadata operations of the proxy. -/
inductive Op (Col : Type) where
  | create (db t : Name) (tm : TableMeta Col)
  | drop (db t : Name)

/-- One operation; one that raises leaves the state alone (`delete_delta` raises before it changes anything). -/
def step (same : Name → Name → Bool) (s : State Col) : Op Col → State Col
  | .create db t tm => updateDelta s db t tm
  | .drop db t =>
    match deleteDelta same s db t with
    | .error _ => s
    | .ok s' => s'

/-- A history. -/
def run (same : Name → Name → Bool) (s : State Col) (h : List (Op Col)) : State Col := h.foldl (step same) s

end EulerDB.Delta
