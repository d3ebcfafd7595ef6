import Verif.Delta.Lemmas

/-!
# Executing statements (scheduler/backend/executors/remote_executor.py, RemoteExecutor.call)

What matters here of a statement is its kind, its table and whether the backend accepts it.
-/

namespace EulerDB.Delta

open EulerDB

variable {Col : Type}

/-- The proxy's metadata and the tables that exist in the backend, as (database, backend table). -/
structure World (Col : Type) where
  st : State Col
  backend : List (Name × Name)

/-- A statement after parsing.  `tm` is the metadata `rewrite_table` builds, with its newly drawn backend name. -/
inductive Stmt (Col : Type) where
  | create (db t : Name) (tm : TableMeta Col)
  | drop (db t : Name)
  | select (db t : Name)
  | other (db t : Name)        -- INSERT, UPDATE, DELETE, ALTER

/-- `RemoteExecutor.call`, remote_executor.py 76-116.  `ok`: whether the backend accepts the statement (DROP TABLE of a missing table is never
accepted).  A CREATE writes the metadata while it is being rewritten (table.py 147), before the backend sees it.  A statement on an unknown table raises
KeyError while it is rewritten.  The exception of `cursor.execute` is caught and logged (103-108); for SELECT `fetchall` then raises. -/
def call (same : Name → Name → Bool) (ok : Bool) (w : World Col) : Stmt Col → World Col × Except PyErr Unit
  | .create db t tm =>
    let s := updateDelta w.st db t tm
    if ok then (⟨s, (db, tm.anonymous) :: w.backend⟩, .ok ())
    else
      match deleteDelta same s db t with
      | .error e => (⟨s, w.backend⟩, .error e)
      | .ok s' => (⟨s', w.backend⟩, .ok ())
  | .drop db t =>
    match find w.st.meta db t with
    | none => (w, .error .keyError)
    | some tm =>
      let b := if ok && w.backend.contains (db, tm.anonymous) then w.backend.filter fun e => decide (e ≠ (db, tm.anonymous)) else w.backend
      match deleteDelta same w.st db t with
      | .error e => (⟨w.st, b⟩, .error e)
      | .ok s' => (⟨s', b⟩, .ok ())
  | .select db t =>
    match find w.st.meta db t with
    | none => (w, .error .keyError)
    | some _ => if ok then (w, .ok ()) else (w, .error .dbError)
  | .other db t =>
    match find w.st.meta db t with
    | none => (w, .error .keyError)
    | some _ => (w, .ok ())

/-- The process dies and is started again. -/
def reboot (w : World Col) : World Col := ⟨restart w.st, w.backend⟩

/-- A history of complete statements (with the backend's verdict) and reboots. -/
inductive Event (Col : Type) where
  | stmt (ok : Bool) (q : Stmt Col)
  | reboot

/-- The effect of an event. -/
def event (same : Name → Name → Bool) (w : World Col) : Event Col → World Col
  | .stmt ok q => (call same ok w q).1
  | .reboot => reboot w

/-- The effect of a history. -/
def history (same : Name → Name → Bool) (w : World Col) (h : List (Event Col)) : World Col := h.foldl (event same) w

/-- Nothing stored, nothing in the backend. -/
def emptyWorld : World Col := ⟨⟨[], none, []⟩, []⟩

/-- A CREATE interrupted after the metadata was written and before the backend executed it (remote_executor.py between 87 and 104), then a reboot. -/
def crashInCreate (w : World Col) (db t : Name) (tm : TableMeta Col) : World Col := reboot ⟨updateDelta w.st db t tm, w.backend⟩

/-- A DROP interrupted after the backend executed it and before the metadata was changed (between 104 and 110), then a reboot. -/
def crashInDrop (w : World Col) (db : Name) (tm : TableMeta Col) : World Col :=
  reboot ⟨w.st, w.backend.filter fun e => decide (e ≠ (db, tm.anonymous))⟩

end EulerDB.Delta
