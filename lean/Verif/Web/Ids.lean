import Verif.Clause.Rewriter

/-!
# The two-step interface: encrypt SQL, then decrypt data

scheduler/backend/execution_context.py `encrypt_sql2` and `decrypt_data`, controller/rewriter.py `ControllerEncryptSql2` and `ControllerDecrypt`,
scheduler/handers/decrypt_handler.py `decrypt1`.
-/

namespace EulerDB.Web

open EulerDB EulerDB.Delta EulerDB.Clause

/-- What `id_sql_map` holds for an id, execution_context.py 57.  `db_meta` is a reference to the live dict `Delta().meta[db]` (all changes of the metadata are
made in place while it is non-empty, metadata.py 107-123), so it is known by the name of the database. -/
structure Entry where
  db : String
  table : Json
  sel : Sel

/-- The metadata of the process and `id_sql_map`.  An id is the decimal text of the current time in milliseconds (execution_context.py 55-56), represented by
that number. -/
structure Server where
  dbs : Dict String Db
  ids : Dict Nat Entry

/-- `Delta().meta.get(db, {})`, sql_clause.py 12-13. -/
def dbOf (s : Server) (db : String) : Db := (Dict.get? s.dbs db).getD []

/-- `encrypt_sql2` at time `ms` on a parsed statement, execution_context.py 48-58: the statement, the value of `table` and the id.  The rewriting works on
`dbOf`; `get_db_meta` (remote_executor.py 240-241) indexes the metadata, so an unknown database raises. -/
def encryptSql2 (c : Crypto) (fuel : Nat) (s : Server) (ms : Nat) (db : String) (json : Dict String Json) :
    Server × Except PyErr (Dict String Json × Json × Nat) :=
  match rewriteQuery c (dbOf s db) fuel json with
  | .error e => (s, .error e)
  | .ok (json', table, sel) =>
    match Dict.get? s.dbs db with
    | none => (s, .error .keyError)
    | some _ => ({ s with ids := Dict.set s.ids ms ⟨db, table, sel⟩ }, .ok (json', table, ms))

/-- The ciphers used for decrypting. -/
structure Decrypter where
  c : Crypto
  homDec : Nat × Nat → DbVal → Except PyErr DbVal
  ev : String → Option OutVal

/-- One row in `decrypt1`, decrypt_handler.py 46-59: as in `decrypt`, but line 48 joins a text and the value, which raises TypeError unless the
value is a text.  (The values of one row are checked and decrypted in turn; which exception comes first does not matter, all are answered alike.) -/
def decrypt1Row (d : Decrypter) (db : Db) (e : Entry) (row : List DbVal) : Except PyErr (List OutVal) :=
  if ((e.sel.columns.zip (e.sel.state.zip row)).all fun x => match x.2.2 with | .text _ => true | _ => false) then
    decryptRow d.c d.homDec d.ev db e.table e.sel.columns e.sel.state row
  else .error .typeError

/-- All rows. -/
def decrypt1Rows (d : Decrypter) (db : Db) (e : Entry) : List (List DbVal) → Except PyErr (List (List OutVal))
  | [] => .ok []
  | r :: rs =>
    match decrypt1Row d db e r with
    | .error x => .error x
    | .ok o =>
      match decrypt1Rows d db e rs with
      | .error x => .error x
      | .ok os => .ok (o :: os)

/-- The answer to a decryption: the columns and the rows, or nothing (`{'result': ''}`) after any exception. -/
def reply (columns : List String) : Except PyErr (List (List OutVal)) → Option (List String × List (List OutVal))
  | .error _ => none
  | .ok os => some (columns, os)

/-- `ControllerDecrypt.do_convert`, controller/rewriter.py 109-117 (an unknown id raises KeyError). -/
def decryptData (d : Decrypter) (s : Server) (id : Nat) (rows : List (List DbVal)) : Option (List String × List (List OutVal)) :=
  match Dict.get? s.ids id with
  | none => none
  | some e => reply e.sel.columns (decrypt1Rows d (dbOf s e.db) e rows)

/-- What happens between the two steps: other requests of the same kind, and changes of the metadata. -/
inductive Ev where
  | encrypt (ms : Nat) (db : String) (json : Dict String Json)
  | create (db t : String) (tm : TableMeta ColMeta)
  | drop (db t : String)

/-- One event. -/
def Server.step (c : Crypto) (fuel : Nat) (s : Server) : Ev → Server
  | .encrypt ms db json => (encryptSql2 c fuel s ms db json).1
  | .create db t tm => { s with dbs := Dict.set s.dbs db (Dict.set (dbOf s db) t tm) }
  | .drop db t => match Dict.get? s.dbs db with | none => s | some d => { s with dbs := Dict.set s.dbs db (Dict.erase d t) }

/-- A history. -/
def Server.run (c : Crypto) (fuel : Nat) (s : Server) (h : List Ev) : Server := h.foldl (Server.step c fuel) s

end EulerDB.Web
