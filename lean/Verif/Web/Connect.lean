import Verif.Dict
import Verif.Text

/-!
# The table of connection pools (scheduler/backend/executors/remote_executor.py, `connect_db`)
-/

namespace EulerDB.Web

open EulerDB EulerDB.Text

/-- A Python string. -/
abbrev Str := List Char

/-- `conn_info`: what a request says about the backend. -/
structure Conn where
  host : Str
  port : Nat
  db : Str
  user : Str
  password : Str
  deriving DecidableEq, Repr

/-- `db_key`, remote_executor.py 49. -/
def dbKey (c : Conn) : Str := c.host ++ natStr c.port ++ c.db ++ c.user

/-- `connection_pool`, remote_executor.py 25: a pool is known by the `conn_info` it was opened with. -/
abbrev Pools := Dict Str Conn

/-- `connect_db`, remote_executor.py 45-58: the pools afterwards and the pool that serves the request.  (That opening a pool raises if the
backend refuses the credentials is left out: such a request leaves the table alone and is not served.) -/
def connect (p : Pools) (c : Conn) : Pools × Conn :=
  match Dict.get? p (dbKey c) with
  | none => (Dict.set p (dbKey c) c, c)
  | some o => (p, o)

/-- The table of pools after a history of requests. -/
def pools (h : List Conn) : Pools := h.foldl (fun p c => (connect p c).1) []

/-- The pool that serves a request after a history: the `conn_info` it was opened with. -/
def served (h : List Conn) (c : Conn) : Conn := (connect (pools h) c).2

end EulerDB.Web
