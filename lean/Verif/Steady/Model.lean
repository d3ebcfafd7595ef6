import Verif.Py

/-!
# Reconnecting connections and cursors (dbutils/steady_db.py)

The driver is a parameter: each of its calls has an outcome given by an oracle.  The server is modelled by the statements that are
executed but not committed on the current physical connection (`pending`) and the committed ones.  Closing or losing a
physical connection drops its pending statements.

Simplifications: `ping` is 1, as in the pool of the application, so `_ping_check(2)` and `_ping_check(4)` do nothing;
input and output sizes are omitted; `closeable` is True.
-/

namespace EulerDB.Steady

open EulerDB

/-- The answer of the driver to one execution.  `inFailures`: the exception is in `con._failures`; `same`: it is an instance of the class of the
first error; `effect`: the statement was executed all the same; `lost`: the server rolled the open transaction back (connection lost, deadlock). -/
inductive Out where
  | ok
  | failed (inFailures same effect lost : Bool)
  deriving DecidableEq, Repr

/-- The answer to a request for a cursor. -/
inductive CurOut where
  | ok
  | failure
  | other
  deriving DecidableEq, Repr

/-- `SteadyDBConnection` with one `SteadyDBCursor` and the server.  Physical connections are numbered; `cur` is the one of the cursor. -/
structure St where
  phys : Nat := 0
  fresh : Nat := 1
  tx : Bool := false
  usage : Nat := 0
  cur : Nat := 0
  pending : List Nat := []
  committed : List Nat := []
  deriving DecidableEq, Repr

/-- The outcomes during one call of a tough method. -/
structure Oracle where
  a1 : Out
  cFirst : CurOut := .ok
  cCreate : Bool := true
  cCursor : Bool := true
  a2 : Out := .ok
  create : Bool := true
  cursor : Bool := true
  a3 : Out := .ok

/-- One execution: the pending statements of the connection it runs on. -/
def exec (o : Out) (stmt : Nat) (p : List Nat) : List Nat :=
  match o with
  | .ok => p ++ [stmt]
  | .failed _ _ effect lost => if lost then [] else if effect then p ++ [stmt] else p

/-- `_close` and `_store` of a new physical connection, steady_db.py 305-324, whose pending statements are `p`. -/
def store (p : List Nat) (s : St) : St :=
  { s with phys := s.fresh, fresh := s.fresh + 1, tx := false, usage := 0, pending := p }

/-- `_cursor`, steady_db.py 469-505: none means that an exception is raised. -/
def getCursor (maxusage : Nat) (o : Oracle) (s : St) : St × Option Nat :=
  let first := if maxusage ≠ 0 ∧ s.usage ≥ maxusage ∧ s.tx = false then .failure else o.cFirst
  match first with
  | .ok => (s, some s.phys)
  | .other => (s, none)
  | .failure =>
    if o.cCreate = true ∧ o.cCursor = true then
      if s.tx then (store [] s, none) else (store [] s, some (store [] s).phys)
    else ({ s with tx := false }, none)

/-- What the caller of a tough method sees. -/
inductive Res where
  | ok
  /-- The first error. -/
  | first
  /-- The error of the third execution. -/
  | third
  deriving DecidableEq, Repr

/-- One execution by the driver: where, and whether it succeeded. -/
structure Ev where
  phys : Nat
  ok : Bool
  deriving DecidableEq, Repr

/-- The second part of the handler, steady_db.py 635-684: reopen the connection. -/
def reopen (o : Oracle) (stmt : Nat) (transaction : Bool) (s : St) : St × Res × List Ev :=
  if o.create = true ∧ o.cursor = true then
    if transaction then ({ store [] s with cur := s.fresh }, .first, [])
    else
      match o.a3 with
      | .ok => ({ store [stmt] s with cur := s.fresh, usage := 1 }, .ok, [⟨s.fresh, true⟩])
      | .failed _ true _ _ => ({ s with fresh := s.fresh + 1 }, .first, [⟨s.fresh, false⟩])
      | .failed _ false _ _ => ({ store (exec o.a3 stmt []) s with cur := s.fresh, usage := 1 }, .third, [⟨s.fresh, false⟩])
  else (s, .first, [])

/-- Run an execution on physical connection `on`: only the current one has pending statements. -/
def execOn (on : Nat) (o : Out) (stmt : Nat) (s : St) : St := if on = s.phys then { s with pending := exec o stmt s.pending } else s

/-- The handler, steady_db.py 609-687. -/
def handle (maxusage : Nat) (o : Oracle) (stmt : Nat) (transaction : Bool) (s : St) : St × Res × List Ev :=
  if transaction then reopen o stmt true s
  else
    match getCursor maxusage o s with
    | (s', none) => reopen o stmt false s'
    | (s', some p) =>
      match o.a2 with
      | .ok => ({ execOn p .ok stmt s' with cur := p, usage := s'.usage + 1 }, .ok, [⟨p, true⟩])
      | .failed a b c d =>
        let r := reopen o stmt false (execOn p (.failed a b c d) stmt s')
        (r.1, r.2.1, ⟨p, false⟩ :: r.2.2)

/-- `tough_method` for `execute`, `executemany` and `callproc`, steady_db.py 592-691. -/
def tough (maxusage : Nat) (o : Oracle) (stmt : Nat) (s : St) : St × Res × List Ev :=
  if maxusage ≠ 0 ∧ s.usage ≥ maxusage ∧ s.tx = false then handle maxusage o stmt s.tx s
  else
    match o.a1 with
    | .ok => ({ execOn s.cur .ok stmt s with usage := s.usage + 1 }, .ok, [⟨s.cur, true⟩])
    | .failed false a b c => (execOn s.cur (.failed false a b c) stmt s, .first, [⟨s.cur, false⟩])
    | .failed true a b c =>
      let r := handle maxusage o stmt s.tx (execOn s.cur (.failed true a b c) stmt s)
      (r.1, r.2.1, ⟨s.cur, false⟩ :: r.2.2)

/-- `commit`, steady_db.py 422-435.  `ok`: the driver's commit succeeds; `done`: the server committed; `create`: a new connection can be opened. -/
def commit (ok done create : Bool) (s : St) : St × Bool :=
  let s := { s with tx := false }
  if ok then ({ s with committed := s.committed ++ s.pending, pending := [] }, true)
  else
    let s := if done then { s with committed := s.committed ++ s.pending, pending := [] } else s
    (if create then store [] s else s, false)

/-- `begin`, steady_db.py 405-420 (MySQL Connector has no `begin`). -/
def begin_ (s : St) : St := { s with tx := true }

/-- Executions one after the other, until one raises. -/
def runAll (maxusage : Nat) : List (Nat × Oracle) → St → St × Bool
  | [], s => (s, true)
  | (stmt, o) :: r, s => match tough maxusage o stmt s with
    | (s', .ok, _) => runAll maxusage r s'
    | (s', _, _) => (s', false)

end EulerDB.Steady
