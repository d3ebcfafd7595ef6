import Verif.Py
import Mathlib.Data.List.Sort

/-!
# The connection pool (dbutils/pooled_db.py)

Every method of `PooledDB` works under one lock, so a run of the pool is a sequence of whole methods (`Op`); a call that waits
leaves the lock and is tried again later.  `closeH` of a handle is `close()` of the proxy classes; it is not atomic in the code
(see `C38_fails_concurrent_close`).

Connections (objects `SteadyDBConnection`) are numbered in the order of their creation; `tx c` is the attribute `_transaction`.
Whether the driver can open a connection is a parameter of the operation.  `_ping_check` may replace the driver's
connection inside a `SteadyDBConnection`, but only outside a transaction, and changes nothing else (steady_db.py 297-331); it is omitted.
-/

namespace EulerDB.Pool

open EulerDB

/-- The settings, after normalisation. -/
structure Cfg where
  maxcached : Nat
  maxshared : Nat
  maxconn : Nat
  blocking : Bool
  reset : Bool
  deriving DecidableEq, Repr

/-- `PooledDB.__init__`, pooled_db.py 242-268 (None is 0). -/
def mkCfg (threadsafety mincached maxcached maxshared maxconn : Nat) (blocking reset : Bool) : Except PyErr Cfg :=
  if threadsafety = 0 then .error .notSupported
  else
    let maxcached := if maxcached ≠ 0 then max maxcached mincached else 0
    let ms := if threadsafety > 1 ∧ maxshared ≠ 0 then maxshared else 0
    let mc := if maxconn ≠ 0 then max (max maxconn maxcached) maxshared else 0
    .ok ⟨maxcached, ms, mc, blocking, reset⟩

/-- `SharedDBConnection`, pooled_db.py 445-487: the connection and the share count. -/
structure Shared where
  con : Nat
  shared : Int
  deriving DecidableEq, Repr

/-- The pool with the handles the program holds.  `ded` and `shh` list the live handles: a number of the handle and the connection.
`orphans` are shared connections still held by handles but no longer in `_shared_cache`, because the pool was closed. -/
structure St where
  idle : List Nat := []
  cache : List Shared := []
  orphans : List Shared := []
  connections : Int := 0
  ded : List (Nat × Nat) := []
  shh : List (Nat × Nat) := []
  next : Nat := 0
  nextH : Nat := 0
  tx : Nat → Bool := fun _ => false

/-- The answer to a call. -/
inductive Res where
  | done
  | handle (h con : Nat)
  /-- The caller waits for a notification. -/
  | wait
  /-- The caller waits for the least shared connection to leave its transaction (pooled_db.py 306-311). -/
  | waitTx
  | raised (e : PyErr)
  deriving DecidableEq, Repr

/-- `_wait_lock`, pooled_db.py 389-393. -/
def waitLock (p : Cfg) : Res := if p.blocking then .wait else .raised .tooMany

/-- `con = self._idle_cache.pop(0)`, else a fresh connection, pooled_db.py 295-300 and 324-329.  `create` says whether the driver opens one. -/
def take (create : Bool) (s : St) : Option (Nat × St) :=
  match s.idle with
  | c :: r => some (c, { s with idle := r })
  | [] => if create then some (s.next, { s with next := s.next + 1 }) else none

/-- `SharedDBConnection.__le__`, pooled_db.py 461-464. -/
def sharedLe (tx : Nat → Bool) (a b : Shared) : Bool :=
  if tx a.con = tx b.con then decide (a.shared ≤ b.shared) else !tx a.con

/-- `self._shared_cache.sort()`: stable, by `__lt__`; `a` stays before `b` unless `b < a`, that is if `a <= b`. -/
def sortShared (tx : Nat → Bool) (l : List Shared) : List Shared := l.insertionSort fun a b => sharedLe tx a b = true

/-- The choice of a shared connection, pooled_db.py 304-316 (after a wait, 310-316): the least shared connection, unless it is in a
transaction.  On an empty cache `pop(0)` raises IndexError. -/
def shareLeast (p : Cfg) (s : St) : St × Res :=
  match sortShared s.tx s.cache with
  | [] => (s, .raised .indexError)
  | o :: r =>
    if s.tx o.con then ({ s with cache := o :: r }, if p.blocking then .waitTx else .raised .tooMany)
    else ({ s with cache := r ++ [⟨o.con, o.shared + 1⟩], shh := (s.nextH, o.con) :: s.shh, nextH := s.nextH + 1 }, .handle s.nextH o.con)

/-- `connection(shareable)`, pooled_db.py 282-332. -/
def openCon (p : Cfg) (shareable create : Bool) (s : St) : St × Res :=
  if shareable = true ∧ p.maxshared ≠ 0 then
    if s.cache = [] ∧ p.maxconn ≠ 0 ∧ s.connections ≥ p.maxconn then (s, waitLock p)
    else if s.cache.length < p.maxshared then
      match take create s with
      | none => (s, .raised .dbError)
      | some (c, s') =>
        ({ s' with connections := s'.connections + 1, cache := s'.cache ++ [⟨c, 1⟩], shh := (s'.nextH, c) :: s'.shh, nextH := s'.nextH + 1 },
          .handle s'.nextH c)
    else shareLeast p s
  else
    if p.maxconn ≠ 0 ∧ s.connections ≥ p.maxconn then (s, waitLock p)
    else
      match take create s with
      | none => (s, .raised .dbError)
      | some (c, s') =>
        ({ s' with connections := s'.connections + 1, ded := (s'.nextH, c) :: s'.ded, nextH := s'.nextH + 1 }, .handle s'.nextH c)

def setTx (tx : Nat → Bool) (c : Nat) (b : Bool) : Nat → Bool := fun x => if x = c then b else tx x

/-- `SteadyDBConnection._reset(force)`, steady_db.py 286-295, and `rollback`, 438-440: `_transaction` becomes False, whether or not the
driver's rollback succeeds. -/
def resetTx (force : Bool) (tx : Nat → Bool) (c : Nat) : Nat → Bool := if force || tx c then setTx tx c false else tx

/-- `cache(con)`, pooled_db.py 351-361. -/
def cacheCon (p : Cfg) (c : Nat) (s : St) : St :=
  if p.maxcached = 0 ∨ s.idle.length < p.maxcached then
    { s with tx := resetTx p.reset s.tx c, idle := s.idle ++ [c], connections := s.connections - 1 }
  else { s with tx := setTx s.tx c false, connections := s.connections - 1 }

/-- `SharedDBConnection.__eq__`, pooled_db.py 466-468, or the same object (as `list.remove` compares). -/
def sameShared (tx : Nat → Bool) (a b : Shared) : Bool := a.con = b.con || (tx a.con == tx b.con && a.shared == b.shared)

/-- Decrease the count of the shared connection of `c`. -/
def decShare (c : Nat) (l : List Shared) : List Shared := l.map fun o => if o.con = c then ⟨o.con, o.shared - 1⟩ else o

/-- `unshare(con)`, pooled_db.py 338-349: `_shared_cache.remove` takes the first entry that is equal in the sense of `__eq__`. -/
def unshare (p : Cfg) (c : Nat) (s : St) : St :=
  let cache := decShare c s.cache
  let orphans := decShare c s.orphans
  let s' := { s with cache := cache, orphans := orphans }
  match (cache ++ orphans).find? fun o => o.con = c with
  | none => s'
  | some o =>
    if o.shared = 0 then
      cacheCon p c { s' with cache := cache.eraseP fun e => sameShared s.tx e o, orphans := orphans.eraseP fun e => e.con = c }
    else s'

/-- `close()` of a handle, pooled_db.py 415-421 and 507-513. -/
def closeH (p : Cfg) (h : Nat) (s : St) : St :=
  match s.ded.find? fun e => e.1 = h with
  | some (_, c) => cacheCon p c { s with ded := s.ded.eraseP fun e => e.1 = h }
  | none =>
    match s.shh.find? fun e => e.1 = h with
    | some (_, c) => unshare p c { s with shh := s.shh.eraseP fun e => e.1 = h }
    | none => s

/-- The transaction flags after closing the connections of a list. -/
def closeTx (tx : Nat → Bool) (l : List Nat) : Nat → Bool := fun x => if x ∈ l then false else tx x

/-- `PooledDB.close`, pooled_db.py 363-380. -/
def closePool (p : Cfg) (s : St) : St :=
  let s := { s with tx := closeTx s.tx s.idle, idle := [] }
  if p.maxshared ≠ 0 then
    { s with tx := closeTx s.tx (s.cache.map Shared.con), connections := s.connections - s.cache.length, orphans := s.orphans ++ s.cache, cache := [] }
  else s

/-- The connection of a live handle. -/
def conOf (s : St) (h : Nat) : Option Nat := ((s.ded ++ s.shh).find? fun e => e.1 = h).map Prod.snd

/-- What a program can do. -/
inductive Op where
  | open (shareable create : Bool)
  /-- A caller that waits for the end of a transaction is woken up. -/
  | wake
  | close (h : Nat)
  | closePool
  /-- `begin`, `commit` and `rollback` through a handle. -/
  | tx (h : Nat) (b : Bool)
  deriving DecidableEq, Repr

def step (p : Cfg) (s : St) : Op → St × Res
  | .open sh cr => openCon p sh cr s
  | .wake => shareLeast p s
  | .close h => (closeH p h s, .done)
  | .closePool => (closePool p s, .done)
  | .tx h b => (match conOf s h with | some c => { s with tx := setTx s.tx c b } | none => s, .done)

/-- Whether the call wakes a waiting caller: `_lock.notify()` in `connection` (shared, line 316), `cache` (361) and `close` (380).
`commit` and `rollback` do not, nor does `unshare` while other handles remain. -/
def notifies (p : Cfg) (s : St) : Op → Bool
  | .open sh cr => match openCon p sh cr s with
    | (_, .handle _ _) => sh && p.maxshared != 0
    | _ => false
  | .wake => match shareLeast p s with
    | (_, .handle _ _) => true
    | _ => false
  | .close h =>
    match s.ded.find? fun e => e.1 = h with
    | some _ => true
    | none => match s.shh.find? fun e => e.1 = h with
      | some (_, c) => match (decShare c (s.cache ++ s.orphans)).find? fun o => o.con = c with
        | some o => o.shared = 0
        | none => false
      | none => false
  | .closePool => true
  | .tx _ _ => false

/-- A run of the pool from its creation. -/
def run (p : Cfg) (ops : List Op) : St := ops.foldl (fun s op => (step p s op).1) {}

/-- The calls of `__init__`, pooled_db.py 271-274: open `n` connections and close them, the last first. -/
def initOps (n : Nat) : List Op := List.replicate n (.open false true) ++ (List.range n).reverse.map .close

end EulerDB.Pool
