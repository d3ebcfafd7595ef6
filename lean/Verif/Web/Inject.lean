import Verif.Clause.Rewriter

/-!
# Aggregates over encrypted columns and the shared record of the last rewritten statement

`RemoteExecutor.inject_procedure` (remote_executor.py 188-207) asks `Delta.get_paillier_procedure_info` (metadata.py 212-247), which does not look at
the query it is given but at the class attribute `Delta.table_json`, set by the last `rewrite_query` of any thread (rewrite_hander.py 74).
-/

namespace EulerDB.Web

open EulerDB EulerDB.Delta EulerDB.Clause

/-- `homo_enc_dict`, metadata.py 224-229: backend name of an arithmetic column to the square of its modulus. -/
def homDict : Dict String ColMeta → Dict String Nat → Except PyErr (Dict String Nat)
  | [], acc => .ok acc
  | (_, cm) :: r, acc =>
    match Dict.get? cm.encCols "arithmetic" with
    | none => homDict r acc
    | some b =>
      if b = "" then homDict r acc
      else
        match cm.homKey with
        | none => .error .keyError
        | some (p, q) => homDict r (Dict.set acc b ((p * q) ^ 2))

/-- The last part of a dotted name, `s.split('.')[-1]`. -/
def lastPart (s : String) : String := (splitDot s).getLastD ""

/-- The features of one function, metadata.py 233-236: `none` if `.split` raises AttributeError.  (A missing key gives the empty name, which
`homo_enc_dict` never contains.) -/
def feature (hom : Dict String Nat) (key : String) (d : Dict String Json) : Option (List (String × Nat)) :=
  match Dict.get? d key with
  | none => some []
  | some (.str s) => some (match Dict.get? hom (lastPart s) with | some n => [(s, n)] | none => [])
  | some _ => none

/-- The loop of metadata.py 230-238: the SUM and the AVG features. -/
def features (hom : Dict String Nat) : List Json → List (String × Nat) × List (String × Nat)
  | [] => ([], [])
  | v :: r =>
    let (s, a) := features hom r
    match v with
    | .dict d =>
      match feature hom "sum" d with
      | none => (s, a)
      | some s' => (s' ++ s, (feature hom "avg" d).getD [] ++ a)
    | _ => (s, a)

/-- The select items looked at, metadata.py 220-222: a list as it is, else the value of the only item. -/
def selectItems (json : Dict String Json) : Except PyErr (List Json) :=
  match Dict.get? json "select" with
  | none => .error .keyError
  | some (.list l) => .ok l
  | some j =>
    match pyItem "value" j with
    | .error e => .error e
    | .ok v => .ok [v]

/-- `s.replace(old, new)` for a non-empty `old`; the number counts the characters of the current occurrence still to skip. -/
def replaceGo (old new : List Char) : Nat → List Char → List Char
  | _, [] => []
  | k + 1, _ :: r => replaceGo old new k r
  | 0, c :: r => if old.isPrefixOf (c :: r) then new ++ replaceGo old new (old.length - 1) r else c :: replaceGo old new 0 r

/-- The text after the first "FROM ", metadata.py 243. -/
def afterFrom : List Char → Option (List Char)
  | [] => none
  | c :: r => if ['F', 'R', 'O', 'M', ' '].isPrefixOf (c :: r) then some (r.drop 4) else afterFrom r

/-- `feature_name.replace('.', '_')`. -/
def underscored (s : String) : List Char := s.toList.map fun c => if c = '.' then '_' else c

/-- `modify_sum_query` with a cursor, metadata.py 249-254. -/
def modifySum (q : List Char) (f : String) : List Char :=
  replaceGo ("SUM(".toList ++ f.toList ++ [')']) ("@sum".toList ++ underscored f) 0 q

/-- `modify_avg_query` with a cursor, metadata.py 256-263. -/
def modifyAvg (q : List Char) (f : String) : List Char :=
  replaceGo ("AVG(".toList ++ f.toList ++ [')']) ("concat(@sum".toList ++ underscored f ++ ", ',',@numTotalFeature)".toList) 0 q

/-- What a request sends: the session variables it sets first (feature, modulus and the text of the table expression) and the query. -/
structure Sent where
  setup : List (String × Nat)
  source : Option (List Char)
  text : List Char
  deriving DecidableEq, Repr

/-- `' SUM(' in q or ' AVG(' in q`. -/
def aggregate (q : List Char) : Bool := isSub [' ', 'S', 'U', 'M', '('] q || isSub [' ', 'A', 'V', 'G', '('] q

/-- `get_paillier_procedure_info` and the rest of `inject_procedure`.  `shared` is `Delta.table_json`; `parse` and `fmt` are the SQL parser and formatter;
`cls` is `Delta.meta[db]` (the class attribute). -/
def inject (fmt : Dict String Json → List Char) (parse : List Char → Except PyErr (Dict String Json)) (cls : Db) (shared : Option (Dict String Json))
    (table : Json) (enc : List Char) : Except PyErr Sent :=
  if aggregate enc then
    match (match shared with
      | some (e :: j) => .ok (e :: j)
      | _ => parse enc : Except PyErr (Dict String Json)) with
    | .error e => .error e
    | .ok json =>
      let json := Dict.erase json "limit"
      match selectItems json with
      | .error e => .error e
      | .ok items =>
        match tableOfJson cls table with
        | .error e => .error e
        | .ok tm =>
          match homDict tm.columns [] with
          | .error e => .error e
          | .ok hom =>
            let (s, a) := features hom items
            if s.isEmpty && a.isEmpty then .ok ⟨[], none, enc⟩
            else
              let q := fmt json
              match afterFrom q with
              | none => .error .attributeError
              | some src =>
                let q := s.foldl (fun q f => modifySum q f.1) q
                let q := a.foldl (fun q f => modifyAvg q f.1) q
                .ok ⟨s ++ a, some src, q ++ " limit 1".toList⟩
  else .ok ⟨[], none, enc⟩

/-! ### Threads -/

/-- What one rewriting yields: the rewritten statement and the value of `table`. -/
abbrev Rewritten := Except PyErr (Dict String Json × Json)

/-- The steps of the requests: `rewrite_query` (rewrite_hander.py, up to and including the assignment to `Delta.table_json`) and `inject_procedure`.  Each
is taken as one atomic step; the code takes no lock. -/
inductive Act where
  | rewrite (i : Nat)
  | inject (i : Nat)
  deriving DecidableEq, Repr

/-- The shared record, what each request has rewritten, and what it has sent. -/
structure Sys where
  shared : Option (Dict String Json) := none
  own : Nat → Option Rewritten := fun _ => none
  sent : Nat → Option (Except PyErr Sent) := fun _ => none

/-- The environment of a run: formatter, parser, metadata and the rewriting of each request's own query. -/
structure Env where
  fmt : Dict String Json → List Char
  parse : List Char → Except PyErr (Dict String Json)
  cls : Db
  rw : Nat → Rewritten

/-- One step.  A request whose rewriting raised goes no further; an `inject` before the `rewrite` of the same request does not happen. -/
def act (e : Env) (s : Sys) : Act → Sys
  | .rewrite i =>
    { s with
      own := fun j => if j = i then some (e.rw i) else s.own j
      shared := match e.rw i with | .ok (q, _) => some q | .error _ => s.shared }
  | .inject i =>
    match s.own i with
    | some (.ok (q, t)) => { s with sent := fun j => if j = i then some (inject e.fmt e.parse e.cls s.shared t (e.fmt q)) else s.sent j }
    | _ => s

/-- A schedule of steps of any number of requests. -/
def runActs (e : Env) (s : Sys) (l : List Act) : Sys := l.foldl (act e) s

/-- What request `i` sends when it runs alone. -/
def alone (e : Env) (i : Nat) : Option (Except PyErr Sent) := (runActs e {} [.rewrite i, .inject i]).sent i

end EulerDB.Web
