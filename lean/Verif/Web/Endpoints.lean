import Verif.Clause.Rewriter
import Verif.Table.Model

/-!
# The endpoints (handler.py, controller/rewriter.py, service.py)

What a request is turned into before anything is rewritten, and what is answered when the rewriting raises.  HTTP, the JSON of requests and answers and the
thread pool are left out: a request is the value its handler works on.
-/

namespace EulerDB.Web

open EulerDB EulerDB.Delta EulerDB.Clause

/-- The SQL parser and formatter, and what CREATE TABLE makes of a parsed statement and the options of its encrypted columns (`rewrite_table`). -/
structure Sql where
  parse : List Char → Except PyErr (Dict String Json)
  fmt : Dict String Json → List Char
  create : Dict String Table.EncOpt → Dict String Json → Except PyErr (List Char × Json)

/-- `Rewriter.rewrite_query` on a text, rewrite_hander.py 19-77: with options (even `{}`) the statement goes to `rewrite_table`, which raises unless it is
CREATE TABLE (table.py 13-15).  (The ALTER statements, which have a parser and a formatter of their own, are left out.) -/
def rewriteText (q : Sql) (c : Crypto) (db : Db) (fuel : Nat) (opts : Option (Dict String Table.EncOpt)) (text : List Char) : Except PyErr (List Char × Json) :=
  match opts with
  | some o =>
    match q.parse text with
    | .error e => .error e
    | .ok json =>
      match Dict.get? json "create table" with
      | none => .error .generic
      | some _ => q.create o json
  | none =>
    match q.parse text with
    | .error e => .error e
    | .ok json =>
      match rewriteQuery c db fuel json with
      | .error e => .error e
      | .ok (json', table, _) => .ok (q.fmt json', table)

/-! ### The encrypt-SQL endpoints -/

/-- The answer `{'encrypt_sql': ..., 'table': ...}`. -/
structure Answer where
  sql : List Char
  table : Json

/-- The statement that is passed through, controller/rewriter.py 72, 91. -/
def versionQuery : List Char := "select @@version_comment limit 1".toList

/-- `ControllerEncryptSql1.do_convert`, controller/rewriter.py 71-82, and, but for the id, `ControllerEncryptSql2.do_convert`, 90-101.  (`result` is a pair and
therefore true.)  `rw` is the rewriting. -/
def encryptSql1 (rw : List Char → Except PyErr (List Char × Json)) (sql : List Char) : Answer :=
  if sql = versionQuery then ⟨versionQuery, .str ""⟩
  else
    match rw sql with
    | .error _ => ⟨sql, .str ""⟩
    | .ok (s, t) => ⟨s, t⟩

/-- `ControllerEncryptSql.do_convert`, controller/rewriter.py 58-63: the exception is passed on, and the handler answers with an error. -/
def encryptSql0 (rw : List Char → Except PyErr (List Char × Json)) (sql : List Char) : Except PyErr Answer :=
  match rw sql with
  | .error e => .error e
  | .ok (s, _) => .ok ⟨s, .str ""⟩

/-! ### /query and /jdbc_query -/

/-- `while query[-1] == ";": query = query[:-1]`, handler.py 221-222, 332-333, on the reversed text: IndexError when nothing is left. -/
def stripRev : List Char → Except PyErr (List Char)
  | [] => .error .indexError
  | c :: r => if c = ';' then stripRev r else .ok (c :: r)

/-- The query without its trailing semicolons. -/
def stripSemi (q : List Char) : Except PyErr (List Char) := (stripRev q.reverse).map List.reverse

/-- `PostHandler` and `ControllerDatabase.do_query`, controller/rewriter.py 16-23, up to the rewriting: options are passed on if the request has them. -/
def postQuery (q : Sql) (c : Crypto) (db : Db) (fuel : Nat) (opts : Option (Dict String Table.EncOpt)) (text : List Char) : Except PyErr (List Char × Json) :=
  rewriteText q c db fuel opts text

/-- `QueryHandler._post` for a statement in `sqlQuery`, handler.py 211-254, up to the rewriting: `encrypted_columns` is `{}` and always passed on. -/
def jdbcQuery (q : Sql) (c : Crypto) (db : Db) (fuel : Nat) (text : List Char) : Except PyErr (List Char × Json) :=
  match stripSemi text with
  | .error e => .error e
  | .ok t => rewriteText q c db fuel (some []) t

/-! ### Endpoints that never answer -/

/-- Calling a Python method that takes `params` positional arguments at most and `required` at least with `given` arguments. -/
def pyCall {α : Type} (required params given : Nat) (body : Except PyErr α) : Except PyErr α :=
  if required ≤ given ∧ given ≤ params then body else .error .typeError

/-- `/rewrite_query`: `execution_context.rewrite` (72-73) calls `RemoteExecutor(None).dispatch(query, db, encrypted_cols)`; `dispatch` (remote_executor.py 178)
takes the query only. -/
def rewriteEndpoint (rw : List Char → Except PyErr (List Char × Json)) (query : List Char) : Except PyErr (List Char × Json) := pyCall 1 1 3 (rw query)

/-- `/jdbc_query/component`: the dict given to `ControllerDatabase` (handler.py 667-673) has these keys. -/
def componentKeys : List String := ["host", "db", "user", "password", "port"]

/-- `do_query` (controller/rewriter.py 16-23) and `do_create` (30-32) begin by reading `query`. -/
def componentEndpoint (run : Except PyErr Unit) : Except PyErr Unit := if "query" ∈ componentKeys then run else .error .keyError

/-- The characters of the class `[?P<component_id>\w]` in service.py 26, 28 (meant as a named group); `alnum` is `str.isalnum`, `\w` adds the underscore. -/
def routeChar (alnum : Char → Bool) (c : Char) : Bool := alnum c || c ∈ "?P<component_id>".toList

/-- The route `/jdbc_query/schema/?([?P<component_id>\w])?` (tornado anchors it at both ends), after the fixed part: an optional slash and at most one character,
which is the id. -/
def routeSchema (alnum : Char → Bool) (rest : List Char) : Option (Option Char) :=
  match rest with
  | [] => some none
  | ['/'] => some none
  | [c] => if routeChar alnum c then some (some c) else none
  | ['/', c] => if routeChar alnum c then some (some c) else none
  | _ => none

/-! ### The address of a data source -/

/-- The slices and splits of handler.py 234-238 on the connection URL: host, port and database, or the exception; `none` if the URL is no MySQL URL. -/
def jdbcParts (url : List Char) : Except PyErr (Option (List Char × Nat × List Char)) :=
  if url.take 13 = "jdbc:mysql://".toList then
    let parts := Text.split '/' (url.drop 13)
    match parts with
    | [] => .error .indexError
    | hp :: rest =>
      match Text.split ':' hp with
      | h :: p :: _ =>
        match rest with
        | [] => .error .indexError
        | d :: _ => (Text.parseNat p).map fun n => some (h, n, d)
      | _ => .error .indexError
  else .ok none

end EulerDB.Web
