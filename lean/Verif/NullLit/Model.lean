/-
C90: sessions in which NULL is written: `SET n = NULL`, `n IS NULL` and `n IS NOT NULL`.

Code: NULL is parsed as `{"null": {}}`, `n IS NULL` as `{"missing": n}` and `n IS NOT NULL` as `{"exists": n}`
(/repo/sql_parsing/utils.py 158-187, /repo/sql_parsing/__init__.py 75-83); none of the three is a key that the rewriter of
conditions looks for, so that it returns them as they are (/repo/scheduler/handers/clause/sql_where.py 19-54, 89), for an
assignment once for every cipher column (/repo/scheduler/handers/clause/sql_set.py 10-19); they are written as `NULL`,
`n IS NULL` and `n IS NOT NULL` (/repo/sql_parsing/formatting.py 184-185, 297-301).

Simplifications:
  * the backend reads the statements of C71, with NULL as a value in UPDATE, and WHERE with one IS NULL or IS NOT NULL and
    nothing else (`readN`);
  * the rest is as in `Nulls/Model`.
-/
import Verif.Like.Props

namespace EulerDB.NullLit

open EulerDB EulerDB.Clause EulerDB.Delta EulerDB.Whole

/-! ### The backend -/

/-- A condition of C71 or `b IS NULL` (`yes`) or `b IS NOT NULL`. -/
inductive NWhere where
  | cond (w : Option MEx)
  | isNull (b : String) (yes : Bool)
  deriving DecidableEq, Repr

inductive NStmt where
  | insert (table : String) (names : List String) (vals : List DbVal)
  | select (names : List String) (table : String) (cond : NWhere)
  | update (table : String) (sets : List (String × DbVal)) (cond : NWhere)
  | delete (table : String) (cond : NWhere)
  deriving DecidableEq, Repr

section
variable (res : List Char → Bool)

def pLitN : List MTok → Option (DbVal × List MTok)
  | .word w :: r => if isKw "NULL" w then some (.null, r) else none
  | t => pLit t

/-- `name = literal` or `name = NULL`. -/
def pSetN (t : List MTok) : Option ((String × DbVal) × List MTok) :=
  match pName res t with
  | some (n, .cmp .eq :: r) => (pLitN r).map fun p => ((n, p.1), p.2)
  | _ => none

/-- `WHERE b IS NULL` or `WHERE b IS NOT NULL` and nothing after it. -/
def pIs : List MTok → Option (String × Bool)
  | [.word k, .word b, .word i, .word x] => if isKw "WHERE" k && isKw "IS" i && isKw "NULL" x && !res b then some (String.ofList b, true) else none
  | [.word k, .word b, .word i, .word n, .word x] =>
    if isKw "WHERE" k && isKw "IS" i && isKw "NOT" n && isKw "NULL" x && !res b then some (String.ofList b, false) else none
  | _ => none

def pWhereN (t : List MTok) : Option NWhere :=
  match pWhere res t with
  | some w => some (.cond w)
  | none => (pIs res t).map fun p => .isNull p.1 p.2

def pSelectN (t : List MTok) : Option NStmt := do
  let (ns, t) ← pSep (pName res) t.length t
  let t ← pKw "FROM" t
  let (tab, t) ← pName res t
  let w ← pWhereN res t
  some (.select ns tab w)

def pUpdateN (t : List MTok) : Option NStmt := do
  let (tab, t) ← pName res t
  let t ← pKw "SET" t
  let (ss, t) ← pSep (pSetN res) t.length t
  let w ← pWhereN res t
  some (.update tab ss w)

def pDeleteN (t : List MTok) : Option NStmt := do
  let t ← pKw "FROM" t
  let (tab, t) ← pName res t
  let w ← pWhereN res t
  some (.delete tab w)

/-- (NULL among the values of an INSERT is not read; the proxy never writes it, `C90_fails_insert`.) -/
def pInsertN (t : List MTok) : Option NStmt :=
  match pInsert res t with
  | some (.insert tab ns vs) => some (.insert tab ns vs)
  | _ => none

def pStmtN : List MTok → Option NStmt
  | .word w :: r =>
    if isKw "INSERT" w then pInsertN res r
    else if isKw "SELECT" w then pSelectN res r
    else if isKw "UPDATE" w then pUpdateN res r
    else if isKw "DELETE" w then pDeleteN res r
    else none
  | _ => none

def readN (s : List Char) : Option NStmt := (lex s.length s).bind (pStmtN res)

end

/-- Does the statement concern the row?  `none` if the backend does not know the column. -/
def concernsN (w : NWhere) (row : Whole.Row) : Option Bool :=
  match w with
  | .cond w => Nulls.concerns3 w row
  | .isNull b yes => (Dict.get? row b).map fun x => decide (x = .null) == yes

def execN (sch : Nulls.Schema) (st : Tables) : NStmt → Option (Tables × List (List DbVal))
  | .insert t ns vs => Nulls.exec3 sch st (.insert t ns vs)
  | .select ns t w =>
    match Dict.get? st t with
    | none => none
    | some rows =>
      match Like.pickBy (concernsN w) rows with
      | none => none
      | some l => (l.mapM fun row => ns.mapM fun n => Dict.get? row n).map fun out => (st, out)
  | .update t ss w =>
    match Dict.get? st t with
    | none => none
    | some rows =>
      if ss.all fun p => rows.all fun row => (Dict.get? row p.1).isSome then
        (Like.changeBy (concernsN w) (fun row => some (assign ss row)) rows).map fun l => (Dict.set st t l, [])
      else none
  | .delete t w =>
    match Dict.get? st t with
    | none => none
    | some rows => (Like.changeBy (concernsN w) (fun _ => none) rows).map fun l => (Dict.set st t l, [])

/-! ### Sessions -/

def serve (P : Proxy) (res : List Char → Bool) (sch : Nulls.Schema) (st : Tables) (sql : List Char) : Option (Tables × List (List OutVal)) :=
  match P.send sql with
  | .error _ => none
  | .ok (t, table, s) =>
    match readN res t with
    | none => none
    | some m =>
      match execN sch st m with
      | none => none
      | some (st', rows) =>
        match P.answer table s rows with
        | .error _ => none
        | .ok out => some (st', out)

def session (P : Proxy) (res : List Char → Bool) (sch : Nulls.Schema) (st : Tables) : List (List Char) → Option (Tables × List (List (List OutVal)))
  | [] => some (st, [])
  | sql :: r =>
    match serve P res sch st sql with
    | none => none
    | some (st', out) =>
      match session P res sch st' r with
      | none => none
      | some (st'', outs) => some (st'', out :: outs)

/-! ### The client's statements -/

/-- A condition of C71, or `n IS NULL` (`yes`) or `n IS NOT NULL`. -/
inductive CWhere where
  | cond (w : Option Cond)
  | isNull (n : String) (yes : Bool)

/-- A value or NULL (`none`) is set. -/
inductive NUStmt where
  | insert (t : String) (row : List (String × Val))
  | select (t : String) (ns : List String) (w : CWhere)
  | update (t : String) (sets : List (String × Option Val)) (w : CWhere)
  | delete (t : String) (w : CWhere)

def isJson (n : String) (yes : Bool) : Json := .dict [(if yes then "missing" else "exists", .str n)]

/-- A value as parsed. -/
def rhsN : Option Val → Json
  | none => Sql.nullJson
  | some v => v.rhs

/-- The condition that an expression is to the parser.  (Not only IS NULL is parsed as `isJson`: `C90_fails_equals`.) -/
def SaysC : Option Sql.V → CWhere → Prop
  | v, .cond w => SaysW v w
  | some v, .isNull n yes => Sql.scrub v = isJson n yes
  | none, .isNull _ _ => False

inductive Says (env : Sql.Env) (space : Char → Bool) (sql : List Char) : NUStmt → Prop
  | insert {t : String} {row : List (String × Val)} : Whole.Says env space sql (.insert t row) → Says env space sql (.insert t row)
  | select {s : List Char} {ns : List String} {t : String} {v : Option Sql.V} {w : CWhere} : Sql.Trimmed space sql s →
      Sql.SpSelect env s (ns.map fun n => .dict [("value", .str n)]) [.str t] v → SaysC v w → Says env space sql (.select t ns w)
  | update {s t : List Char} {l : List (String × Sql.V)} {v : Option Sql.V} {w : CWhere} {sets : List (String × Option Val)} : Sql.Trimmed space sql s →
      Sql.SpUpdate env s t l v → (l.map fun e => (e.1, Sql.scrub e.2)) = sets.map (fun e => (e.1, rhsN e.2)) → SaysC v w →
      Says env space sql (.update (Sql.strOf t) sets w)
  | delete {s t : List Char} {v : Option Sql.V} {w : CWhere} : Sql.Trimmed space sql s → Sql.SpDelete env s t v → SaysC v w →
      Says env space sql (.delete (Sql.strOf t) w)

/-- Does the condition hold for the row?  A column without a value is NULL. -/
def chosen (w : CWhere) (row : PRow) : Bool :=
  match w with
  | .cond w => selected w row
  | .isNull n yes => (Dict.get? row n).isNone == yes

/-- One assignment; a column that is set to NULL has no value. -/
def put (row : PRow) (n : String) : Option Val → PRow
  | none => Dict.erase row n
  | some v => Dict.set row n v

def putAll (sets : List (String × Option Val)) (row : PRow) : PRow := sets.foldl (fun r e => put r e.1 e.2) row

/-- What a database without encryption does. -/
def pexec (st : PTables) : NUStmt → PTables × List (List OutVal)
  | .insert t row => Whole.pexec st (.insert t row)
  | .select t ns w => (st, (((Dict.get? st t).getD []).filter (chosen w)).map fun row => ns.map (shown row))
  | .update t sets w => (Dict.set st t (((Dict.get? st t).getD []).map fun row => if chosen w row then putAll sets row else row), [])
  | .delete t w => (Dict.set st t (((Dict.get? st t).getD []).filter fun row => !chosen w row), [])

def psession (st : PTables) : List NUStmt → PTables × List (List (List OutVal))
  | [] => (st, [])
  | u :: us => ((psession (pexec st u).1 us).1, (pexec st u).2 :: (psession (pexec st u).1 us).2)

/-! ### What is asked of the statements -/

/-- IS NULL and IS NOT NULL are asked of plaintext columns only. -/
def TypedC (cols : Dict String ColMeta) : CWhere → Prop
  | .cond w => TypedW cols w
  | .isNull n _ => ∃ cm, Dict.get? cols n = some cm ∧ cm.plaintext = true

def Fine (db : Db) : NUStmt → Prop
  | .insert t row => Nulls.Fine db (.insert t row)
  | .select t ns w => ∃ tm, Dict.get? db t = some tm ∧ PlainTable t ∧ ns ≠ [] ∧ (∀ n ∈ ns, Readable tm.columns n) ∧ TypedC tm.columns w
  | .update t sets w => ∃ tm, Dict.get? db t = some tm ∧ sets ≠ [] ∧ (sets.map Prod.fst).Nodup ∧
      (∀ e ∈ sets, ∃ cm, Dict.get? tm.columns e.1 = some cm ∧ ∀ v, e.2 = some v → Assignable cm v) ∧ TypedC tm.columns w
  | .delete t w => ∃ tm, Dict.get? db t = some tm ∧ TypedC tm.columns w

end EulerDB.NullLit
