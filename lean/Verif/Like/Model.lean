/-
C88: sessions in which statements search with LIKE.

Code: a condition `n LIKE 'p'` over an encrypted column is sent with the fuzzy column and the rewritten pattern, over a plaintext column as it is
(/repo/scheduler/handers/clause/sql_where.py 45-50, 72-84); the rest of the way is that of `Whole/Send` and `Nulls/Model`.

Simplifications:
  * the backend reads WHERE with one LIKE and nothing else besides the statements of C71 (`readLike`);
  * its LIKE is that of C08 (`Fuzzy.like`: `%`, `_`, a backslash before a character), upper and lower case are different; a number is matched as its
    decimal text, NULL LIKE p is unknown.
-/
import Verif.Nulls.Props
import Verif.Fuzzy.Props

namespace EulerDB.Like

open EulerDB EulerDB.Clause EulerDB.Delta EulerDB.Whole

/-! ### The backend -/

/-- Statements whose condition is `b LIKE 'q'`. -/
inductive LStmt where
  | select (names : List String) (table b q : String)
  | update (table : String) (sets : List (String × DbVal)) (b q : String)
  | delete (table b q : String)
  deriving DecidableEq, Repr

section
variable (res : List Char → Bool)

/-- `WHERE b LIKE 'q'` and nothing after it. -/
def pWhereL : List MTok → Option (String × String)
  | [.word k, .word b, .word w, .str q] => if isKw "WHERE" k && isKw "LIKE" w && !res b then some (String.ofList b, String.ofList q) else none
  | _ => none

def pSelectL (t : List MTok) : Option LStmt := do
  let (ns, t) ← pSep (pName res) t.length t
  let t ← pKw "FROM" t
  let (tab, t) ← pName res t
  let w ← pWhereL res t
  some (.select ns tab w.1 w.2)

def pUpdateL (t : List MTok) : Option LStmt := do
  let (tab, t) ← pName res t
  let t ← pKw "SET" t
  let (ss, t) ← pSep (pSet res) t.length t
  let w ← pWhereL res t
  some (.update tab ss w.1 w.2)

def pDeleteL (t : List MTok) : Option LStmt := do
  let t ← pKw "FROM" t
  let (tab, t) ← pName res t
  let w ← pWhereL res t
  some (.delete tab w.1 w.2)

def pStmtL : List MTok → Option LStmt
  | .word w :: r =>
    if isKw "SELECT" w then pSelectL res r
    else if isKw "UPDATE" w then pUpdateL res r
    else if isKw "DELETE" w then pDeleteL res r
    else none
  | _ => none

def readLike (s : List Char) : Option LStmt := (lex s.length s).bind (pStmtL res)

end

/-- Does the pattern match the stored value? -/
def likeVal (q : String) : DbVal → Bool
  | .null => false
  | .int z => Fuzzy.like q.toList (Text.intStr z)
  | .text s => Fuzzy.like q.toList s.toList

/-- The rows for which `f` is true; `none` if the backend does not know the column. -/
def pickBy (f : Whole.Row → Option Bool) : List Whole.Row → Option (List Whole.Row)
  | [] => some []
  | row :: rs =>
    match f row, pickBy f rs with
    | some b, some l => some (if b then row :: l else l)
    | _, _ => none

def changeBy (f : Whole.Row → Option Bool) (g : Whole.Row → Option Whole.Row) : List Whole.Row → Option (List Whole.Row)
  | [] => some []
  | row :: rs =>
    match f row, changeBy f g rs with
    | some b, some l => some (if b then (g row).toList ++ l else row :: l)
    | _, _ => none

def matching (b q : String) (row : Whole.Row) : Option Bool := (Dict.get? row b).map (likeVal q)

def execL (st : Tables) : LStmt → Option (Tables × List (List DbVal))
  | .select ns t b q =>
    match Dict.get? st t with
    | none => none
    | some rows =>
      match pickBy (matching b q) rows with
      | none => none
      | some l => (l.mapM fun row => ns.mapM fun n => Dict.get? row n).map fun out => (st, out)
  | .update t ss b q =>
    match Dict.get? st t with
    | none => none
    | some rows =>
      if ss.all fun p => rows.all fun row => (Dict.get? row p.1).isSome then
        (changeBy (matching b q) (fun row => some (assign ss row)) rows).map fun l => (Dict.set st t l, [])
      else none
  | .delete t b q =>
    match Dict.get? st t with
    | none => none
    | some rows => (changeBy (matching b q) (fun _ => none) rows).map fun l => (Dict.set st t l, [])

/-- A text that the backend reads as a statement of C71 or as one with LIKE. -/
def execAny (res : List Char → Bool) (sch : Nulls.Schema) (st : Tables) (t : List Char) : Option (Tables × List (List DbVal)) :=
  match readStmt res t with
  | some m => Nulls.exec3 sch st m
  | none =>
    match readLike res t with
    | some m => execL st m
    | none => none

/-! ### Sessions -/

def serve (P : Proxy) (res : List Char → Bool) (sch : Nulls.Schema) (st : Tables) (sql : List Char) : Option (Tables × List (List OutVal)) :=
  match P.send sql with
  | .error _ => none
  | .ok (t, table, s) =>
    match execAny res sch st t with
    | none => none
    | some (st', rows) =>
      match P.answer table s rows with
      | .error _ => none
      | .ok out => some (st', out)

def session (P : Proxy) (res : List Char → Bool) (sch : Nulls.Schema) (st : Tables) : List (List Char) → Option (Tables × List (List (List OutVal)))
  | [] => some (st, [])
  | sql :: r =>
    match serve P res sch st sql with
    | none => none
    | some (st', out) =>
      match session P res sch st' r with
      | none => none
      | some (st'', outs) => some (st'', out :: outs)

/-! ### The client's statements -/

/-- A statement of C71, or one whose condition is `n LIKE 'p'`. -/
inductive LUStmt where
  | plain (u : UStmt)
  | select (t : String) (ns : List String) (n p : String)
  | update (t : String) (sets : List (String × Val)) (n p : String)
  | delete (t n p : String)

def likeJson (n p : String) : Json := .dict [("like", .list [.str n, Json.lit p])]

inductive Says (env : Sql.Env) (space : Char → Bool) (sql : List Char) : LUStmt → Prop
  | plain {u : UStmt} : Whole.Says env space sql u → Says env space sql (.plain u)
  | select {s : List Char} {ns : List String} {t n p : String} {v : Sql.V} : Sql.Trimmed space sql s →
      Sql.SpSelect env s (ns.map fun n => .dict [("value", .str n)]) [.str t] (some v) → Sql.scrub v = likeJson n p → Says env space sql (.select t ns n p)
  | update {s t : List Char} {l : List (String × Sql.V)} {n p : String} {v : Sql.V} {sets : List (String × Val)} : Sql.Trimmed space sql s →
      Sql.SpUpdate env s t l (some v) → (l.map fun e => (e.1, Sql.scrub e.2)) = sets.map (fun e => (e.1, e.2.rhs)) → Sql.scrub v = likeJson n p →
      Says env space sql (.update (Sql.strOf t) sets n p)
  | delete {s t : List Char} {n p : String} {v : Sql.V} : Sql.Trimmed space sql s → Sql.SpDelete env s t (some v) → Sql.scrub v = likeJson n p →
      Says env space sql (.delete (Sql.strOf t) n p)

/-- What a search is: table, column, pattern and row. -/
abbrev Search := String → String → String → PRow → Bool

/-- LIKE as the client means it. -/
def meant : Search := fun _ n p row =>
  match Dict.get? row n with
  | some v => Fuzzy.like p.toList v.str
  | none => false

/-- What a database without encryption does, if `find` is its LIKE. -/
def pexec (find : Search) (st : PTables) : LUStmt → PTables × List (List OutVal)
  | .plain u => Whole.pexec st u
  | .select t ns n p => (st, (((Dict.get? st t).getD []).filter (find t n p)).map fun row => ns.map (shown row))
  | .update t sets n p => (Dict.set st t (((Dict.get? st t).getD []).map fun row => if find t n p row then setAll sets row else row), [])
  | .delete t n p => (Dict.set st t (((Dict.get? st t).getD []).filter fun row => !find t n p row), [])

def psession (find : Search) (st : PTables) : List LUStmt → PTables × List (List (List OutVal))
  | [] => (st, [])
  | u :: us => ((psession find (pexec find st u).1 us).1, (pexec find st u).2 :: (psession find (pexec find st u).1 us).2)

/-- What is found through the proxy: in an encrypted column the rows whose fuzzy ciphertext the rewritten pattern matches. -/
def found (c : Crypto) (db : Db) : Search := fun t n p row =>
  match (Dict.get? db t).bind fun tm => Dict.get? tm.columns n, Dict.get? row n with
  | some cm, some v =>
    if cm.plaintext then Fuzzy.like p.toList v.str
    else
      match Fuzzy.likeRewrite c.alnum (c.aes cm.key) p.toList, Fuzzy.fuzzyEncrypt c.alnum (c.aes cm.key) v.str with
      | .ok q, .ok e => Fuzzy.like q e
      | _, _ => false
  | _, _ => false

/-! ### What is asked of the statements -/

/-- The column can be searched: it is a plaintext column and the pattern is not changed on its way; or it has a fuzzy column and the words of the pattern have at
least three characters. -/
def Searchable (cols : Dict String ColMeta) (n p : String) : Prop :=
  ∃ cm, Dict.get? cols n = some cm ∧ (cm.plaintext = true → Format.kept p.toList = true) ∧
    (cm.plaintext = false → (∃ b, Dict.get? cm.encCols "fuzzy" = some b) ∧ ∀ w ∈ Fuzzy.words p.toList, 3 ≤ w.length)

def Fine (db : Db) : LUStmt → Prop
  | .plain u => Nulls.Fine db u
  | .select t ns n p => ∃ tm, Dict.get? db t = some tm ∧ PlainTable t ∧ ns ≠ [] ∧ (∀ n ∈ ns, Readable tm.columns n) ∧ Searchable tm.columns n p
  | .update t sets n p => ∃ tm, Dict.get? db t = some tm ∧ sets ≠ [] ∧ (sets.map Prod.fst).Nodup ∧
      (∀ e ∈ sets, ∃ cm, Dict.get? tm.columns e.1 = some cm ∧ Assignable cm e.2) ∧ Searchable tm.columns n p
  | .delete t n p => ∃ tm, Dict.get? db t = some tm ∧ Searchable tm.columns n p

end EulerDB.Like
