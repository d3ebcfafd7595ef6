/-
C87: sessions in which columns are left out of an INSERT.

Code: the statements are rewritten and answered as in `Whole/Send` (/repo/scheduler/handers/rewrite_hander.py 19-77); an INSERT names the backend
columns of the columns given and no others (/repo/scheduler/handers/clause/sql_columns.py, sql_values.py); a NULL of the backend is decrypted to None
(/repo/scheduler/handers/decrypt_handler.py 64-66) and a NULL of a plaintext column is passed on (27-34).

Simplifications:
  * the backend knows the columns of its tables; all of them may be NULL and have no DEFAULT (for defaults see C65), so that a column that is left out
    is NULL; a column that it does not know is an error;
  * conditions are three-valued: a comparison with NULL is unknown, and a statement concerns the rows for which its condition is true.
-/
import Verif.Whole.Serve
import Verif.Join.Model

namespace EulerDB.Nulls

open EulerDB EulerDB.Clause EulerDB.Delta EulerDB.Whole EulerDB.Join

/-- A comparison; the outer `none` is an error or outside this model, the inner one is unknown. -/
def cmp3 (o : MCmp) (a b : DbVal) : Option (Option Bool) := if a = .null ∨ b = .null then some none else (o.eval a b).map some

def two (f : Option Bool → Option Bool → Option Bool) : Option (Option Bool) → Option (Option Bool) → Option (Option Bool)
  | some a, some b => some (f a b)
  | _, _ => none

def truth3 (row : Row) : MEx → Option (Option Bool)
  | .cmp o a b =>
    match value row a, value row b with
    | some x, some y => cmp3 o x y
    | _, _ => none
  | .and a b => two and3 (truth3 row a) (truth3 row b)
  | .or a b => two or3 (truth3 row a) (truth3 row b)
  | _ => none

/-- Is the condition true? -/
def sure (row : Row) (e : MEx) : Option Bool := (truth3 row e).map fun x => x == some true

def concerns3 (w : Option MEx) (row : Row) : Option Bool :=
  match w with
  | none => some true
  | some e => sure row e

def pick3 (w : Option MEx) : List Row → Option (List Row)
  | [] => some []
  | row :: rs =>
    match concerns3 w row, pick3 w rs with
    | some b, some l => some (if b then row :: l else l)
    | _, _ => none

def change3 (w : Option MEx) (f : Row → Option Row) : List Row → Option (List Row)
  | [] => some []
  | row :: rs =>
    match concerns3 w row, change3 w f rs with
    | some b, some l => some (if b then (f row).toList ++ l else row :: l)
    | _, _ => none

/-- The row that is stored: the columns that were not given are NULL. -/
def filled (all : List String) (r : Row) : Row := r ++ (all.filter fun b => !(Dict.keys r).contains b).map fun b => (b, DbVal.null)

/-- The columns of every table of the backend. -/
abbrev Schema := String → Option (List String)

def exec3 (sch : Schema) (st : Tables) : MStmt → Option (Tables × List (List DbVal))
  | .insert t ns vs =>
    match Dict.get? st t, sch t with
    | some rows, some all =>
      if ns.Nodup ∧ ns.length = vs.length ∧ ∀ n ∈ ns, n ∈ all then some (Dict.set st t (rows ++ [filled all (ns.zip vs)]), []) else none
    | _, _ => none
  | .select ns t w =>
    match Dict.get? st t with
    | none => none
    | some rows =>
      match pick3 w rows with
      | none => none
      | some l => (l.mapM fun row => ns.mapM fun n => Dict.get? row n).map fun out => (st, out)
  | .update t ss w =>
    match Dict.get? st t with
    | none => none
    | some rows =>
      if ss.all fun p => rows.all fun row => (Dict.get? row p.1).isSome then
        (change3 w (fun row => some (assign ss row)) rows).map fun l => (Dict.set st t l, [])
      else none
  | .delete t w =>
    match Dict.get? st t with
    | none => none
    | some rows => (change3 w (fun _ => none) rows).map fun l => (Dict.set st t l, [])

/-- As `Proxy.serve`, with this backend. -/
def serve (P : Proxy) (res : List Char → Bool) (sch : Schema) (st : Tables) (sql : List Char) : Option (Tables × List (List OutVal)) :=
  match P.send sql with
  | .error _ => none
  | .ok (t, table, s) =>
    match readStmt res t with
    | none => none
    | some m =>
      match exec3 sch st m with
      | none => none
      | some (st', rows) =>
        match P.answer table s rows with
        | .error _ => none
        | .ok out => some (st', out)

def session (P : Proxy) (res : List Char → Bool) (sch : Schema) (st : Tables) : List (List Char) → Option (Tables × List (List (List OutVal)))
  | [] => some (st, [])
  | sql :: r =>
    match serve P res sch st sql with
    | none => none
    | some (st', out) =>
      match session P res sch st' r with
      | none => none
      | some (st'', outs) => some (st'', out :: outs)

/-! ### What the client means -/

mutual
/-- The truth value of a client's condition; a column without a value is NULL. -/
def sql (vals : String → Option Val) : Cond → Option Bool
  | .eqInt n z => match vals n with | some (.int y) => some (y = z) | some _ => some false | none => none
  | .eqText n s => match vals n with | some (.text y) => some (y = s) | some _ => some false | none => none
  | .cmp op n z => match vals n with | some (.int y) => some (op.eval y z) | some _ => some false | none => none
  | .and l => sqlAll vals l
  | .or l => sqlSome vals l

def sqlAll (vals : String → Option Val) : List Cond → Option Bool
  | [] => some true
  | c :: r => and3 (sql vals c) (sqlAll vals r)

def sqlSome (vals : String → Option Val) : List Cond → Option Bool
  | [] => some false
  | c :: r => or3 (sql vals c) (sqlSome vals r)
end

/-! ### What is asked of the statements -/

/-- As `Whole.Fine`, but an INSERT may leave columns out. -/
def Fine (db : Db) : UStmt → Prop
  | .insert t row => ∃ tm, Dict.get? db t = some tm ∧ 2 ≤ row.length ∧ (row.map Prod.fst).Nodup ∧
      ∀ e ∈ row, ∃ cm, Dict.get? tm.columns e.1 = some cm ∧ Insertable cm e.2
  | .select t ns w => Whole.Fine db (.select t ns w)
  | .update t sets w => Whole.Fine db (.update t sets w)
  | .delete t w => Whole.Fine db (.delete t w)

/-- The stored row holds the client's row; the columns of a column without a value are NULL. -/
structure Keeps (c : Crypto) (cols : Dict String ColMeta) (row : PRow) (brow : Row) : Prop where
  suits : ∀ n v cm, Dict.get? row n = some v → Dict.get? cols n = some cm → Suits cm v
  holds : Holds c cols (fun n => Dict.get? row n) brow
  null : ∀ n ∈ Dict.keys cols, Dict.get? row n = none → ∀ b ∈ targets cols n, Dict.get? brow b = some .null
  there : ∀ n ∈ Dict.keys cols, ∀ b ∈ targets cols n, (Dict.get? brow b).isSome = true
  only : ∀ b ∈ Dict.keys brow, ∃ n ∈ Dict.keys cols, b ∈ targets cols n

def Rel (P : Proxy) (pst : PTables) (bst : Tables) : Prop :=
  ∀ t tm, Dict.get? P.db t = some tm → ∃ rows brows, Dict.get? pst t = some rows ∧ Dict.get? bst tm.anonymous = some brows ∧
    List.Forall₂ (Keeps P.c tm.columns) rows brows

/-- The backend has the columns of the tables the proxy knows (C21). -/
def Shaped (P : Proxy) (sch : Schema) : Prop :=
  ∀ t tm, Dict.get? P.db t = some tm → ∃ all, sch tm.anonymous = some all ∧ ∀ b, b ∈ all ↔ ∃ n ∈ Dict.keys tm.columns, b ∈ targets tm.columns n

end EulerDB.Nulls
