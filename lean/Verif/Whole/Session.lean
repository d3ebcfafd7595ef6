/-
C71: sessions.  The client's statements as they are meant, and the relation between the tables the client thinks of and those of the backend.
-/
import Verif.Whole.Insert
import Mathlib.Data.List.Nodup
import Mathlib.Data.List.Pairwise

namespace EulerDB.Whole

open EulerDB EulerDB.Clause EulerDB.Delta

/-! ### What the client means -/

/-- A row as the client knows it. -/
abbrev PRow := Dict String Val

/-- The client's tables. -/
abbrev PTables := Dict String (List PRow)

inductive UStmt where
  | insert (t : String) (row : List (String × Val))
  | select (t : String) (ns : List String) (w : Option Cond)
  | update (t : String) (sets : List (String × Val)) (w : Option Cond)
  | delete (t : String) (w : Option Cond)

/-- Does the condition hold for the row? -/
def selected (w : Option Cond) (row : PRow) : Bool :=
  match w with
  | none => true
  | some x => x.holds fun n => Dict.get? row n

/-- The assignments, one after the other. -/
def setAll {α : Type} (sets : List (String × α)) (row : Dict String α) : Dict String α := sets.foldl (fun r e => Dict.set r e.1 e.2) row

def shown (row : PRow) (n : String) : OutVal :=
  match Dict.get? row n with
  | some v => v.out
  | none => .null

/-- What a database without encryption does. -/
def pexec (st : PTables) : UStmt → PTables × List (List OutVal)
  | .insert t row => (Dict.set st t ((Dict.get? st t).getD [] ++ [row]), [])
  | .select t ns w => (st, (((Dict.get? st t).getD []).filter (selected w)).map fun row => ns.map (shown row))
  | .update t sets w => (Dict.set st t (((Dict.get? st t).getD []).map fun row => if selected w row then setAll sets row else row), [])
  | .delete t w => (Dict.set st t (((Dict.get? st t).getD []).filter fun row => !selected w row), [])

def psession (st : PTables) : List UStmt → PTables × List (List (List OutVal))
  | [] => (st, [])
  | u :: us => ((psession (pexec st u).1 us).1, (pexec st u).2 :: (psession (pexec st u).1 us).2)

/-! ### What the statements spell -/

/-- The condition that an expression means. -/
def SaysW : Option Sql.V → Option Cond → Prop
  | none, none => True
  | some v, some x => Sql.scrub v = x.json
  | _, _ => False

/-- The characters `sql` spell the statement. -/
inductive Says (env : Sql.Env) (space : Char → Bool) (sql : List Char) : UStmt → Prop
  | insert {s n : List Char} {cols : List (List Char)} {vs : List Sql.V} {row : List (String × Val)} : Sql.Trimmed space sql s →
      Sql.SpInsert env s n cols [vs] → cols.map Sql.strOf = row.map Prod.fst → vs.map Sql.scrub = row.map (fun e => e.2.rhs) →
      Says env space sql (.insert (Sql.strOf n) row)
  | select {s : List Char} {ns : List String} {t : String} {v : Option Sql.V} {w : Option Cond} : Sql.Trimmed space sql s →
      Sql.SpSelect env s (ns.map fun n => .dict [("value", .str n)]) [.str t] v → SaysW v w → Says env space sql (.select t ns w)
  | update {s n : List Char} {l : List (String × Sql.V)} {v : Option Sql.V} {w : Option Cond} {sets : List (String × Val)} : Sql.Trimmed space sql s →
      Sql.SpUpdate env s n l v → (l.map fun p => (p.1, Sql.scrub p.2)) = sets.map (fun e => (e.1, e.2.rhs)) → SaysW v w →
      Says env space sql (.update (Sql.strOf n) sets w)
  | delete {s n : List Char} {v : Option Sql.V} {w : Option Cond} : Sql.Trimmed space sql s → Sql.SpDelete env s n v → SaysW v w →
      Says env space sql (.delete (Sql.strOf n) w)

/-! ### What is asked of the statements -/

/-- An INSERT names every column of the table once, at least two; SELECT and UPDATE name known columns; values and conditions fit the columns. -/
def Fine (db : Db) : UStmt → Prop
  | .insert t row => ∃ tm, Dict.get? db t = some tm ∧ 2 ≤ row.length ∧ (row.map Prod.fst).Nodup ∧ (∀ n ∈ Dict.keys tm.columns, n ∈ row.map Prod.fst) ∧
      ∀ e ∈ row, ∃ cm, Dict.get? tm.columns e.1 = some cm ∧ Insertable cm e.2
  | .select t ns w => ∃ tm, Dict.get? db t = some tm ∧ PlainTable t ∧ ns ≠ [] ∧ (∀ n ∈ ns, Readable tm.columns n) ∧ TypedW tm.columns w
  | .update t sets w => ∃ tm, Dict.get? db t = some tm ∧ sets ≠ [] ∧ (sets.map Prod.fst).Nodup ∧
      (∀ e ∈ sets, ∃ cm, Dict.get? tm.columns e.1 = some cm ∧ Assignable cm e.2) ∧ TypedW tm.columns w
  | .delete t w => ∃ tm, Dict.get? db t = some tm ∧ TypedW tm.columns w

/-- What is asked of the proxy: names of the backend that are plain words and all different; known ciphers; every column is stored somewhere; Paillier
ciphertexts are written without backslashes; Python's recursion limit is not reached. -/
structure Sound (P : Proxy) (res : List Char → Bool) : Prop where
  depth : ∃ n, P.depth = n + 3
  hom : ∀ k z, '\\' ∉ (P.c.hom k z).toList
  tables : ∀ t t' tm tm', Dict.get? P.db t = some tm → Dict.get? P.db t' = some tm' → tm.anonymous = tm'.anonymous → t = t'
  named : ∀ t tm, Dict.get? P.db t = some tm → Named P.w res tm
  known : ∀ t tm, Dict.get? P.db t = some tm → ∀ n cm, Dict.get? tm.columns n = some cm → cm.plaintext = false → ∀ e ∈ Dict.keys cm.encCols, e ∈ knownCiphers
  stored : ∀ t tm, Dict.get? P.db t = some tm → ∀ n cm, Dict.get? tm.columns n = some cm → cm.plaintext = false → cm.encCols ≠ []
  names : ∀ t tm, Dict.get? P.db t = some tm → ((Dict.keys tm.columns).flatMap (targets tm.columns)).Nodup

/-! ### The relation -/

/-- The stored row holds the client's row. -/
structure Keeps (c : Crypto) (cols : Dict String ColMeta) (row : PRow) (brow : Row) : Prop where
  vals : ∀ n cm, Dict.get? cols n = some cm → ∃ v, Dict.get? row n = some v ∧ Suits cm v
  holds : Holds c cols (fun n => Dict.get? row n) brow
  there : ∀ n ∈ Dict.keys cols, ∀ b ∈ targets cols n, (Dict.get? brow b).isSome = true
  only : ∀ b ∈ Dict.keys brow, ∃ n ∈ Dict.keys cols, b ∈ targets cols n

/-- The backend holds the client's tables. -/
def Rel (P : Proxy) (pst : PTables) (bst : Tables) : Prop :=
  ∀ t tm, Dict.get? P.db t = some tm → ∃ rows brows, Dict.get? pst t = some rows ∧ Dict.get? bst tm.anonymous = some brows ∧
    List.Forall₂ (Keeps P.c tm.columns) rows brows

/-! ### Names -/

theorem mem_keys {α : Type} {d : Dict String α} {n : String} {x : α} (h : Dict.get? d n = some x) : n ∈ Dict.keys d :=
  List.mem_map.2 ⟨(n, x), Dict.mem_of_get? h, rfl⟩

/-- Different columns have different backend columns. -/
theorem targets_disjoint {cols : Dict String ColMeta} (h : ((Dict.keys cols).flatMap (targets cols)).Nodup) {n m : String} (hn : n ∈ Dict.keys cols)
    (hm : m ∈ Dict.keys cols) (hne : n ≠ m) {b : String} (hb : b ∈ targets cols n) : b ∉ targets cols m := by
  have h2 := (List.nodup_flatMap.1 h).2
  have : Std.Symm (Function.onFun List.Disjoint (targets cols)) := ⟨fun a b hd => List.Disjoint.symm hd⟩
  have := h2.forall hn hm hne
  exact fun hb' => this hb hb'

theorem targets_nodup {α : Type} {cols : Dict String ColMeta} (h : ((Dict.keys cols).flatMap (targets cols)).Nodup) {l : List (String × α)}
    (hl : (l.map Prod.fst).Nodup) (hk : ∀ e ∈ l, e.1 ∈ Dict.keys cols) : (l.flatMap fun e => targets cols e.1).Nodup := by
  refine List.nodup_flatMap.2 ⟨fun e he => (List.nodup_flatMap.1 h).1 e.1 (hk e he), ?_⟩
  have : l.Pairwise fun a b => a.1 ≠ b.1 := List.pairwise_map.1 hl
  refine this.imp_of_mem ?_
  intro a b ha hb hne x hx hx'
  exact targets_disjoint h (hk a ha) (hk b hb) hne hx hx'

/-! ### Assignments -/

theorem assign_eq : ∀ (l : List (String × DbVal)) (row : Row), assign l row = setAll l row
  | [], _ => rfl
  | (n, v) :: l, row => by rw [assign, assign_eq l]; rfl

theorem setAll_other {α : Type} : ∀ {l : List (String × α)} {row : Dict String α} {b : String}, b ∉ l.map Prod.fst → Dict.get? (setAll l row) b = Dict.get? row b
  | [], _, _, _ => rfl
  | (n, v) :: l, row, b, h => by
    simp only [List.map_cons, List.mem_cons, not_or] at h
    have := setAll_other (row := Dict.set row n v) h.2
    rw [Dict.get?_set_ne _ h.1] at this
    exact this

theorem setAll_mem {α : Type} : ∀ {l : List (String × α)} {row : Dict String α} {b : String} {x : α}, (l.map Prod.fst).Nodup → (b, x) ∈ l →
    Dict.get? (setAll l row) b = some x
  | (n, v) :: l, row, b, x, hn, h => by
    rw [List.map_cons, List.nodup_cons] at hn
    rcases List.mem_cons.1 h with h | h
    · injection h with h1 h2
      subst h1; subst h2
      have := setAll_other (row := Dict.set row b x) hn.1
      rw [Dict.get?_set_self] at this
      exact this
    · exact setAll_mem (row := Dict.set row n v) hn.2 h

theorem setAll_cases {α : Type} {l : List (String × α)} {row : Dict String α} (hn : (l.map Prod.fst).Nodup) {b : String} {x : α}
    (h : Dict.get? (setAll l row) b = some x) : (b, x) ∈ l ∨ (b ∉ l.map Prod.fst ∧ Dict.get? row b = some x) := by
  by_cases hb : b ∈ l.map Prod.fst
  · obtain ⟨e, he, rfl⟩ := List.mem_map.1 hb
    rw [setAll_mem hn (x := e.2) he] at h
    injection h with h
    subst h
    exact Or.inl he
  · rw [setAll_other hb] at h
    exact Or.inr ⟨hb, h⟩

theorem setAll_some {α : Type} : ∀ {l : List (String × α)} {row : Dict String α} {b : String}, (Dict.get? row b).isSome = true → (Dict.get? (setAll l row) b).isSome = true
  | [], _, _, h => h
  | (n, v) :: l, row, b, h => by
    refine setAll_some (l := l) (row := Dict.set row n v) ?_
    by_cases hb : b = n
    · subst hb; simp [Dict.get?_set_self]
    · rw [Dict.get?_set_ne _ hb]; exact h

end EulerDB.Whole
