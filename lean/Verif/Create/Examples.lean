/-
A session that creates a table and uses it (C84).
-/
import Verif.Create.Session
import Verif.Whole.Examples

namespace EulerDB.Create

open EulerDB EulerDB.Table EulerDB.Delta EulerDB.Whole EulerDB.Clause

/-- Column `a` is to be encrypted, column `b` is not. -/
def demoDecl : Decl := ⟨[⟨"a", "int", .none, false, { pk := true }⟩, ⟨"b", "int", .none, false, {}⟩], [("a", ⟨"k", false, false, none, false, ""⟩)]⟩

def demoEnv : Table.Env := ⟨fun i => if i = 0 then "a_o" else "a_s", "table_0", fun _ _ _ => .ok ""⟩

/-- A proxy that knows no tables. -/
def demoStart (env : Sql.Env) (w : Writer) (repr : Json → String) : Proxy :=
  ⟨{ demoCrypto with alnum := fun c => c != '\x00' }, [], env, spc, w, repr, 1, 3, fun _ _ => .error .typeError, fun _ => none⟩

open Sql in
theorem asks_create : SpCreate "CREATE TABLE t (a INT PRIMARY KEY, b INT)".toList ['t'] demoDecl.cols := by
  have ha : SpName reservedWords ['a'] ['a'] := SpName.mk (t := []) (m := []) (.plain ⟨by decide, 'a', [], rfl, by decide⟩) (by decide +kernel) .nil
  have hb : SpName reservedWords ['b'] ['b'] := SpName.mk (t := []) (m := []) (.plain ⟨by decide, 'b', [], rfl, by decide⟩) (by decide +kernel) .nil
  refine .mk (s1 := " TABLE t (a INT PRIMARY KEY, b INT)".toList) (s2 := " t (a INT PRIMARY KEY, b INT)".toList) (s3 := " t (a INT PRIMARY KEY, b INT)".toList)
    (g := [' ']) (s4 := "a INT PRIMARY KEY, b INT)".toList) (e := []) ⟨[], "CREATE".toList, .nil, rfl, by decide, rfl⟩ ⟨[' '], "TABLE".toList, gap_space, rfl, by decide, rfl⟩
    .absent ⟨[' '], ['t'], gap_space, name_t _ (by decide +kernel), fun c hc => by simp at hc; subst hc; decide, by decide, rfl⟩ gap_space ?_
    (.gap .nil)
  refine .cons (g := []) (u := " b INT)".toList) ?_ .nil (.one (g := []) ?_ .nil)
  · exact SpColumn.mk (n := ['a']) (s1 := " INT PRIMARY KEY, b INT)".toList) (s2 := " PRIMARY KEY, b INT)".toList)
      ⟨[], ['a'], .nil, ha, fun c hc => by simp at hc; subst hc; decide, by decide, rfl⟩
      (.bare (sized := true) (uns := true) (by decide) ⟨[' '], "INT".toList, gap_space, rfl, by decide, rfl⟩ (by decide) (by decide +kernel) (fun h => absurd h (by decide)))
      (.pk rfl (s1 := " KEY, b INT)".toList) ⟨[' '], "PRIMARY".toList, gap_space, rfl, by decide, rfl⟩ ⟨[' '], "KEY".toList, gap_space, rfl, by decide, rfl⟩
        (.done ⟨[], ',', " b INT)".toList, .nil, Or.inl rfl, rfl⟩))
  · exact SpColumn.mk (n := ['b']) (s1 := " INT)".toList) (s2 := ")".toList)
      ⟨[' '], ['b'], gap_space, hb, fun c hc => by simp at hc; subst hc; decide, by decide, rfl⟩
      (.bare (sized := true) (uns := true) (by decide) ⟨[' '], "INT".toList, gap_space, rfl, by decide, rfl⟩ (by decide) (by decide +kernel) (fun h => absurd h (by decide)))
      (.done ⟨[], ')', [], .nil, Or.inr rfl, rfl⟩)

theorem demo_roomy : Roomy 4 demoDecl where
  good := by
    intro c hc
    simp only [demoDecl, List.mem_cons, List.not_mem_nil, or_false] at hc
    rcases hc with rfl | rfl
    · exact ⟨rfl, rfl, rfl, Or.inl ⟨rfl, rfl⟩, fun o ho => by simp [demoDecl, Dict.get?] at ho; subst ho; exact ⟨rfl, rfl⟩⟩
    · exact ⟨rfl, rfl, rfl, Or.inl ⟨rfl, rfl⟩, fun o ho => by simp [demoDecl, Dict.get?] at ho⟩
  names := by decide
  some := by simp [demoDecl]
  count := by decide +kernel
  bytes := by decide +kernel
  key := by decide +kernel
  index := by decide +kernel

theorem demo_names : (outsAll demoEnv demoDecl.opts 0 demoDecl.cols).map Out.name = ["a_o", "a_s", "b"] := by decide +kernel

theorem demo_fresh {w : Writer} {res : List Char → Bool} (h : ∀ s ∈ demoNames, w.kw s.toList = false ∧ res s.toList = false) : Fresh w res demoEnv demoDecl where
  anon := demo_bare h _ (by decide)
  bare := by
    intro o ho
    have : o.name ∈ (outsAll demoEnv demoDecl.opts 0 demoDecl.cols).map Out.name := List.mem_map.2 ⟨o, ho, rfl⟩
    rw [demo_names] at this
    refine demo_bare h _ ?_
    simp only [List.mem_cons, List.not_mem_nil, or_false] at this
    rcases this with h | h | h <;> rw [h] <;> decide
  differ := by
    rw [show (fun o : Out => low o.name) = low ∘ Out.name from rfl, ← List.map_map, demo_names]
    decide

/-- The client's database, with the rows of the table. -/
def demoClient (rows : List PRow) : Client := ⟨[("t", demoDecl)], [("t", rows)]⟩

theorem demo_fits {rows : List PRow} (h : rows = [] ∨ rows = [[("a", .int 1), ("b", .int 1)]]) : (demoClient rows).fits := by
  intro t d hd rs hr
  have h1 := Dict.mem_of_get? hd
  simp only [demoClient, List.mem_singleton, Prod.mk.injEq] at h1
  obtain ⟨rfl, rfl⟩ := h1
  have h2 : rs = rows := by simpa [demoClient, Dict.get?] using hr.symm
  subst h2
  rcases h with rfl | rfl
  · exact ⟨by simp, by simp⟩
  · refine ⟨?_, by simp⟩
    intro row hrow c hc
    rw [List.mem_singleton] at hrow
    subst hrow
    simp only [demoDecl, List.mem_cons, List.not_mem_nil, or_false] at hc
    rcases hc with rfl | rfl
    · exact ⟨.int 1, rfl, by simp [VFits]⟩
    · exact ⟨.int 1, rfl, by simp [VFits]⟩

theorem demo_declared (rows : List PRow) (env : Sql.Env) (w : Writer) (repr : Json → String) : ∀ u ∈ demoStmts, Fine (declared (demoClient rows).decls) u := by
  have hcols : Same demoTab.columns demoDecl.columns := by
    refine ⟨by decide +kernel, fun n x h => ?_⟩
    rcases demo_col h with ⟨rfl, rfl⟩ | ⟨rfl, rfl⟩
    · exact ⟨⟨false, "int", "k", [("order-preserving", "order-preserving"), ("symmetric", "symmetric")], none, none, none⟩, by decide +kernel, rfl, rfl, rfl, rfl⟩
    · exact ⟨⟨true, "int", "", [], none, none, none⟩, by decide +kernel, rfl, rfl, rfl, rfl⟩
  intro u hu
  refine fine_db ?_ (demo_fine env spc w repr u hu)
  intro t tm ht
  obtain ⟨rfl, rfl⟩ := demo_tab ht
  exact ⟨_, rfl, hcols⟩

/-- The table is created; a row is inserted, found by its encrypted column, changed, deleted and found no more. -/
example (env : Sql.Env) (w : Writer) (repr : Json → String) (res : List Char → Bool) (h : ∀ s ∈ demoNames, w.kw s.toList = false ∧ res s.toList = false) :
    ∃ w', session (demoStart env w repr) ⟨4, res⟩ ⟨[], ⟨[], []⟩⟩
      [.create "CREATE TABLE t (a INT PRIMARY KEY, b INT)".toList demoDecl.opts demoEnv, .stmt "INSERT INTO t (a, b) VALUES (1, 1)".toList,
        .stmt "SELECT b FROM t WHERE a = 1".toList, .stmt "UPDATE t SET b = 1 WHERE a = 1".toList, .stmt "DELETE FROM t WHERE a = 1".toList,
        .stmt "SELECT b FROM t WHERE a = 1".toList] = some (w', [[], [], [[.int 1]], [], [], []]) := by
  have hf : ∀ rows, ∀ u ∈ demoStmts, Fine (declared (demoClient rows).decls) u := fun rows => demo_declared rows env w repr
  have := C84_fresh_partial (P := demoStart env w repr) (B := ⟨4, res⟩) ⟨0, rfl⟩ (by intro k z; simp [demoStart, demoCrypto]) rfl
    (qs := [.create "CREATE TABLE t (a INT PRIMARY KEY, b INT)".toList demoDecl.opts demoEnv, .stmt "INSERT INTO t (a, b) VALUES (1, 1)".toList,
        .stmt "SELECT b FROM t WHERE a = 1".toList, .stmt "UPDATE t SET b = 1 WHERE a = 1".toList, .stmt "DELETE FROM t WHERE a = 1".toList,
        .stmt "SELECT b FROM t WHERE a = 1".toList]) (us := .create "t" demoDecl :: demoStmts.map .stmt)
    ⟨.create (trimmed_self fun c hc => by simp at hc; subst hc; decide) asks_create, ⟨rfl, demo_roomy, demo_fresh h⟩,
      .stmt (says_insert env), ⟨hf _ _ (by simp [demoStmts]), demo_fits (Or.inr rfl)⟩,
      .stmt (says_select env), ⟨hf _ _ (by simp [demoStmts]), demo_fits (Or.inr rfl)⟩,
      .stmt (says_update env), ⟨hf _ _ (by simp [demoStmts]), demo_fits (Or.inr rfl)⟩,
      .stmt (says_delete env), ⟨hf _ _ (by simp [demoStmts]), demo_fits (Or.inl rfl)⟩,
      .stmt (says_select env), ⟨hf _ _ (by simp [demoStmts]), demo_fits (Or.inl rfl)⟩, trivial⟩ (by decide)
  exact this

end EulerDB.Create
