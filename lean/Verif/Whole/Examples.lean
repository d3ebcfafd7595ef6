/-
C71: a session that meets all that is asked, and statements that do something else than they say.
-/
import Verif.Whole.Serve
import Verif.Sql.StmtFails
import Verif.Clause.WholeProps

namespace EulerDB.Whole

open EulerDB EulerDB.Clause EulerDB.Delta

/-! ### A session -/

/-- Column `a` is encrypted, column `b` is not. -/
def demoTab : TableMeta ColMeta :=
  ⟨"table_0", [("a", ⟨false, "int", "k", [("order-preserving", "a_o"), ("symmetric", "a_s")], none, none, none⟩),
    ("b", ⟨true, "int", "", [], none, none, none⟩)], none⟩

/-- Whatever is left open of Python and of MySQL, but none of the four names is a keyword. -/
def demoProxy (env : Sql.Env) (space : Char → Bool) (w : Writer) (repr : Json → String) : Proxy :=
  ⟨demoCrypto, [("t", demoTab)], env, space, w, repr, 1, 3, fun _ _ => .error .typeError, fun _ => none⟩

def demoNames : List String := ["table_0", "a_o", "a_s", "b"]

theorem demo_bare {w : Writer} {res : List Char → Bool} (h : ∀ s ∈ demoNames, w.kw s.toList = false ∧ res s.toList = false) : ∀ s ∈ demoNames, Bare w res s := by
  intro s hs
  have hc : ∀ s ∈ demoNames, (∀ c ∈ s.toList, c.isAlphanum = true ∨ c = '_') ∧ (∀ c ∈ s.toList.head?, Format.letter c = true) ∧ s.toList ≠ [] := by decide
  obtain ⟨h1, h2, h3⟩ := hc s hs
  exact ⟨h1, h2, h3, (h s hs).1, (h s hs).2⟩

theorem demo_tab {env : Sql.Env} {space : Char → Bool} {w : Writer} {repr : Json → String} {t : String} {tm : TableMeta ColMeta}
    (h : Dict.get? (demoProxy env space w repr).db t = some tm) : t = "t" ∧ tm = demoTab := by
  have := Dict.mem_of_get? h
  simpa [demoProxy] using this

theorem demo_col {n : String} {cm : ColMeta} (h : Dict.get? demoTab.columns n = some cm) :
    (n = "a" ∧ cm = ⟨false, "int", "k", [("order-preserving", "a_o"), ("symmetric", "a_s")], none, none, none⟩) ∨
      (n = "b" ∧ cm = ⟨true, "int", "", [], none, none, none⟩) := by
  have := Dict.mem_of_get? h
  simpa [demoTab] using this

theorem demo_sound {env : Sql.Env} {space : Char → Bool} {w : Writer} {repr : Json → String} {res : List Char → Bool}
    (h : ∀ s ∈ demoNames, w.kw s.toList = false ∧ res s.toList = false) : Sound (demoProxy env space w repr) res where
  depth := ⟨0, rfl⟩
  hom := by intro k z; simp [demoProxy, demoCrypto]
  tables := by
    intro t t' tm tm' h1 h2 _
    rw [(demo_tab h1).1, (demo_tab h2).1]
  named := by
    intro t tm h1
    obtain ⟨rfl, rfl⟩ := demo_tab h1
    have hb := demo_bare h
    refine ⟨hb _ (by decide), ?_, ?_⟩
    · intro n cm hc hp
      rcases demo_col hc with ⟨rfl, rfl⟩ | ⟨rfl, rfl⟩
      · cases hp
      · exact hb _ (by decide)
    · intro n cm hc hp e b he
      rcases demo_col hc with ⟨rfl, rfl⟩ | ⟨rfl, rfl⟩
      · simp only [List.mem_cons, Prod.mk.injEq, List.not_mem_nil, or_false] at he
        rcases he with ⟨rfl, rfl⟩ | ⟨rfl, rfl⟩
        · exact hb _ (by decide)
        · exact hb _ (by decide)
      · cases hp
  known := by
    intro t tm h1 n cm hc hp
    obtain ⟨rfl, rfl⟩ := demo_tab h1
    rcases demo_col hc with ⟨rfl, rfl⟩ | ⟨rfl, rfl⟩
    · decide
    · cases hp
  stored := by
    intro t tm h1 n cm hc hp
    obtain ⟨rfl, rfl⟩ := demo_tab h1
    rcases demo_col hc with ⟨rfl, rfl⟩ | ⟨rfl, rfl⟩
    · simp
    · cases hp
  names := by
    intro t tm h1
    obtain ⟨rfl, rfl⟩ := demo_tab h1
    decide

def spc (c : Char) : Bool := c == ' '

theorem trimmed_self {s : List Char} (h : ∀ c, s.getLast? = some c → spc c = false ∧ c ≠ ';') : Sql.Trimmed spc s s :=
  ⟨h, by decide, [], [], by simp, by simp, by simp⟩

open Sql in
theorem says_insert (env : Env) : Says env spc "INSERT INTO t (a, b) VALUES (1, 1)".toList (.insert "t" [("a", .int 1), ("b", .int 1)]) := by
  refine Says.insert (n := ['t']) (cols := [['a'], ['b']]) (vs := [.int 1, .int 1]) (trimmed_self fun c hc => by simp at hc; subst hc; decide) ?_ rfl rfl
  have ha : SpName reservedWords ['a'] ['a'] := SpName.mk (t := []) (m := []) (.plain ⟨by decide, 'a', [], rfl, by decide⟩) (by decide +kernel) .nil
  have hb : SpName reservedWords ['b'] ['b'] := SpName.mk (t := []) (m := []) (.plain ⟨by decide, 'b', [], rfl, by decide⟩) (by decide +kernel) .nil
  have h0 : ∀ d, After d [] := fun d => ⟨.nil, fun _ => by simp⟩
  exact .mk (s1 := " INTO t (a, b) VALUES (1, 1)".toList) (s2 := " t (a, b) VALUES (1, 1)".toList) (s3 := " (a, b) VALUES (1, 1)".toList)
    (s4 := " VALUES (1, 1)".toList) (t := " (1, 1)".toList) (e := [])
    ⟨[], "INSERT".toList, .nil, rfl, by decide, rfl⟩ ⟨[' '], "INTO".toList, gap_space, rfl, by decide, rfl⟩
    ⟨[' '], ['t'], gap_space, name_t _ (by decide +kernel), fun c hc => by simp at hc; subst hc; decide, by decide, rfl⟩
    (.given (g := [' ']) (t := "a, b".toList) (h := []) gap_space
      (SpList.cons (t := ['a']) (g := []) (u := " b".toList) ⟨rfl, [], ['a'], .nil, ha, rfl⟩ (h0 _) (.one ⟨rfl, [' '], ['b'], gap_space, hb, rfl⟩)) (h0 _))
    ⟨[' '], "VALUES".toList, gap_space, rfl, by decide, rfl⟩
    (.one ⟨rfl, .lit, [' '], "1, 1".toList, [], gap_space,
      SpList.cons (t := ['1']) (g := []) (u := " 1".toList) (spells_one env .nil) (h0 _) (.one (spells_one env gap_space)), h0 _, rfl⟩)
    ⟨.gap .nil, fun _ => by simp⟩

open Sql in
theorem says_select (env : Env) : Says env spc "SELECT b FROM t WHERE a = 1".toList (.select "t" ["b"] (some (.eqInt "a" 1))) := by
  refine Says.select (ns := ["b"]) (t := "t") (v := some (.call "eq" [.name "a", .int 1])) (trimmed_self fun c hc => by simp at hc; subst hc; decide) ?_ rfl
  exact .mk (t := " b".toList) (u := " FROM t WHERE a = 1".toList) (v := " t".toList) (x := " WHERE a = 1".toList) (d := .name) (e := .name)
    ⟨[], "SELECT".toList, .nil, rfl, by decide, rfl⟩ (not_opens (by decide) (by decide) (by decide +kernel)) (.one (.plain (spells_name env) rfl))
    (fun c hc => by simp at hc; subst hc; exact ⟨by decide, fun _ => by decide, fun _ => by decide⟩) ⟨[' '], "FROM".toList, gap_space, rfl, by decide, rfl⟩
    (.one (SpTable.plain (g := [' ']) (t := ['t']) (n := ['t']) gap_space (name_t _ (by decide +kernel)))) (where_eq env .name)

open Sql in
theorem says_update (env : Env) : Says env spc "UPDATE t SET b = 1 WHERE a = 1".toList (.update "t" [("b", .int 1)] (some (.eqInt "a" 1))) := by
  refine Says.update (n := ['t']) (l := [("b", .int 1)]) (v := some (.call "eq" [.name "a", .int 1])) (trimmed_self fun c hc => by simp at hc; subst hc; decide) ?_ rfl rfl
  exact .mk (s1 := " t SET b = 1 WHERE a = 1".toList) (s2 := " SET b = 1 WHERE a = 1".toList) (t := " b = 1".toList) (u := " WHERE a = 1".toList)
    ⟨[], "UPDATE".toList, .nil, rfl, by decide, rfl⟩
    ⟨[' '], ['t'], gap_space, name_t _ (by decide +kernel), fun c hc => by simp at hc; subst hc; decide, by decide, rfl⟩
    ⟨[' '], "SET".toList, gap_space, rfl, by decide, rfl⟩
    (.one (SpAssign.mk (g := [' ']) (t := ['b']) (h := [' ']) (u := " 1".toList) (n := ['b']) gap_space
      (SpName.mk (p := ['b']) (n := ['b']) (t := []) (m := []) (.plain ⟨by decide, 'b', [], rfl, by decide⟩) (by decide +kernel) .nil)
      (after_space .name) (spells_one env gap_space)))
    (where_eq env .lit)

open Sql in
theorem says_delete (env : Env) : Says env spc "DELETE FROM t WHERE a = 1".toList (.delete "t" (some (.eqInt "a" 1))) := by
  refine Says.delete (n := ['t']) (v := some (.call "eq" [.name "a", .int 1])) (trimmed_self fun c hc => by simp at hc; subst hc; decide) ?_ rfl
  exact .mk (s1 := " FROM t WHERE a = 1".toList) (s2 := " t WHERE a = 1".toList) (s3 := " WHERE a = 1".toList) ⟨[], "DELETE".toList, .nil, rfl, by decide, rfl⟩
    ⟨[' '], "FROM".toList, gap_space, rfl, by decide, rfl⟩
    ⟨[' '], ['t'], gap_space, name_t _ (by decide +kernel), fun c hc => by simp at hc; subst hc; decide, by decide, rfl⟩ (where_eq env .name)

def demoStmts : List UStmt :=
  [.insert "t" [("a", .int 1), ("b", .int 1)], .select "t" ["b"] (some (.eqInt "a" 1)), .update "t" [("b", .int 1)] (some (.eqInt "a" 1)),
    .delete "t" (some (.eqInt "a" 1)), .select "t" ["b"] (some (.eqInt "a" 1))]

theorem demo_typed : TypedW demoTab.columns (some (.eqInt "a" 1)) := by
  intro x hx
  simp only [Option.mem_some_iff] at hx
  subst hx
  exact ⟨_, rfl, rfl, fun _ => ⟨by simp [Clause.Int64], _, rfl⟩⟩

theorem demo_fine (env : Sql.Env) (space : Char → Bool) (w : Writer) (repr : Json → String) : ∀ u ∈ demoStmts, Fine (demoProxy env space w repr).db u := by
  have hsel : Fine (demoProxy env space w repr).db (.select "t" ["b"] (some (.eqInt "a" 1))) := by
    refine ⟨demoTab, rfl, by simp [PlainTable, pyIn, isSub]; decide, by simp, ?_, demo_typed⟩
    intro n hn
    simp only [List.mem_singleton] at hn
    subst hn
    exact ⟨by simp, by decide, _, _, rfl, rfl⟩
  intro u hu
  simp only [demoStmts, List.mem_cons, List.not_mem_nil, or_false] at hu
  rcases hu with rfl | rfl | rfl | rfl | rfl
  · refine ⟨demoTab, rfl, by simp, by decide, by decide, ?_⟩
    intro e he
    simp only [List.mem_cons, List.not_mem_nil, or_false] at he
    rcases he with rfl | rfl
    · refine ⟨_, rfl, rfl, ?_, fun s h => by cases h⟩
      intro enc h
      simp only [Dict.keys, List.map_cons, List.map_nil, List.mem_cons, List.not_mem_nil, or_false] at h
      rcases h with rfl | rfl <;> simp (decide := true)
    · refine ⟨_, rfl, rfl, ?_, fun s h => by cases h⟩
      intro enc h
      simp [Dict.keys] at h
  · exact hsel
  · refine ⟨demoTab, rfl, by simp, by simp, ?_, demo_typed⟩
    intro e he
    simp only [List.mem_singleton] at he
    subst he
    exact ⟨_, rfl, rfl, fun h => by cases h⟩
  · exact ⟨demoTab, rfl, demo_typed⟩
  · exact hsel

/-- The row is inserted, found by its encrypted column, changed, deleted and found no more. -/
example (env : Sql.Env) (w : Writer) (repr : Json → String) (res : List Char → Bool) (h : ∀ s ∈ demoNames, w.kw s.toList = false ∧ res s.toList = false) :
    ∃ bst', (demoProxy env spc w repr).session res [("table_0", [])]
      ["INSERT INTO t (a, b) VALUES (1, 1)".toList, "SELECT b FROM t WHERE a = 1".toList, "UPDATE t SET b = 1 WHERE a = 1".toList,
        "DELETE FROM t WHERE a = 1".toList, "SELECT b FROM t WHERE a = 1".toList] = some (bst', [[], [[.int 1]], [], [], []]) := by
  have := C71_fresh_partial (demo_sound (env := env) (space := spc) (repr := repr) h) (pst := [("t", [])]) (bst := [("table_0", [])])
    (fun t tm ht => by obtain ⟨rfl, rfl⟩ := demo_tab ht; rfl) (fun t tm ht => by obtain ⟨rfl, rfl⟩ := demo_tab ht; rfl) (us := demoStmts)
    (.cons (says_insert env) (.cons (says_select env) (.cons (says_update env) (.cons (says_delete env) (.cons (says_select env) .nil))))) (demo_fine env spc w repr)
  exact this

/-! ### Statements that do something else -/

/-- A WHERE inside `/*! .. */`, which MySQL would execute: through the proxy the whole table is deleted. -/
theorem C71_fails_hidden {P : Proxy} {res : List Char → Bool} (hP : Sound P res) {pst : PTables} {bst : Tables} (hR : Rel P pst bst) {sql s s1 s2 b n : List Char}
    {tm : TableMeta ColMeta} (hc : Dict.get? P.db (Sql.strOf n) = some tm) (ht : Sql.Trimmed P.space sql s) (h1 : Sql.Kw "delete" s s1) (h2 : Sql.Kw "from" s1 s2)
    (h3 : Sql.Nm Sql.reservedWords n s2 (' ' :: '/' :: '*' :: '!' :: (b ++ ['*', '/']))) (hb : Sql.closed (b ++ ['*']) = false) :
    ∃ bst', P.serve res bst sql = some (bst', []) ∧ Rel P (Dict.set pst (Sql.strOf n) []) bst' := by
  have hs : Says P.env P.space sql (.delete (Sql.strOf n) none) := by
    refine Says.delete (v := none) ht (.mk h1 h2 h3 (.absent ⟨.gap ?_, fun _ => by simp⟩)) trivial
    exact .white (by decide) (Sql.Gap.block (b := '!' :: b) (g := []) (by simpa [Sql.closed] using hb) .nil)
  have := C71_statement_partial hP hR hs ⟨tm, hc, fun x hx => by cases hx⟩
  simpa [pexec, selected] using this

example : Sql.Kw "delete" "DELETE FROM t /*! WHERE a = 1*/".toList " FROM t /*! WHERE a = 1*/".toList ∧ Sql.closed (" WHERE a = 1".toList ++ ['*']) = false :=
  ⟨⟨[], "DELETE".toList, .nil, rfl, by decide, rfl⟩, by decide⟩

/-- Two dashes that are no comment for MySQL (`SET b = 1--1 WHERE ..`): through the proxy the assignment is made in every row. -/
theorem C71_fails_dashes {P : Proxy} {res : List Char → Bool} (hP : Sound P res) {pst : PTables} {bst : Tables} (hR : Rel P pst bst) {sql s s1 s2 t b n : List Char}
    {l : List (String × Sql.V)} {c : Char} {sets : List (String × Val)} (hf : Fine P.db (.update (Sql.strOf n) sets none)) (ht : Sql.Trimmed P.space sql s)
    (h1 : Sql.Kw "update" s s1) (h2 : Sql.Nm Sql.reservedWords n s1 s2) (h3 : Sql.Kw "set" s2 (t ++ '-' :: '-' :: c :: b)) (h4 : Sql.SpList (Sql.SpAssign P.env) .lit t l)
    (hl : (l.map fun p => (p.1, Sql.scrub p.2)) = sets.map fun e => (e.1, e.2.rhs)) (hb : '\n' ∉ c :: b) (hd : Sql.dashEnd (c :: b) = false) :
    (∃ bst', P.serve res bst sql = some (bst', []) ∧ Rel P (Dict.set pst (Sql.strOf n) (((Dict.get? pst (Sql.strOf n)).getD []).map (setAll sets))) bst') ∧
      Sql.mskip ('-' :: '-' :: c :: b) = some ('-' :: '-' :: c :: b) := by
  refine ⟨?_, (Sql.C68_fails_dashes c b hb hd).2⟩
  have hs : Says P.env P.space sql (.update (Sql.strOf n) sets none) :=
    Says.update (v := none) ht (.mk h1 h2 h3 h4 (.absent ⟨.dashes .nil hb, fun h => by cases h⟩)) hl trivial
  have := C71_statement_partial hP hR hs hf
  simpa [pexec, selected] using this

/-- An INSERT of one value is refused. -/
theorem C71_fails_one_column {P : Proxy} {res : List Char → Bool} {bst : Tables} {sql s n : List Char} {cols : List (List Char)} {v : Sql.V}
    (ht : Sql.Trimmed P.space sql s) (h : Sql.SpInsert P.env s n cols [[v]]) : P.serve res bst sql = none := by
  have hp := Sql.C70_insert_partial P.env P.space ht h (x := []) (es := (if cols.map Sql.strOf = [] then [] else [("columns", Sql.listJson ((cols.map Sql.strOf).map .str))]) ++
    [("query", .dict [("select", .dict [("value", Sql.scrub v)])])]) rfl
  have halt : Alter.parseAlter P.w.uni sql = [] := by
    obtain ⟨u, v, rfl, _, _⟩ := ht.split
    cases h with
    | mk h1 _ _ _ _ _ _ => exact no_alter _ (by simp) h1
  have hpar := parsed_of (P := P) halt hp
  obtain ⟨j, hj, h1, h2⟩ : ∃ j, P.parsed sql = .ok j ∧ Dict.get? j "insert" = some (.str (Sql.strOf n)) ∧
      Dict.get? j "query" = some (.dict [("select", .dict [("value", Sql.scrub v)])]) := by
    refine ⟨_, hpar, ?_, ?_⟩ <;> by_cases hc : cols.map Sql.strOf = [] <;> simp only [hc, if_true, if_false] <;> simp (decide := true) [Dict.get?_cons]
  have hno := C23_fails_single_column P.c P.db P.fuel j _ _ h1 h2
  cases hr : rewriteQuery P.c P.db P.fuel j with
  | ok r => exact absurd ⟨r, hr⟩ hno
  | error e => simp [Proxy.serve, Proxy.send, hj, hr]

theorem like_short {c : Crypto} {key s : String} (h0 : '%' ∉ s.toList) (h1 : s.toList ≠ []) (h2 : s.toList.length < 3) : ∃ e, c.like key s = .error e := by
  unfold Crypto.like Fuzzy.likeRewrite
  rw [Fuzzy.splitPct_word _ (fun ch hch he => h0 (he ▸ hch))]
  simp [Fuzzy.encWords, h1, h2, Except.map]

theorem setCols_ok {c : Crypto} {db : Db} {t key : String} {v : Json} {m : Dict String String} {acc out : Dict String Json}
    (h : setCols c db t key v m acc = .ok out) : ∀ p ∈ m, ∃ x, whereRw c db (.str t) p.1 key v = .ok x := by
  induction m generalizing acc with
  | nil => intro p hp; simp at hp
  | cons q m ih =>
    intro p hp
    obtain ⟨e, b⟩ := q
    rw [setCols] at h
    cases hx : whereRw c db (.str t) e key v with
    | error e => simp [hx] at h
    | ok x =>
      simp only [hx] at h
      rcases List.mem_cons.1 hp with rfl | hp
      · exact ⟨x, hx⟩
      · exact ih h p hp

theorem setLoop_ok {c : Crypto} {db : Db} {t : String} {cols : Dict String ColMeta} : ∀ {sets acc out : Dict String Json}, setLoop c db t cols sets acc = .ok out →
    ∀ e ∈ sets, ∀ cm, Dict.get? cols e.1 = some cm → cm.plaintext = false → ∀ p ∈ cm.encCols, ∃ x, whereRw c db (.str t) p.1 cm.key e.2 = .ok x
  | [], _, _, _, e, he, _, _, _, _, _ => by simp at he
  | (k, v) :: sets, acc, out, h, e, he, cm, hc, hp, p, hpm => by
    rw [setLoop] at h
    cases hg : Dict.getItem cols k with
    | error e => simp [hg] at h
    | ok cm' =>
      simp only [hg] at h
      by_cases hpl : cm'.plaintext = true
      · rw [if_pos hpl] at h
        rcases List.mem_cons.1 he with rfl | he
        · rw [getItem_ok] at hg
          simp only at hc
          rw [hg] at hc
          injection hc with hc
          subst hc
          rw [hpl] at hp
          cases hp
        · exact setLoop_ok h e he cm hc hp p hpm
      · rw [if_neg hpl] at h
        cases hs : setCols c db t cm'.key v cm'.encCols acc with
        | error e => simp [hs] at h
        | ok acc' =>
          simp only [hs] at h
          rcases List.mem_cons.1 he with rfl | he
          · rw [getItem_ok] at hg
            simp only at hc
            rw [hg] at hc
            injection hc with hc
            subst hc
            exact setCols_ok hs p hpm
          · exact setLoop_ok h e he cm hc hp p hpm

/-- A text of one or two characters cannot be assigned to a column with the fuzzy cipher. -/
theorem C71_fails_short {P : Proxy} {res : List Char → Bool} {bst : Tables} {sql : List Char} {t : String} {sets : List (String × Val)} {w : Option Cond}
    (hs : Says P.env P.space sql (.update t sets w)) (hd : (sets.map Prod.fst).Nodup) {tm : TableMeta ColMeta} (htm : Dict.get? P.db t = some tm) {n : String} {s : String}
    (hm : (n, Val.text s) ∈ sets) {cm : ColMeta} (hc : Dict.get? tm.columns n = some cm) (hp : cm.plaintext = false) {b : String} (hb : ("fuzzy", b) ∈ cm.encCols)
    (h0 : '%' ∉ s.toList) (h1 : s.toList ≠ []) (h2 : s.toList.length < 3) : P.serve res bst sql = none := by
  have hpar : P.parsed sql = .ok (updateIn t sets w) := by
    cases hs with
    | @update s n l v w sets ht h hl hw =>
      have hp := Sql.C70_update_partial P.env P.space ht h (by
        have := congrArg (List.map Prod.fst) hl
        simp only [List.map_map, Function.comp_def] at this
        exact this ▸ hd)
      rw [hl, saysW_json hw] at hp
      obtain ⟨u, v, rfl, _, _⟩ := ht.split
      cases h with
      | mk h1 _ _ _ _ => exact parsed_of (no_alter _ (by simp) h1) hp
  have hno : ∀ r, rewriteQuery P.c P.db P.fuel (updateIn t sets w) ≠ .ok r := by
    rintro ⟨j', table, sel⟩ h
    obtain ⟨htab, hk⟩ := rewriteQuery_spec h
    have hset : Dict.get? (updateIn t sets w) "set" = some (.dict (sets.map fun e => (e.1, e.2.rhs))) := by simp [updateIn, Dict.get?_cons]
    obtain ⟨v', s1, s2, h3, _⟩ := ((hk "set").2 (by decide)).2 _ hset
    have htable : table = .str t := by
      cases w <;> simp (decide := true) [updateIn, whereIn, findTable, tableKeys, Dict.get?_cons] at htab <;> exact htab.symm
    subst htable
    have htab' : tableOf P.db t = .ok tm := getItem_ok.2 htm
    simp (decide := true) only [oneStep, stepKey, if_true, if_false, setRw, htab'] at h3
    cases hl : setLoop P.c P.db t tm.columns (sets.map fun e => (e.1, e.2.rhs)) [] with
    | error e => simp [hl, Except.map] at h3
    | ok out =>
      obtain ⟨x, hx⟩ := setLoop_ok hl (n, (Val.text s).rhs) (List.mem_map.2 ⟨(n, .text s), hm, rfl⟩) cm hc hp _ hb
      obtain ⟨e, he⟩ := like_short (c := P.c) (key := cm.key) h0 h1 h2
      simp (decide := true) [Val.rhs, Json.lit, whereRw, whereDict, rewriteLeaf, he, Except.map] at hx
  cases hr : rewriteQuery P.c P.db P.fuel (updateIn t sets w) with
  | ok r => exact absurd hr (hno r)
  | error e => simp [Proxy.serve, Proxy.send, hpar, hr]

end EulerDB.Whole
