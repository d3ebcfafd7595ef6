/-
C77: the proxy in front of the database answers a statement as the database itself does, when it is given the same characters.
-/
import Verif.Whole.Direct
import Verif.Whole.Examples

namespace EulerDB.Whole

open EulerDB EulerDB.Clause EulerDB.Delta

theorem zip_plain {dq : Bool} : ∀ {ns : List String} {vs : List DbVal}, (∀ v ∈ vs, GoodVal dq v) → plainRow (ns.zip (vs.map toVal)) = ns.zip vs
  | [], _, _ => rfl
  | _ :: _, [], _ => rfl
  | n :: ns, v :: vs, h => by
    have := zip_plain (ns := ns) (vs := vs) fun w hw => h w (by simp [hw])
    simp only [plainRow] at this
    simp only [plainRow, List.map_cons, List.zip_cons_cons, db_toVal (h v (by simp)), this]

theorem sets_plain {dq : Bool} : ∀ {ss : List (String × DbVal)}, (∀ e ∈ ss, GoodVal dq e.2) → ((ss.map fun e => (e.1, toVal e.2)).map fun e => (e.1, e.2.db)) = ss
  | [], _ => rfl
  | e :: ss, h => by
    have := sets_plain (ss := ss) fun w hw => h w (by simp [hw])
    rw [List.map_cons, List.map_cons, this, db_toVal (h e (by simp))]

/-- The statement that a text says, and what the database without encryption does with it. -/
theorem found_says {P : Proxy} (hsp : Strips P.space) {sql body s e : List Char} (hd : Ended P.space sql body) (hb : body = s ++ e) (he : Blank e) (hf : Fin' s)
    {m : MStmt} {dq : Bool} (hs : SpStmt P.env s m) (hg : m.Good dq) (hm : m.Fit P.db) {pst : PTables} {bst : Tables} (hR : Rel P pst bst) :
    ∃ u out, Says P.env P.space sql u ∧ Fine P.db u ∧ exec (plain pst) m = some (plain (pexec pst u).1, out) ∧
      out.map (fun l => l.map plainVal) = (pexec pst u).2 := by
  have htr := trimmed_of hsp hd hb he hf
  cases m with
  | insert t ns vs =>
    obtain ⟨cols, rows, h1, h2, h3⟩ := hs
    obtain ⟨hl, hfine⟩ := hm
    have hz : ((ns.zip (vs.map toVal)).map Prod.fst) = ns := by
      rw [List.map_fst_zip]
      simp [hl]
    have hz2 : ((ns.zip (vs.map toVal)).map fun e => e.2.rhs) = vs.map fun v => (toVal v).rhs := by
      have : ((ns.zip (vs.map toVal)).map Prod.snd) = vs.map toVal := by
        rw [List.map_snd_zip]
        simp [hl]
      have h := congrArg (List.map Val.rhs) this
      rw [List.map_map, List.map_map] at h
      exact h
    have hz3 : plainRow (ns.zip (vs.map toVal)) = ns.zip vs := zip_plain hg.2.2
    obtain ⟨tm, ht, _, hnd, _⟩ := id hfine
    obtain ⟨prows, hp, _⟩ := rel_rows hR ht
    refine ⟨.insert t (ns.zip (vs.map toVal)), [], ?_, hfine, ?_, rfl⟩
    · have := Says.insert (row := ns.zip (vs.map toVal)) htr h1 (by rw [hz, h2]) (by rw [hz2, h3])
      rwa [show Sql.strOf t.toList = t from by simp [Sql.strOf]] at this
    · rw [hz] at hnd
      simp only [exec, get_plain hp, pexec, hp, Option.getD_some]
      rw [if_pos ⟨hnd, hl⟩, ← set_plain]
      simp [hz3]
  | select ns t w =>
    obtain ⟨v, h1, h2⟩ := hs
    obtain ⟨tm, ht, hpt, hne, hr, hw⟩ := hm
    obtain ⟨x, h3, h4⟩ := agree_of h2 hw
    obtain ⟨prows, hp, hk⟩ := rel_rows hR ht
    obtain ⟨out, h5, h6⟩ := mapM_rows hr (rows := prows.filter (selected x)) fun row hrow => by
      obtain ⟨brow, hb'⟩ := hk row (List.mem_filter.1 hrow).1
      exact hb'.vals
    refine ⟨.select t ns x, out, .select htr h1 h3, ⟨tm, ht, hpt, hne, hr, h4.1⟩, ?_, ?_⟩
    · simp only [exec, get_plain hp, pexec]
      rw [pick_plain h4 fun row hrow => (hk row hrow).elim fun _ h => h.kinds]
      simp [h5]
    · simp only [pexec, hp, Option.getD_some, h6]
  | update t ss w =>
    obtain ⟨l, v, h1, h2, h3⟩ := hs
    obtain ⟨tm, ht, hne, hnd, hall, hw⟩ := hm
    obtain ⟨x, h4, h5⟩ := agree_of h3 hw
    obtain ⟨prows, hp, hk⟩ := rel_rows hR ht
    have hmap : ((ss.map fun e => (e.1, toVal e.2)).map Prod.fst) = ss.map Prod.fst := by rw [List.map_map]; rfl
    have hback : ((ss.map fun e => (e.1, toVal e.2)).map fun e => (e.1, e.2.db)) = ss := sets_plain fun e he => (hg.2.1 e he).2
    refine ⟨.update t (ss.map fun e => (e.1, toVal e.2)) x, [], ?_, ?_, ?_, rfl⟩
    · have := Says.update (sets := ss.map fun e => (e.1, toVal e.2)) htr h1 (by rw [h2, List.map_map]; rfl) h4
      rwa [show Sql.strOf t.toList = t from by simp [Sql.strOf]] at this
    · refine ⟨tm, ht, by simpa using hne, by rw [hmap]; exact hnd, ?_, h5.1⟩
      intro e he
      obtain ⟨e', he', rfl⟩ := List.mem_map.1 he
      exact hall e' he'
    · simp only [exec, get_plain hp]
      rw [if_pos, change_plain h5 (g := fun row => some (setAll (ss.map fun e => (e.1, toVal e.2)) row)), flatMap_map]
      · simp only [pexec, hp, Option.getD_some, Option.map_some, set_plain]
      · intro row
        simp only [Option.map_some, ← setAll_plain, hback, assign_eq]
      · exact fun row hrow => (hk row hrow).elim fun _ h => h.kinds
      · rw [List.all_eq_true]
        intro e he
        rw [List.all_eq_true]
        intro row hrow
        obtain ⟨prow, hpr, rfl⟩ := List.mem_map.1 hrow
        obtain ⟨cm, hc, _⟩ := hall e he
        obtain ⟨_, hb'⟩ := hk prow hpr
        obtain ⟨v', hv', _⟩ := hb'.vals e.1 cm hc
        rw [plainRow, get?_map, hv']
        rfl
  | delete t w =>
    obtain ⟨v, h1, h3⟩ := hs
    obtain ⟨tm, ht, hw⟩ := hm
    obtain ⟨x, h4, h5⟩ := agree_of h3 hw
    obtain ⟨prows, hp, hk⟩ := rel_rows hR ht
    refine ⟨.delete t x, [], ?_, ⟨tm, ht, h5.1⟩, ?_, rfl⟩
    · have := Says.delete (w := x) htr h1 h4
      rwa [show Sql.strOf t.toList = t from by simp [Sql.strOf]] at this
    · simp only [exec, get_plain hp]
      rw [change_plain h5 (g := fun _ => none) (fun _ => rfl) fun row hrow => (hk row hrow).elim fun _ h => h.kinds, flatMap_filter]
      simp only [pexec, hp, Option.getD_some, Option.map_some, set_plain]

/-- What is asked of a text that is sent: the database reads it as a statement (perhaps without the semicolons at its end); it has no backslash; its names are
no words that the proxy reserves; its strings have no quotes that the proxy reads in another way; it fits the tables. -/
structure Common (res : List Char → Bool) (P : Proxy) (sql : List Char) (m : MStmt) : Prop where
  read : ∃ body, Ended P.space sql body ∧ readStmt res body = some m ∧ '\\' ∉ body ∧ m.Good (decide ('"' ∈ body))
  fit : m.Fit P.db

/-- One statement.  The database without encryption answers, with the rows `out`; the proxy, given the same characters, answers the same, and the tables of its
backend still hold those of the database. -/
theorem C77_statement_partial {P : Proxy} {res : List Char → Bool} (hP : Sound P res) (hsp : Strips P.space) {pst : PTables} {bst : Tables} (hR : Rel P pst bst)
    {sql : List Char} {m : MStmt} (h : Common res P sql m) :
    ∃ pst' bst' out, exec (plain pst) m = some (plain pst', out) ∧ P.serve res bst sql = some (bst', out.map fun l => l.map plainVal) ∧ Rel P pst' bst' := by
  obtain ⟨⟨body, hd, hr, hb, hg⟩, hm⟩ := h
  obtain ⟨s, e, h1, h2, h3, h4⟩ := read_found res P.env hr hb (fun h => decide_eq_true h) hg
  obtain ⟨u, out, h5, h6, h7, h8⟩ := found_says hsp hd h1 h2 h4 h3 hg hm hR
  obtain ⟨bst', h9, h10⟩ := serve_says hP hR h5 h6
  exact ⟨_, bst', out, h7, by rw [h8]; exact h9, h10⟩

/-- A session with the database without encryption: it reads the statements one after the other. -/
def direct (st : Tables) : List MStmt → Option (Tables × List (List (List DbVal)))
  | [] => some (st, [])
  | m :: r =>
    match exec st m with
    | none => none
    | some (st', out) =>
      match direct st' r with
      | none => none
      | some (st'', outs) => some (st'', out :: outs)

/-- Any number of statements. -/
theorem C77_session_partial {P : Proxy} {res : List Char → Bool} (hP : Sound P res) (hsp : Strips P.space) {sqls : List (List Char)} {ms : List MStmt}
    (h : List.Forall₂ (Common res P) sqls ms) : ∀ {pst : PTables} {bst : Tables}, Rel P pst bst →
    ∃ pst' bst' outs, direct (plain pst) ms = some (plain pst', outs) ∧
      P.session res bst sqls = some (bst', outs.map fun out => out.map fun l => l.map plainVal) ∧ Rel P pst' bst' := by
  induction h with
  | nil => exact fun {pst bst} hR => ⟨pst, bst, [], rfl, rfl, hR⟩
  | cons h _ ih =>
    intro pst bst hR
    obtain ⟨pst1, bst1, out, h1, h2, h3⟩ := C77_statement_partial hP hsp hR h
    obtain ⟨pst2, bst2, outs, h4, h5, h6⟩ := ih h3
    exact ⟨pst2, bst2, out :: outs, by rw [direct, h1]; simp only [h4], by rw [Proxy.session, h2]; simp only [h5, List.map_cons], h6⟩

/-! ### Texts that only the database reads -/

/-- A table may have a name that the proxy reserves: the database deletes its rows, the proxy refuses. -/
theorem C77_fails_reserved {P : Proxy} {res : List Char → Bool} (hsp : Strips P.space) {w : String} (hw : w ∈ Sql.lostNames) (st bst : Tables) (rows : List Row)
    (ht : Dict.get? st w = some rows) : readStmt (fun _ => false) ("DELETE FROM ".toList ++ w.toList) = some (.delete w none) ∧
      exec st (.delete w none) = some (Dict.set st w [], []) ∧ P.serve res bst ("DELETE FROM ".toList ++ w.toList) = none := by
  have hlast : ∀ w ∈ Sql.lostNames, Fin' w.toList := by
    intro w hw
    have : ∀ w ∈ Sql.lostNames, ∃ c, w.toList = w.toList.dropLast ++ [c] ∧ finChar c = true := by
      intro w hw
      have h : ∀ w ∈ Sql.lostNames, ∃ c ∈ w.toList.getLast?, finChar c = true := by decide
      obtain ⟨c, h1, h2⟩ := h w hw
      exact ⟨c, (List.dropLast_append_getLast? c h1).symm, h2⟩
    obtain ⟨c, h1, h2⟩ := this w hw
    exact ⟨_, c, h1, h2⟩
  refine ⟨?_, ?_, ?_⟩
  · clear ht
    revert w
    decide +kernel
  · simp only [exec, ht]
    have : ∀ rows : List Row, change none (fun _ => none) rows = some [] := by
      intro rows
      induction rows with
      | nil => rfl
      | cons r rows ih => simp [change, concerns, ih]
    rw [this]
    rfl
  · have htr := trimmed_of hsp (ended_self P.space _) (List.append_nil _).symm (by simp [Blank]) ((hlast w hw).append "DELETE FROM ".toList)
    have h1 : Sql.Kw "delete" ("DELETE FROM ".toList ++ w.toList) (" FROM ".toList ++ w.toList) := ⟨[], "DELETE".toList, .nil, rfl, rfl, rfl⟩
    have h2 : Sql.Kw "from" (" FROM ".toList ++ w.toList) (' ' :: w.toList) := ⟨[' '], "FROM".toList, Sql.gap_space, rfl, rfl, rfl⟩
    have h3 : Sql.Kw w (' ' :: w.toList) [] := ⟨[' '], w.toList, Sql.gap_space, by clear ht htr h1 h2; revert w; decide, rfl, by simp⟩
    have hrej := Sql.C70_fails_reserved P.env P.space hw htr h1 h2 h3
    have halt : Alter.parseAlter P.w.uni ("DELETE FROM ".toList ++ w.toList) = [] := by
      have := no_alter P.w.uni (w := "delete") (by simp) h1 (more := [])
      rwa [List.append_nil] at this
    obtain ⟨sql, hsql⟩ : ∃ sql, sql = "DELETE FROM ".toList ++ w.toList := ⟨_, rfl⟩
    rw [← hsql] at hrej halt ⊢
    simp [Proxy.serve, Proxy.send, Proxy.parsed, halt, hrej]

/-! ### A session -/

theorem strips_space : Strips space where
  blank := fun _ h => h
  fin := by
    intro c h
    cases hs : space c with
    | false => rfl
    | true =>
      simp only [space, Bool.or_eq_true, beq_iff_eq] at hs
      rcases hs with ((rfl | rfl) | rfl) | rfl <;> exact absurd h (by decide)
  semi := by decide

def demoTexts : List (List Char) :=
  ["insert into t(a,b) values (1, 1)".toList, "SELECT b FROM t WHERE (a=1 or b<3) AND b = 1 ".toList, "Update t Set b=2 Where a>=1;  ".toList, "SELECT b,a FROM t;".toList]

def demoCond : MEx := .and (.or (.cmp .eq (.name "a") (.int 1)) (.cmp .lt (.name "b") (.int 3))) (.cmp .eq (.name "b") (.int 1))

def demoReads : List MStmt :=
  [.insert "t" ["a", "b"] [.int 1, .int 1], .select ["b"] "t" (some demoCond), .update "t" [("b", .int 2)] (some (.cmp .gte (.name "a") (.int 1))),
    .select ["b", "a"] "t" none]

theorem good_t : GoodName "t" := ⟨⟨by decide, 't', [], rfl, by decide⟩, by decide +kernel⟩
theorem good_a : GoodName "a" := ⟨⟨by decide, 'a', [], rfl, by decide⟩, by decide +kernel⟩
theorem good_b : GoodName "b" := ⟨⟨by decide, 'b', [], rfl, by decide⟩, by decide +kernel⟩

theorem demo_reads (env : Sql.Env) (w : Writer) (repr : Json → String) : List.Forall₂ (Common (fun _ => false) (demoProxy env space w repr)) demoTexts demoReads := by
  have hfine := demo_fine env space w repr
  have hsp : ∀ l : List Char, (∀ c ∈ l, space c = true) → ∀ c ∈ l, (demoProxy env space w repr).space c = true := fun _ h => h
  have hpt : PlainTable "t" := by simp [PlainTable, pyIn, isSub]; decide
  have ha : Readable demoTab.columns "a" := ⟨by simp, by decide, _, _, rfl, rfl⟩
  have hb : Readable demoTab.columns "b" := ⟨by simp, by decide, _, _, rfl, rfl⟩
  have hge : Typed demoTab.columns (.cmp .gte "a" 1) := ⟨_, rfl, rfl, fun _ => ⟨by simp [Clause.Int64], _, rfl⟩⟩
  refine .cons ⟨⟨_, ended_self _ _, by decide +kernel, by decide, good_t, ?_, ?_⟩, rfl, hfine _ (by simp [demoStmts, toVal])⟩
    (.cons ⟨⟨_, ended_self _ _, by decide +kernel, by decide, ?_, good_t, ⟨⟨good_a, trivial⟩, good_b, trivial⟩, good_b, trivial⟩, demoTab, rfl, hpt, by simp, ?_, ?_⟩
    (.cons ⟨⟨"Update t Set b=2 Where a>=1".toList, ⟨[';'], [' ', ' '], rfl, by decide, hsp _ (by decide), fun _ c hc => ?_⟩, by decide +kernel, by decide, good_t, ?_, good_a, trivial⟩,
      demoTab, rfl, by simp, by simp, ?_, hge⟩
    (.cons ⟨⟨"SELECT b,a FROM t".toList, ⟨[';'], [], rfl, by decide, hsp _ (by decide), fun _ c hc => ?_⟩, by decide +kernel, by decide, ?_, good_t, trivial⟩,
      demoTab, rfl, hpt, by simp, ?_, trivial⟩ .nil)))
  · intro n hn
    simp only [List.mem_cons, List.not_mem_nil, or_false] at hn
    rcases hn with rfl | rfl
    · exact good_a
    · exact good_b
  · intro v hv
    simp only [List.mem_cons, List.not_mem_nil, or_false, or_self] at hv
    subst hv
    exact trivial
  · intro n hn
    simp only [List.mem_singleton] at hn
    exact hn ▸ good_b
  · intro n hn
    simp only [List.mem_singleton] at hn
    exact hn ▸ hb
  · exact ⟨⟨⟨_, rfl, rfl, fun _ => ⟨by simp [Clause.Int64], _, rfl⟩⟩, ⟨_, rfl, rfl, fun h => by cases h⟩⟩, ⟨_, rfl, rfl, fun h => by cases h⟩⟩
  · simp at hc
    subst hc
    decide
  · intro e he
    simp only [List.mem_singleton] at he
    subst he
    exact ⟨good_b, trivial⟩
  · intro e he
    simp only [List.mem_singleton] at he
    subst he
    exact ⟨_, rfl, rfl, fun h => by cases h⟩
  · simp at hc
    subst hc
    decide
  · intro n hn
    simp only [List.mem_cons, List.not_mem_nil, or_false] at hn
    rcases hn with rfl | rfl
    · exact good_b
    · exact good_a
  · intro n hn
    simp only [List.mem_cons, List.not_mem_nil, or_false] at hn
    rcases hn with rfl | rfl
    · exact hb
    · exact ha

/-- The four texts, given to the proxy, are answered as by the database itself. -/
example (env : Sql.Env) (w : Writer) (repr : Json → String) (h : ∀ s ∈ demoNames, w.kw s.toList = false) :
    direct [("t", [])] demoReads = some ([("t", [[("a", .int 1), ("b", .int 2)]])], [[], [[.int 1]], [], [[.int 2, .int 1]]]) ∧
    ∃ bst', (demoProxy env space w repr).session (fun _ => false) [("table_0", [])] demoTexts = some (bst', [[], [[.int 1]], [], [[.int 2, .int 1]]]) := by
  have hd : direct [("t", [])] demoReads = some ([("t", [[("a", .int 1), ("b", .int 2)]])], [[], [[.int 1]], [], [[.int 2, .int 1]]]) := rfl
  refine ⟨hd, ?_⟩
  have hR : Rel (demoProxy env space w repr) [("t", [])] [("table_0", [])] := by
    intro t tm ht
    obtain ⟨rfl, rfl⟩ := demo_tab ht
    exact ⟨[], [], rfl, rfl, .nil⟩
  obtain ⟨pst', bst', outs, h1, h2, _⟩ := C77_session_partial (demo_sound (env := env) (space := space) (repr := repr) fun s hs => ⟨h s hs, rfl⟩) strips_space
    (demo_reads env w repr) hR
  rw [show plain [("t", [])] = [("t", [])] from rfl, hd] at h1
  simp only [Option.some.injEq, Prod.mk.injEq] at h1
  rw [← h1.2] at h2
  exact ⟨bst', h2⟩

end EulerDB.Whole
