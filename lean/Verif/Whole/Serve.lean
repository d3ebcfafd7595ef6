/-
C71: a statement through the proxy does what it means.
-/
import Verif.Whole.SessionProps

namespace EulerDB.Whole

open EulerDB EulerDB.Clause EulerDB.Delta

/-! ### What is parsed -/

/-- The parsed statement. -/
def UStmt.json : UStmt → Dict String Json
  | .insert t row => insertJson t row
  | .select t ns w => selectIn ns t w
  | .update t sets w => updateIn t sets w
  | .delete t w => deleteIn t w

theorem saysW_json {v : Option Sql.V} {w : Option Cond} (h : SaysW v w) : Sql.whereJson v = whereIn w := by
  cases v <;> cases w <;> simp_all [SaysW, Sql.whereJson, whereIn]

theorem parsed_of {P : Proxy} {sql : List Char} {d : Dict String Json} (h1 : Alter.parseAlter P.w.uni sql = []) (h2 : Sql.parse P.env P.space sql = .json (.dict d)) :
    P.parsed sql = .ok d := by
  simp [Proxy.parsed, h1, h2]

theorem listJson_cols : ∀ {ns : List String}, ns ≠ [] → Sql.listJson (ns.map fun n => .dict [("value", .str n)]) = colsIn ns
  | [], h => absurd rfl h
  | [_], _ => rfl
  | _ :: _ :: _, _ => rfl

theorem row_json : ∀ {vs : List Sql.V} {row : List (String × Val)}, vs.map Sql.scrub = row.map (fun e => e.2.rhs) →
    (vs.map fun v => Json.dict [("value", Sql.scrub v)]) = row.map fun e => e.2.json
  | [], [], _ => rfl
  | [], _ :: _, h => by simp at h
  | _ :: _, [], h => by simp at h
  | v :: vs, (n, x) :: row, h => by
    simp only [List.map_cons, List.cons.injEq] at h
    rw [List.map_cons, List.map_cons, row_json h.2, h.1]
    cases x <;> rfl

theorem insert_entries {cols : List (List Char)} {vs : List Sql.V} {row : List (String × Val)} (h1 : cols.map Sql.strOf = row.map Prod.fst)
    (h2 : vs.map Sql.scrub = row.map (fun e => e.2.rhs)) (h : 2 ≤ row.length) :
    Sql.insertEntries (cols.map Sql.strOf) [vs] =
      .ok [("columns", .list (row.map fun e => .str e.1)), ("query", .dict [("select", .list (row.map fun e => e.2.json))])] [] := by
  obtain ⟨e1, e2, r, rfl⟩ : ∃ e1 e2 r, row = e1 :: e2 :: r := by
    match row, h with
    | e1 :: e2 :: r, _ => exact ⟨e1, e2, r, rfl⟩
  have hj := row_json h2
  match vs, h2 with
  | [_], h2 => simp at h2
  | v1 :: v2 :: vs, _ =>
    rw [Sql.insertEntries, h1]
    simp only [Sql.rowJson]
    rw [hj]
    simp [Sql.listJson, Function.comp_def]

theorem parsed_says {P : Proxy} {sql : List Char} {u : UStmt} (hs : Says P.env P.space sql u) (hf : Fine P.db u) : P.parsed sql = .ok u.json := by
  cases hs with
  | @insert s n cols vs row ht h h1 h2 =>
    obtain ⟨tm, _, hl, _⟩ := hf
    have hp := Sql.C70_insert_partial P.env P.space ht h (insert_entries h1 h2 hl)
    obtain ⟨u, v, rfl, _, _⟩ := ht.split
    cases h with
    | mk h1 _ _ _ _ _ _ => exact parsed_of (no_alter _ (by simp) h1) hp
  | @select s ns t v w ht h hw =>
    obtain ⟨tm, _, _, hns, _⟩ := hf
    have hp := Sql.C70_select_partial P.env P.space ht h
    rw [listJson_cols hns, saysW_json hw] at hp
    obtain ⟨u, v, rfl, _, _⟩ := ht.split
    cases h with
    | mk h1 _ _ _ _ _ _ => exact parsed_of (no_alter _ (by simp) h1) hp
  | @update s n l v w sets ht h hl hw =>
    obtain ⟨tm, _, _, hnd, _⟩ := hf
    have hp := Sql.C70_update_partial P.env P.space ht h (by
      have := congrArg (List.map Prod.fst) hl
      simp only [List.map_map, Function.comp_def] at this
      exact this ▸ hnd)
    rw [hl, saysW_json hw] at hp
    obtain ⟨u, v, rfl, _, _⟩ := ht.split
    cases h with
    | mk h1 _ _ _ _ => exact parsed_of (no_alter _ (by simp) h1) hp
  | @delete s n v w ht h hw =>
    have hp := Sql.C70_delete_partial P.env P.space ht h
    rw [saysW_json hw] at hp
    obtain ⟨u, v, rfl, _, _⟩ := ht.split
    cases h with
    | mk h1 _ _ _ => exact parsed_of (no_alter _ (by simp) h1) hp

/-! ### One statement -/

/-- A statement that was rewritten, written, read, executed and answered. -/
theorem serve_of {P : Proxy} {res : List Char → Bool} {bst bst' : Tables} {sql text : List Char} {d d' : Dict String Json} {table : Json} {s : Sel} {m : MStmt}
    {rows : List (List DbVal)} {out : List (List OutVal)} (h1 : P.parsed sql = .ok d) (h2 : rewriteQuery P.c P.db P.fuel d = .ok (d', table, s))
    (h3 : P.text d' = .ok text) (h4 : readStmt res text = some m) (h5 : exec bst m = some (bst', rows)) (h6 : P.answer table s rows = .ok out) :
    P.serve res bst sql = some (bst', out) := by
  have : P.send sql = .ok (text, table, s) := by simp [Proxy.send, h1, h2, h3]
  simp [Proxy.serve, this, h4, h5, h6]

/-- A table is replaced on both sides. -/
theorem rel_set {P : Proxy} {res : List Char → Bool} (hP : Sound P res) {pst : PTables} {bst : Tables} (h : Rel P pst bst) {t : String} {tm : TableMeta ColMeta}
    (ht : Dict.get? P.db t = some tm) {rows : List PRow} {brows : List Row} (hr : List.Forall₂ (Keeps P.c tm.columns) rows brows) :
    Rel P (Dict.set pst t rows) (Dict.set bst tm.anonymous brows) := by
  intro t' tm' ht'
  by_cases he : t' = t
  · subst he
    rw [ht] at ht'
    injection ht' with ht'
    subst ht'
    exact ⟨rows, brows, Dict.get?_set_self _ _ _, Dict.get?_set_self _ _ _, hr⟩
  · obtain ⟨rows', brows', h1, h2, h3⟩ := h t' tm' ht'
    refine ⟨rows', brows', ?_, ?_, h3⟩
    · rw [Dict.get?_set_ne _ he]; exact h1
    · rw [Dict.get?_set_ne _ fun hx => he (hP.tables _ _ _ _ ht' ht hx)]; exact h2

theorem names_bare {P : Proxy} {res : List Char → Bool} {tm : TableMeta ColMeta} (hn : Named P.w res tm) {ns : List String} (hr : ∀ n ∈ ns, Readable tm.columns n) :
    ∀ b ∈ readNames tm.columns ns, Bare P.w res b := by
  intro b hb
  obtain ⟨n, hm, rfl⟩ := List.mem_map.1 hb
  obtain ⟨cm, b, hc, hb⟩ := (hr n hm).col
  simp only [hc, Option.bind_some, hb, Option.getD_some]
  unfold readName at hb
  by_cases hp : cm.plaintext = true
  · rw [if_pos hp] at hb
    injection hb with hb
    subst hb
    exact hn.plain _ _ hc hp
  · rw [if_neg hp] at hb
    exact hn.enc _ _ hc (by simpa using hp) _ _ (Dict.mem_of_get? hb)

theorem targets_ne {P : Proxy} {res : List Char → Bool} (hP : Sound P res) {t : String} {tm : TableMeta ColMeta} (ht : Dict.get? P.db t = some tm) {n : String}
    {cm : ColMeta} (hc : Dict.get? tm.columns n = some cm) : targets tm.columns n ≠ [] := by
  unfold targets
  rw [hc]
  by_cases hp : cm.plaintext = true
  · simp [hp]
  · have := hP.stored t tm ht n cm hc (by simpa using hp)
    simp [hp, this]

theorem out_cells {P : Proxy} {res : List Char → Bool} {tm : TableMeta ColMeta} (hn : Named P.w res tm) {sets : List (String × Val)}
    (hs : ∀ e ∈ sets, ∃ cm, Dict.get? tm.columns e.1 = some cm ∧ Assignable cm e.2) :
    ∀ e ∈ assignOut P.c tm.columns sets, Bare P.w res e.1 ∧ e.2.Ok P.w := by
  intro e he
  obtain ⟨x, hx, he⟩ := List.mem_flatMap.1 he
  obtain ⟨cm, hc, ha⟩ := hs x hx
  simp only [hc] at he
  unfold cells at he
  by_cases hp : cm.plaintext = true
  · rw [if_pos hp] at he
    simp only [List.mem_singleton] at he
    subst he
    exact ⟨hn.plain _ _ hc hp, plainRhs_ok ha hp⟩
  · have hp' : cm.plaintext = false := by simpa using hp
    rw [if_neg hp] at he
    obtain ⟨p, hpm, rfl⟩ := List.mem_map.1 he
    exact ⟨hn.enc _ _ hc hp' _ _ hpm, setRhs_ok ha hp' hpm⟩

theorem flatMap_ne {α β : Type} {f : α → List β} {l : List α} (h : l ≠ []) (hf : ∀ x ∈ l, f x ≠ []) : l.flatMap f ≠ [] := by
  cases l with
  | nil => exact absurd rfl h
  | cons x l =>
    rw [List.flatMap_cons]
    intro he
    exact hf x (by simp) (List.append_eq_nil_iff.1 he).1

theorem zip_fst_snd {α β : Type} : ∀ l : List (α × β), (l.map Prod.fst).zip (l.map Prod.snd) = l
  | [] => rfl
  | (a, b) :: l => by simp [zip_fst_snd l]

theorem serve_says {P : Proxy} {res : List Char → Bool} (hP : Sound P res) {pst : PTables} {bst : Tables} (hR : Rel P pst bst) {sql : List Char} {u : UStmt}
    (hs : Says P.env P.space sql u) (hf : Fine P.db u) : ∃ bst', P.serve res bst sql = some (bst', (pexec pst u).2) ∧ Rel P (pexec pst u).1 bst' := by
  have hpar := parsed_says hs hf
  obtain ⟨d, hd⟩ := hP.depth
  clear hs
  cases u with
  | insert t row =>
    obtain ⟨tm, ht, hl, hnd, hall, hrow⟩ := hf
    obtain ⟨rows, brows, hp, hb, hrel⟩ := hR t tm ht
    have hkeys : ∀ e ∈ row, e.1 ∈ Dict.keys tm.columns := fun e he => by
      obtain ⟨cm, hc, _⟩ := hrow e he
      exact mem_keys hc
    have hnames := targets_nodup (hP.names t tm ht) hnd hkeys
    obtain ⟨ins, s, stored, text, h1, h2, h3, h4, h5⟩ := insert_sent ht (hP.named t tm ht) hP.hom (hP.known t tm ht) (row := row)
      (flatMap_ne (by rintro rfl; simp at hl) fun e he => by
        obtain ⟨cm, hc, _⟩ := hrow e he
        exact targets_ne hP ht hc) hnames hrow (n := d + 1) hd
    refine ⟨Dict.set bst tm.anonymous (brows ++ [stored]), serve_of hpar h1 h2 h3 (rows := []) ?_ rfl, ?_⟩
    · rw [exec, hb]
      simp only
      rw [if_pos ⟨by rw [h4]; exact hnames, by simp⟩, zip_fst_snd]
    · have : Keeps P.c tm.columns row stored := by
        refine ⟨?_, h5, ?_, fun b hb => ?_⟩
        · intro n cm hc
          obtain ⟨e, he, rfl⟩ := List.mem_map.1 (hall n (mem_keys hc))
          obtain ⟨cm', hc', hi⟩ := hrow e he
          rw [hc] at hc'
          injection hc' with hc'
          subst hc'
          exact ⟨e.2, Dict.get?_of_mem_nodup hnd he, hi.1⟩
        · intro n hn b hb
          obtain ⟨e, he, rfl⟩ := List.mem_map.1 (hall n hn)
          have : b ∈ stored.map Prod.fst := by
            rw [h4]
            exact List.mem_flatMap.2 ⟨e, he, hb⟩
          cases hg : Dict.get? stored b with
          | some _ => rfl
          | none => exact absurd this ((Dict.get?_eq_none_iff _ _).1 hg)
        · have hb : b ∈ stored.map Prod.fst := hb
          rw [h4] at hb
          obtain ⟨e, he, hb⟩ := List.mem_flatMap.1 hb
          exact ⟨e.1, hkeys e he, hb⟩
      have := rel_set hP hR ht (List.rel_append hrel (.cons this .nil))
      simpa [pexec, hp] using this
  | select t ns w =>
    obtain ⟨tm, ht, hpl, hns, hr, hw⟩ := hf
    obtain ⟨rows, brows, hp, hb, hrel⟩ := hR t tm ht
    have hn := hP.named t tm ht
    have hbare := names_bare hn hr
    obtain ⟨l, hl, hl'⟩ := pick_rel hn hw hrel
    obtain ⟨out, ho, ha⟩ := rows_answer ht hr hl'
    refine ⟨bst, ?_, hR⟩
    have := serve_of (bst := bst) (bst' := bst) hpar (select_rewritten ht hpl hr hw P.fuel) (select_written hn hbare hw hd)
      (read_select (by simpa [readNames] using hns) hbare hn.table (sentW_ok hn hw)) (rows := out) (by rw [exec, hb]; simp only [hl]; rw [ho]; rfl) ha
    simpa [pexec, hp] using this
  | update t sets w =>
    obtain ⟨tm, ht, hne, hnd, hset, hw⟩ := hf
    obtain ⟨rows, brows, hp, hb, hrel⟩ := hR t tm ht
    have hn := hP.named t tm ht
    have hkeys : ∀ e ∈ sets, e.1 ∈ Dict.keys tm.columns := fun e he => by
      obtain ⟨cm, hc, _⟩ := hset e he
      exact mem_keys hc
    have hnames := targets_nodup (hP.names t tm ht) hnd hkeys
    have hcells := out_cells (P := P) hn hset
    have hne' : assignOut P.c tm.columns sets ≠ [] := by
      have : (assignOut P.c tm.columns sets).map Prod.fst ≠ [] := by
        rw [assignOut_names]
        exact flatMap_ne hne fun e he => by
          obtain ⟨cm, hc, _⟩ := hset e he
          exact targets_ne hP ht hc
      simpa using this
    obtain ⟨l, hl, hl'⟩ := change_rel hn hw (f := assign (assigned P.c tm.columns sets)) (g := setAll sets)
      (fun row brow h => keeps_update (hP.names t tm ht) hnd hset h) hrel
    refine ⟨Dict.set bst tm.anonymous l, ?_, ?_⟩
    · refine serve_of hpar (update_rewritten ht hset hnames hw P.fuel) (update_written hn (fun e he => (hcells e he).1) (fun e he => (hcells e he).2) hw (n := d + 1) hd)
        (read_update hne' (fun e he => (hcells e he).1) (fun e he => (hcells e he).2) hn.table (sentW_ok hn hw)) (rows := []) ?_ rfl
      rw [exec, hb]
      simp only
      rw [if_pos, show (assignOut P.c tm.columns sets).map (fun e => (e.1, e.2.val)) = assigned P.c tm.columns sets from rfl, hl]
      · rfl
      · rw [List.all_eq_true]
        intro p hpm
        rw [List.all_eq_true]
        intro brow hbm
        obtain ⟨row, _, hk⟩ : ∃ row, row ∈ rows ∧ Keeps P.c tm.columns row brow := by
          clear hl hl' hp hb
          induction hrel with
          | nil => simp at hbm
          | @cons a b l m h1 _ ih =>
            rcases List.mem_cons.1 hbm with rfl | hbm
            · exact ⟨a, by simp, h1⟩
            · obtain ⟨r, hr, hk⟩ := ih hbm
              exact ⟨r, by simp [hr], hk⟩
        have hmem : p.1 ∈ (assigned P.c tm.columns sets).map Prod.fst := List.mem_map.2 ⟨p, hpm, rfl⟩
        rw [assigned_names] at hmem
        obtain ⟨e, he, hpe⟩ := List.mem_flatMap.1 hmem
        exact hk.there e.1 (hkeys e he) p.1 hpe
    · have := rel_set hP hR ht hl'
      simpa [pexec, hp] using this
  | delete t w =>
    obtain ⟨tm, ht, hw⟩ := hf
    obtain ⟨rows, brows, hp, hb, hrel⟩ := hR t tm ht
    have hn := hP.named t tm ht
    obtain ⟨l, hl, hl'⟩ := remove_rel hn hw hrel
    refine ⟨Dict.set bst tm.anonymous l, ?_, ?_⟩
    · exact serve_of hpar (delete_rewritten ht hw P.fuel) (delete_written hn hw (n := d + 1) hd) (read_delete hn.table (sentW_ok hn hw)) (rows := [])
        (by rw [exec, hb]; simp only [hl]; rfl) rfl
    · have := rel_set hP hR ht hl'
      simpa [pexec, hp] using this

/-! ### Sessions -/

/-- A statement that fits its table: the proxy and the backend together answer what a database without encryption would answer, and the backend then holds what that
database would hold. -/
theorem C71_statement_partial {P : Proxy} {res : List Char → Bool} (hP : Sound P res) {pst : PTables} {bst : Tables} (hR : Rel P pst bst) {sql : List Char} {u : UStmt}
    (hs : Says P.env P.space sql u) (hf : Fine P.db u) : ∃ bst', P.serve res bst sql = some (bst', (pexec pst u).2) ∧ Rel P (pexec pst u).1 bst' :=
  serve_says hP hR hs hf

/-- Any number of such statements. -/
theorem C71_session_partial {P : Proxy} {res : List Char → Bool} (hP : Sound P res) {pst : PTables} {bst : Tables} (hR : Rel P pst bst) {sqls : List (List Char)}
    {us : List UStmt} (hs : List.Forall₂ (Says P.env P.space) sqls us) (hf : ∀ u ∈ us, Fine P.db u) :
    ∃ bst', P.session res bst sqls = some (bst', (psession pst us).2) ∧ Rel P (psession pst us).1 bst' := by
  induction hs generalizing pst bst with
  | nil => exact ⟨bst, rfl, hR⟩
  | @cons sql u sqls us h _ ih =>
    obtain ⟨bst1, h1, h2⟩ := serve_says hP hR h (hf u (by simp))
    obtain ⟨bst2, h3, h4⟩ := ih h2 fun u hu => hf u (by simp [hu])
    exact ⟨bst2, by rw [Proxy.session, h1]; simp only [h3]; rfl, h4⟩

/-- Empty tables hold nothing. -/
theorem rel_empty {P : Proxy} {pst : PTables} {bst : Tables} (h1 : ∀ t tm, Dict.get? P.db t = some tm → Dict.get? pst t = some [])
    (h2 : ∀ t tm, Dict.get? P.db t = some tm → Dict.get? bst tm.anonymous = some []) : Rel P pst bst :=
  fun t tm ht => ⟨[], [], h1 t tm ht, h2 t tm ht, .nil⟩

/-- A session that begins with empty tables. -/
theorem C71_fresh_partial {P : Proxy} {res : List Char → Bool} (hP : Sound P res) {pst : PTables} {bst : Tables}
    (h1 : ∀ t tm, Dict.get? P.db t = some tm → Dict.get? pst t = some []) (h2 : ∀ t tm, Dict.get? P.db t = some tm → Dict.get? bst tm.anonymous = some [])
    {sqls : List (List Char)} {us : List UStmt} (hs : List.Forall₂ (Says P.env P.space) sqls us) (hf : ∀ u ∈ us, Fine P.db u) :
    ∃ bst', P.session res bst sqls = some (bst', (psession pst us).2) := by
  obtain ⟨bst', h, _⟩ := C71_session_partial hP (rel_empty h1 h2) hs hf
  exact ⟨bst', h⟩

end EulerDB.Whole
