/-
C87: a column that is left out of an INSERT is NULL, and the session is answered as by a database without encryption.
-/
import Verif.Nulls.Rows
import Verif.Whole.Examples

namespace EulerDB.Nulls

open EulerDB EulerDB.Clause EulerDB.Delta EulerDB.Whole EulerDB.Join

theorem parsed_says {P : Proxy} {sql : List Char} {u : UStmt} (hs : Says P.env P.space sql u) (hf : Fine P.db u) : P.parsed sql = .ok u.json := by
  cases u with
  | insert t row =>
    obtain ⟨tm, _, hl, _⟩ := hf
    cases hs with
    | @insert s n cols vs row ht h h1 h2 =>
      have hp := Sql.C70_insert_partial P.env P.space ht h (insert_entries h1 h2 hl)
      obtain ⟨u, v, rfl, _, _⟩ := ht.split
      cases h with
      | mk h1 _ _ _ _ _ _ => exact parsed_of (no_alter _ (by simp) h1) hp
  | select t ns w => exact Whole.parsed_says hs hf
  | update t sets w => exact Whole.parsed_says hs hf
  | delete t w => exact Whole.parsed_says hs hf

theorem serve_of {P : Proxy} {res : List Char → Bool} {sch : Schema} {bst bst' : Tables} {sql text : List Char} {d d' : Dict String Json} {table : Json} {s : Sel}
    {m : MStmt} {rows : List (List DbVal)} {out : List (List OutVal)} (h1 : P.parsed sql = .ok d) (h2 : rewriteQuery P.c P.db P.fuel d = .ok (d', table, s))
    (h3 : P.text d' = .ok text) (h4 : readStmt res text = some m) (h5 : exec3 sch bst m = some (bst', rows)) (h6 : P.answer table s rows = .ok out) :
    serve P res sch bst sql = some (bst', out) := by
  have : P.send sql = .ok (text, table, s) := by simp [Proxy.send, h1, h2, h3]
  simp [serve, this, h4, h5, h6]

theorem rel_set {P : Proxy} {res : List Char → Bool} (hP : Sound P res) {pst : PTables} {bst : Tables} (h : Rel P pst bst) {t : String} {tm : TableMeta ColMeta}
    (ht : Dict.get? P.db t = some tm) {rows : List PRow} {brows : List Whole.Row} (hr : List.Forall₂ (Keeps P.c tm.columns) rows brows) :
    Rel P (Dict.set pst t rows) (Dict.set bst tm.anonymous brows) := by
  intro t' tm' ht'
  by_cases he : t' = t
  · subst he
    rw [ht] at ht'
    injection ht' with ht'
    subst ht'
    exact ⟨rows, brows, Dict.get?_set_self _ _ _, Dict.get?_set_self _ _ _, hr⟩
  · obtain ⟨rows', brows', h1, h2, h3⟩ := h t' tm' ht'
    refine ⟨rows', brows', ?_, ?_, h3⟩
    · rw [Dict.get?_set_ne _ he]; exact h1
    · rw [Dict.get?_set_ne _ fun hx => he (hP.tables _ _ _ _ ht' ht hx)]; exact h2

/-- **C87, one statement.** An INSERT may leave columns out: the proxy and the backend answer what a database without encryption would answer (in which those columns
are NULL, and a comparison with NULL is not true), and the backend then holds what that database would hold. -/
theorem C87_statement_partial {P : Proxy} {res : List Char → Bool} (hP : Sound P res) {sch : Schema} (hS : Shaped P sch) {pst : PTables} {bst : Tables}
    (hR : Rel P pst bst) {sql : List Char} {u : UStmt} (hs : Says P.env P.space sql u) (hf : Fine P.db u) :
    ∃ bst', serve P res sch bst sql = some (bst', (pexec pst u).2) ∧ Rel P (pexec pst u).1 bst' := by
  have hpar := parsed_says hs hf
  obtain ⟨d, hd⟩ := hP.depth
  clear hs
  cases u with
  | insert t row =>
    obtain ⟨tm, ht, hl, hnd, hrow⟩ := hf
    obtain ⟨rows, brows, hp, hb, hrel⟩ := hR t tm ht
    obtain ⟨all, hsch, hall⟩ := hS t tm ht
    have hkeys : ∀ e ∈ row, e.1 ∈ Dict.keys tm.columns := fun e he => by
      obtain ⟨cm, hc, _⟩ := hrow e he
      exact mem_keys hc
    have hnames := targets_nodup (hP.names t tm ht) hnd hkeys
    obtain ⟨ins, s, stored, text, h1, h2, h3, h4, h5⟩ := insert_sent ht (hP.named t tm ht) hP.hom (hP.known t tm ht) (row := row)
      (flatMap_ne (by rintro rfl; simp at hl) fun e he => by
        obtain ⟨cm, hc, _⟩ := hrow e he
        exact targets_ne hP ht hc) hnames hrow (n := d + 1) hd
    refine ⟨Dict.set bst tm.anonymous (brows ++ [filled all stored]), serve_of hpar h1 h2 h3 (rows := []) ?_ rfl, ?_⟩
    · rw [exec3, hb, hsch]
      simp only
      have hin : ∀ b ∈ stored.map Prod.fst, b ∈ all := by
        intro b hbm
        rw [h4] at hbm
        obtain ⟨e, he, hbm⟩ := List.mem_flatMap.1 hbm
        exact (hall b).2 ⟨e.1, hkeys e he, hbm⟩
      rw [if_pos ⟨by rw [h4]; exact hnames, by simp, hin⟩, zip_fst_snd]
    · have := keeps_filled (hP.names t tm ht) hall (fun e he => by
        obtain ⟨cm, hc, hi⟩ := hrow e he
        exact ⟨cm, hc, hi.1⟩) h4 h5
      have := rel_set hP hR ht (List.rel_append hrel (.cons this .nil))
      simpa [pexec, hp] using this
  | select t ns w =>
    obtain ⟨tm, ht, hpl, hns, hr, hw⟩ := hf
    obtain ⟨rows, brows, hp, hb, hrel⟩ := hR t tm ht
    have hn := hP.named t tm ht
    have hbare := names_bare hn hr
    obtain ⟨l, hl, hl'⟩ := pick3_rel hn hw hrel
    obtain ⟨out, ho, ha⟩ := rows_answer ht hr hl'
    refine ⟨bst, ?_, hR⟩
    have := serve_of (sch := sch) (bst := bst) (bst' := bst) hpar (select_rewritten ht hpl hr hw P.fuel) (select_written hn hbare hw hd)
      (read_select (by simpa [readNames] using hns) hbare hn.table (sentW_ok hn hw)) (rows := out) (by rw [exec3, hb]; simp only [hl]; rw [ho]; rfl) ha
    simpa [pexec, hp] using this
  | update t sets w =>
    obtain ⟨tm, ht, hne, hnd, hset, hw⟩ := hf
    obtain ⟨rows, brows, hp, hb, hrel⟩ := hR t tm ht
    have hn := hP.named t tm ht
    have hkeys : ∀ e ∈ sets, e.1 ∈ Dict.keys tm.columns := fun e he => by
      obtain ⟨cm, hc, _⟩ := hset e he
      exact mem_keys hc
    have hnames := targets_nodup (hP.names t tm ht) hnd hkeys
    have hcells := out_cells (P := P) hn hset
    have hne' : assignOut P.c tm.columns sets ≠ [] := by
      have : (assignOut P.c tm.columns sets).map Prod.fst ≠ [] := by
        rw [assignOut_names]
        exact flatMap_ne hne fun e he => by
          obtain ⟨cm, hc, _⟩ := hset e he
          exact targets_ne hP ht hc
      simpa using this
    obtain ⟨l, hl, hl'⟩ := change3_rel hn hw (f := assign (assigned P.c tm.columns sets)) (g := setAll sets)
      (fun row brow h => keeps_update (hP.names t tm ht) hnd hset h) hrel
    refine ⟨Dict.set bst tm.anonymous l, ?_, ?_⟩
    · refine serve_of hpar (update_rewritten ht hset hnames hw P.fuel) (update_written hn (fun e he => (hcells e he).1) (fun e he => (hcells e he).2) hw (n := d + 1) hd)
        (read_update hne' (fun e he => (hcells e he).1) (fun e he => (hcells e he).2) hn.table (sentW_ok hn hw)) (rows := []) ?_ rfl
      rw [exec3, hb]
      simp only
      rw [if_pos, show (assignOut P.c tm.columns sets).map (fun e => (e.1, e.2.val)) = assigned P.c tm.columns sets from rfl, hl]
      · rfl
      · rw [List.all_eq_true]
        intro p hpm
        rw [List.all_eq_true]
        intro brow hbm
        obtain ⟨row, _, hk⟩ : ∃ row, row ∈ rows ∧ Keeps P.c tm.columns row brow := by
          clear hl hl' hp hb
          induction hrel with
          | nil => simp at hbm
          | @cons a b l m h1 _ ih =>
            rcases List.mem_cons.1 hbm with rfl | hbm
            · exact ⟨a, by simp, h1⟩
            · obtain ⟨r, hr, hk⟩ := ih hbm
              exact ⟨r, by simp [hr], hk⟩
        have hmem : p.1 ∈ (assigned P.c tm.columns sets).map Prod.fst := List.mem_map.2 ⟨p, hpm, rfl⟩
        rw [assigned_names] at hmem
        obtain ⟨e, he, hpe⟩ := List.mem_flatMap.1 hmem
        exact hk.there e.1 (hkeys e he) p.1 hpe
    · have := rel_set hP hR ht hl'
      simpa [pexec, hp] using this
  | delete t w =>
    obtain ⟨tm, ht, hw⟩ := hf
    obtain ⟨rows, brows, hp, hb, hrel⟩ := hR t tm ht
    have hn := hP.named t tm ht
    obtain ⟨l, hl, hl'⟩ := remove3_rel hn hw hrel
    refine ⟨Dict.set bst tm.anonymous l, ?_, ?_⟩
    · exact serve_of hpar (delete_rewritten ht hw P.fuel) (delete_written hn hw (n := d + 1) hd) (read_delete hn.table (sentW_ok hn hw)) (rows := [])
        (by rw [exec3, hb]; simp only [hl]; rfl) rfl
    · have := rel_set hP hR ht hl'
      simpa [pexec, hp] using this

/-- **C87, sessions** of any length. -/
theorem C87_session_partial {P : Proxy} {res : List Char → Bool} (hP : Sound P res) {sch : Schema} (hS : Shaped P sch) {pst : PTables} {bst : Tables}
    (hR : Rel P pst bst) {sqls : List (List Char)} {us : List UStmt} (hs : List.Forall₂ (Says P.env P.space) sqls us) (hf : ∀ u ∈ us, Fine P.db u) :
    ∃ bst', session P res sch bst sqls = some (bst', (psession pst us).2) ∧ Rel P (psession pst us).1 bst' := by
  induction hs generalizing pst bst with
  | nil => exact ⟨bst, rfl, hR⟩
  | @cons sql u sqls us h _ ih =>
    obtain ⟨bst1, h1, h2⟩ := C87_statement_partial hP hS hR h (hf u (by simp))
    obtain ⟨bst2, h3, h4⟩ := ih h2 fun u hu => hf u (by simp [hu])
    exact ⟨bst2, by rw [session, h1]; simp only [h3]; rfl, h4⟩

theorem C87_fresh_partial {P : Proxy} {res : List Char → Bool} (hP : Sound P res) {sch : Schema} (hS : Shaped P sch) {pst : PTables} {bst : Tables}
    (h1 : ∀ t tm, Dict.get? P.db t = some tm → Dict.get? pst t = some []) (h2 : ∀ t tm, Dict.get? P.db t = some tm → Dict.get? bst tm.anonymous = some [])
    {sqls : List (List Char)} {us : List UStmt} (hs : List.Forall₂ (Says P.env P.space) sqls us) (hf : ∀ u ∈ us, Fine P.db u) :
    ∃ bst', session P res sch bst sqls = some (bst', (psession pst us).2) := by
  obtain ⟨bst', h, _⟩ := C87_session_partial hP hS (fun t tm ht => ⟨[], [], h1 t tm ht, h2 t tm ht, .nil⟩) hs hf
  exact ⟨bst', h⟩

/-- What the client's database selects are the rows for which the condition is true in three-valued logic. -/
theorem C87_null_unknown (x : Cond) (row : PRow) : selected (some x) row = (sql (fun n => Dict.get? row n) x == some true) := by
  rw [sql_holds]
  rfl

/-- So a row whose column is NULL is found neither by a comparison nor by its opposite. -/
theorem C87_null_neither (n : String) (z : Int) (row : PRow) (h : Dict.get? row n = none) :
    selected (some (.cmp .lt n z)) row = false ∧ selected (some (.cmp .gte n z)) row = false := by
  simp [selected, Cond.holds, h]

/-- The rows of C71 are rows of this kind. -/
theorem rel_of {P : Proxy} {pst : PTables} {bst : Tables} (h : Whole.Rel P pst bst) : Rel P pst bst := by
  intro t tm ht
  obtain ⟨rows, brows, h1, h2, h3⟩ := h t tm ht
  refine ⟨rows, brows, h1, h2, h3.imp fun row brow hk => ⟨?_, hk.holds, ?_, hk.there, hk.only⟩⟩
  · intro n v cm hv hc
    obtain ⟨v', hv', hs⟩ := hk.vals n cm hc
    rw [hv] at hv'
    injection hv' with hv'
    exact hv' ▸ hs
  · intro n hn hno
    obtain ⟨e, he, rfl⟩ := List.mem_map.1 hn
    cases hg : Dict.get? tm.columns e.1 with
    | none => exact absurd hn ((Dict.get?_eq_none_iff _ _).1 hg)
    | some cm =>
      obtain ⟨v, hv, _⟩ := hk.vals e.1 cm hg
      rw [hno] at hv
      cases hv

/-! ### The backend -/

theorem concerns3_of {w : Option MEx} {row : Whole.Row} {b : Bool} (h : concerns w row = some b) : concerns3 w row = some b := by
  cases w with
  | none => exact h
  | some e => exact sure_truth h

theorem pick3_of {w : Option MEx} : ∀ {rows l : List Whole.Row}, pick w rows = some l → pick3 w rows = some l
  | [], l, h => by rw [pick] at h; exact h
  | row :: rs, l, h => by
    rw [pick] at h
    cases hc : concerns w row with
    | none => simp [hc] at h
    | some b =>
      cases hp : pick w rs with
      | none => simp [hc, hp] at h
      | some m =>
        rw [hc, hp] at h
        rw [pick3, concerns3_of hc, pick3_of hp]
        exact h

theorem change3_of {w : Option MEx} {f : Whole.Row → Option Whole.Row} : ∀ {rows l : List Whole.Row}, change w f rows = some l → change3 w f rows = some l
  | [], l, h => by rw [change] at h; exact h
  | row :: rs, l, h => by
    rw [change] at h
    cases hc : concerns w row with
    | none => simp [hc] at h
    | some b =>
      cases hp : change w f rs with
      | none => simp [hc, hp] at h
      | some m =>
        rw [hc, hp] at h
        rw [change3, concerns3_of hc, change3_of hp]
        exact h

/-- This backend does what that of C71 does wherever that one answers; an INSERT must name all columns for that. -/
theorem C87_extends (sch : Schema) (st : Tables) (m : MStmt) (r : Tables × List (List DbVal)) (h : exec st m = some r)
    (hi : ∀ t ns vs, m = .insert t ns vs → ∃ all, sch t = some all ∧ ∀ b, b ∈ all ↔ b ∈ ns) : exec3 sch st m = some r := by
  cases m with
  | insert t ns vs =>
    obtain ⟨all, h1, h2⟩ := hi t ns vs rfl
    rw [exec] at h
    rw [exec3, h1]
    cases hg : Dict.get? st t with
    | none => simp [hg] at h
    | some rows =>
      rw [hg] at h
      simp only at h ⊢
      by_cases hc : ns.Nodup ∧ ns.length = vs.length
      · rw [if_pos hc] at h
        rw [if_pos ⟨hc.1, hc.2, fun n hn => (h2 n).2 hn⟩, ← h]
        have : filled all (ns.zip vs) = ns.zip vs := by
          have : (all.filter fun b => !(Dict.keys (ns.zip vs)).contains b) = [] := by
            rw [List.filter_eq_nil_iff]
            intro b hb
            have : b ∈ Dict.keys (ns.zip vs) := by
              rw [Dict.keys, List.map_fst_zip (by omega)]
              exact (h2 b).1 hb
            simpa using this
          rw [filled, this]
          simp
        rw [this]
      · rw [if_neg hc] at h
        cases h
  | select ns t w =>
    rw [exec] at h
    rw [exec3]
    cases hg : Dict.get? st t with
    | none => simp [hg] at h
    | some rows =>
      simp only [hg] at h ⊢
      cases hp : pick w rows with
      | none => simp [hp] at h
      | some l =>
        rw [hp] at h
        rw [pick3_of hp]
        exact h
  | update t ss w =>
    rw [exec] at h
    rw [exec3]
    cases hg : Dict.get? st t with
    | none => simp [hg] at h
    | some rows =>
      simp only [hg] at h ⊢
      split at h
      · rename_i hc
        rw [if_pos hc]
        cases hp : change w (fun row => some (assign ss row)) rows with
        | none => simp [hp] at h
        | some l =>
          rw [hp] at h
          rw [change3_of hp]
          exact h
      · cases h
  | delete t w =>
    rw [exec] at h
    rw [exec3]
    cases hg : Dict.get? st t with
    | none => simp [hg] at h
    | some rows =>
      simp only [hg] at h ⊢
      cases hp : change w (fun _ => none) rows with
      | none => simp [hp] at h
      | some l =>
        rw [hp] at h
        rw [change3_of hp]
        exact h

/-! ### What fails -/

/-- **C87 fails for IS NULL** over an encrypted column: the condition is sent with the client's name of the column, which the backend does not know. -/
theorem C87_fails_is_null (c : Crypto) (db : Db) (t : String) (n : String) :
    whereRw c db (.str t) "symmetric" "" (Sql.scrub (Sql.binV .eq (.name n) .null)) = .ok (.dict [("missing", .str n)]) ∧
      whereRw c db (.str t) "symmetric" "" (Sql.scrub (Sql.binV .neq (.name n) .null)) = .ok (.dict [("exists", .str n)]) :=
  ⟨C27_fails_other_operators c db _ _ _ _ _ (by decide), C27_fails_other_operators c db _ _ _ _ _ (by decide)⟩

/-- **C87 fails for NULL that is written out:** an INSERT of NULL into an encrypted column is refused. -/
theorem C87_fails_null_written (c : Crypto) (db : Db) (fuel : Nat) (json json' : Dict String Json) (t n : String) (names vs : List Json) (table : Json) (s : Sel)
    (tm : TableMeta ColMeta) (cm : ColMeta) (hi : IsInsert json t (.str n :: names) (.dict [("value", Sql.nullJson)] :: vs)) (ht : Dict.get? db t = some tm)
    (hc : Dict.get? tm.columns n = some cm) (hp : cm.plaintext = false) (he : cm.encCols ≠ []) : rewriteQuery c db fuel json ≠ .ok (json', table, s) := by
  intro h
  obtain ⟨tm', bcols, bvals, h1, _, h3, _⟩ := insert_spec hi h
  rw [ht] at h1
  injection h1 with h1
  subst h1
  have g : colOfJson tm.columns (.str n) = .ok cm := getItem_ok.2 hc
  rw [valuesLoop, g] at h3
  obtain ⟨⟨e, b⟩, r, hr⟩ : ∃ p r, cm.encCols = p :: r := by
    cases hx : cm.encCols with
    | nil => exact absurd hx he
    | cons p r => exact ⟨p, r, rfl⟩
  have hv : pyItem "value" (.dict [("value", Sql.nullJson)]) = .ok Sql.nullJson := rfl
  simp only [hp, Bool.false_eq_true, if_false, hv, hr, Dict.keys, List.map_cons] at h3
  rw [encryptAll, show Sql.nullJson = .dict [("null", .dict [])] from rfl, C25_fails_null] at h3
  cases h3

/-! ### A session -/

/-- Columns `a` and `c` are encrypted, column `b` is not. -/
def demo3 : TableMeta ColMeta :=
  ⟨"table_0", [("a", ⟨false, "int", "k", [("order-preserving", "a_o"), ("symmetric", "a_s")], none, none, none⟩),
    ("b", ⟨true, "int", "", [], none, none, none⟩), ("c", ⟨false, "int", "k", [("symmetric", "c_s")], none, none, none⟩)], none⟩

def proxy3 (env : Sql.Env) (space : Char → Bool) (w : Writer) (repr : Json → String) : Proxy :=
  { demoProxy env space w repr with db := [("t", demo3)] }

def names3 : List String := ["table_0", "a_o", "a_s", "b", "c_s"]

def schema3 : Schema := fun t => if t = "table_0" then some ["a_o", "a_s", "b", "c_s"] else none

theorem bare3 {w : Writer} {res : List Char → Bool} (h : ∀ s ∈ names3, w.kw s.toList = false ∧ res s.toList = false) : ∀ s ∈ names3, Bare w res s := by
  intro s hs
  have hc : ∀ s ∈ names3, (∀ c ∈ s.toList, c.isAlphanum = true ∨ c = '_') ∧ (∀ c ∈ s.toList.head?, Format.letter c = true) ∧ s.toList ≠ [] := by decide
  obtain ⟨h1, h2, h3⟩ := hc s hs
  exact ⟨h1, h2, h3, (h s hs).1, (h s hs).2⟩

theorem tab3 {env : Sql.Env} {space : Char → Bool} {w : Writer} {repr : Json → String} {t : String} {tm : TableMeta ColMeta}
    (h : Dict.get? (proxy3 env space w repr).db t = some tm) : t = "t" ∧ tm = demo3 := by
  have := Dict.mem_of_get? h
  simpa [proxy3] using this

theorem col3 {n : String} {cm : ColMeta} (h : Dict.get? demo3.columns n = some cm) :
    (n = "a" ∧ cm = ⟨false, "int", "k", [("order-preserving", "a_o"), ("symmetric", "a_s")], none, none, none⟩) ∨
      (n = "b" ∧ cm = ⟨true, "int", "", [], none, none, none⟩) ∨ (n = "c" ∧ cm = ⟨false, "int", "k", [("symmetric", "c_s")], none, none, none⟩) := by
  have := Dict.mem_of_get? h
  simpa [demo3] using this

theorem sound3 {env : Sql.Env} {space : Char → Bool} {w : Writer} {repr : Json → String} {res : List Char → Bool}
    (h : ∀ s ∈ names3, w.kw s.toList = false ∧ res s.toList = false) : Sound (proxy3 env space w repr) res where
  depth := ⟨0, rfl⟩
  hom := by intro k z; simp [proxy3, demoProxy, demoCrypto]
  tables := by
    intro t t' tm tm' h1 h2 _
    rw [(tab3 h1).1, (tab3 h2).1]
  named := by
    intro t tm h1
    obtain ⟨rfl, rfl⟩ := tab3 h1
    have hb := bare3 h
    refine ⟨hb _ (by decide), ?_, ?_⟩
    · intro n cm hc hp
      rcases col3 hc with ⟨rfl, rfl⟩ | ⟨rfl, rfl⟩ | ⟨rfl, rfl⟩
      · cases hp
      · exact hb _ (by decide)
      · cases hp
    · intro n cm hc hp e b he
      rcases col3 hc with ⟨rfl, rfl⟩ | ⟨rfl, rfl⟩ | ⟨rfl, rfl⟩
      · simp only [List.mem_cons, Prod.mk.injEq, List.not_mem_nil, or_false] at he
        rcases he with ⟨rfl, rfl⟩ | ⟨rfl, rfl⟩
        · exact hb _ (by decide)
        · exact hb _ (by decide)
      · cases hp
      · simp only [List.mem_cons, Prod.mk.injEq, List.not_mem_nil, or_false] at he
        obtain ⟨rfl, rfl⟩ := he
        exact hb _ (by decide)
  known := by
    intro t tm h1 n cm hc hp
    obtain ⟨rfl, rfl⟩ := tab3 h1
    rcases col3 hc with ⟨rfl, rfl⟩ | ⟨rfl, rfl⟩ | ⟨rfl, rfl⟩
    · decide
    · cases hp
    · decide
  stored := by
    intro t tm h1 n cm hc hp
    obtain ⟨rfl, rfl⟩ := tab3 h1
    rcases col3 hc with ⟨rfl, rfl⟩ | ⟨rfl, rfl⟩ | ⟨rfl, rfl⟩
    · simp
    · cases hp
    · simp
  names := by
    intro t tm h1
    obtain ⟨rfl, rfl⟩ := tab3 h1
    decide

theorem shaped3 (env : Sql.Env) (space : Char → Bool) (w : Writer) (repr : Json → String) : Shaped (proxy3 env space w repr) schema3 := by
  intro t tm h
  obtain ⟨rfl, rfl⟩ := tab3 h
  refine ⟨["a_o", "a_s", "b", "c_s"], rfl, fun b => ?_⟩
  rw [show (∃ n ∈ Dict.keys demo3.columns, b ∈ targets demo3.columns n) ↔ b ∈ (Dict.keys demo3.columns).flatMap (targets demo3.columns) from List.mem_flatMap.symm,
    show (Dict.keys demo3.columns).flatMap (targets demo3.columns) = ["a_o", "a_s", "b", "c_s"] from by decide]

open Sql in
theorem says_c (env : Env) : Says env spc "SELECT c FROM t WHERE a = 1".toList (.select "t" ["c"] (some (.eqInt "a" 1))) := by
  refine Says.select (ns := ["c"]) (t := "t") (v := some (.call "eq" [.name "a", .int 1])) (trimmed_self fun c hc => by simp at hc; subst hc; decide) ?_ rfl
  have hc : Spells env .name " c".toList (.name "c") := by
    refine ⟨1, .inl ⟨[.val (.name "c")], .one ?_, rfl⟩⟩
    have hb : SpAtom env (SpExpr env 0) .name ['c'] (.name "c") :=
      .name (SpName.mk (p := ['c']) (n := ['c']) (t := []) (m := []) (.plain ⟨by decide, 'c', [], rfl, by decide⟩) (by decide +kernel) .nil)
    exact SpOperand.atom (g := [' ']) gap_space hb
  exact .mk (t := " c".toList) (u := " FROM t WHERE a = 1".toList) (v := " t".toList) (x := " WHERE a = 1".toList) (d := .name) (e := .name)
    ⟨[], "SELECT".toList, .nil, rfl, by decide, rfl⟩ (not_opens (by decide) (by decide) (by decide +kernel)) (.one (.plain hc rfl))
    (fun c hc => by simp at hc; subst hc; exact ⟨by decide, fun _ => by decide, fun _ => by decide⟩) ⟨[' '], "FROM".toList, gap_space, rfl, by decide, rfl⟩
    (.one (SpTable.plain (g := [' ']) (t := ['t']) (n := ['t']) gap_space (name_t _ (by decide +kernel)))) (where_eq env .name)

def stmts3 : List UStmt := [.insert "t" [("a", .int 1), ("b", .int 1)], .select "t" ["c"] (some (.eqInt "a" 1))]

theorem fine3 (env : Sql.Env) (space : Char → Bool) (w : Writer) (repr : Json → String) : ∀ u ∈ stmts3, Fine (proxy3 env space w repr).db u := by
  intro u hu
  simp only [stmts3, List.mem_cons, List.not_mem_nil, or_false] at hu
  rcases hu with rfl | rfl
  · refine ⟨demo3, rfl, by simp, by decide, ?_⟩
    intro e he
    simp only [List.mem_cons, List.not_mem_nil, or_false] at he
    rcases he with rfl | rfl
    · refine ⟨_, rfl, rfl, ?_, fun s h => by cases h⟩
      intro enc h
      simp only [Dict.keys, List.map_cons, List.map_nil, List.mem_cons, List.not_mem_nil, or_false] at h
      rcases h with rfl | rfl <;> simp (decide := true)
    · refine ⟨_, rfl, rfl, ?_, fun s h => by cases h⟩
      intro enc h
      simp [Dict.keys] at h
  · refine ⟨demo3, rfl, by simp [PlainTable, pyIn, isSub]; decide, by simp, ?_, ?_⟩
    · intro n hn
      simp only [List.mem_singleton] at hn
      subst hn
      exact ⟨by simp, by decide, _, _, rfl, rfl⟩
    · intro x hx
      simp only [Option.mem_some_iff] at hx
      subst hx
      exact ⟨_, rfl, rfl, fun _ => ⟨by simp [Clause.Int64], _, rfl⟩⟩

/-- Column `c` is left out, and NULL is what is found in it. -/
example (env : Sql.Env) (w : Writer) (repr : Json → String) (res : List Char → Bool) (h : ∀ s ∈ names3, w.kw s.toList = false ∧ res s.toList = false) :
    ∃ bst', session (proxy3 env spc w repr) res schema3 [("table_0", [])]
      ["INSERT INTO t (a, b) VALUES (1, 1)".toList, "SELECT c FROM t WHERE a = 1".toList] = some (bst', [[], [[.null]]]) := by
  have := C87_fresh_partial (sound3 (env := env) (space := spc) (repr := repr) h) (shaped3 env spc w repr) (pst := [("t", [])]) (bst := [("table_0", [])])
    (fun t tm ht => by obtain ⟨rfl, rfl⟩ := tab3 ht; rfl) (fun t tm ht => by obtain ⟨rfl, rfl⟩ := tab3 ht; rfl) (us := stmts3)
    (.cons (says_insert env) (.cons (says_c env) .nil)) (fine3 env spc w repr)
  exact this

end EulerDB.Nulls
