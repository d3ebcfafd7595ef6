/-
C90: `SET n = NULL` works for every column, IS NULL and IS NOT NULL for columns that are not encrypted, in sessions of any length.
-/
import Verif.NullLit.Rows

namespace EulerDB.NullLit

open EulerDB EulerDB.Clause EulerDB.Delta EulerDB.Whole

def NUStmt.json : NUStmt → Dict String Json
  | .insert t row => insertJson t row
  | .select t ns w => selectJ (colsIn ns) t w.json
  | .update t sets w => updateJ t (sets.map fun e => (e.1, rhsN e.2)) w.json
  | .delete t w => deleteJ t w.json

theorem saysC_json {v : Option Sql.V} {w : CWhere} (h : SaysC v w) : Sql.whereJson v = entry w.json := by
  cases w with
  | cond w => cases v <;> cases w <;> simp_all [SaysC, SaysW, Sql.whereJson, entry, CWhere.json]
  | isNull n yes => cases v <;> simp_all [SaysC, Sql.whereJson, entry, CWhere.json]

/-- What is asked for the statement to be parsed. -/
def Parsable (db : Db) : NUStmt → Prop
  | .insert t row => Nulls.Fine db (.insert t row)
  | .select _ ns _ => ns ≠ []
  | .update _ sets _ => (sets.map Prod.fst).Nodup
  | .delete _ _ => True

theorem Fine.parsable {db : Db} {u : NUStmt} (h : Fine db u) : Parsable db u := by
  cases u with
  | insert t row => exact h
  | select t ns w => exact h.choose_spec.2.2.1
  | update t sets w => exact h.choose_spec.2.2.1
  | delete t w => trivial

theorem parsed_says {P : Proxy} {sql : List Char} {u : NUStmt} (hs : Says P.env P.space sql u) (hf : Parsable P.db u) : P.parsed sql = .ok u.json := by
  cases hs with
  | insert hs => exact Nulls.parsed_says hs hf
  | @select s ns t v w ht h hw =>
    have hp := Sql.C70_select_partial P.env P.space ht h
    rw [listJson_cols hf, saysC_json hw] at hp
    obtain ⟨u, v, rfl, _, _⟩ := ht.split
    cases h with
    | mk h1 _ _ _ _ _ _ => exact parsed_of (no_alter _ (by simp) h1) hp
  | @update s t l v w sets ht h hl hw =>
    have hp := Sql.C70_update_partial P.env P.space ht h (by
      have := congrArg (List.map Prod.fst) hl
      simp only [List.map_map, Function.comp_def] at this
      exact this ▸ hf)
    rw [hl, saysC_json hw] at hp
    obtain ⟨u, v, rfl, _, _⟩ := ht.split
    cases h with
    | mk h1 _ _ _ _ => exact parsed_of (no_alter _ (by simp) h1) hp
  | @delete s t v w ht h hw =>
    have hp := Sql.C70_delete_partial P.env P.space ht h
    rw [saysC_json hw] at hp
    obtain ⟨u, v, rfl, _, _⟩ := ht.split
    cases h with
    | mk h1 _ _ _ => exact parsed_of (no_alter _ (by simp) h1) hp

theorem serve_of {P : Proxy} {res : List Char → Bool} {sch : Nulls.Schema} {bst bst' : Tables} {sql text : List Char} {d d' : Dict String Json} {table : Json} {s : Sel}
    {m : NStmt} {rows : List (List DbVal)} {out : List (List OutVal)} (h1 : P.parsed sql = .ok d) (h2 : rewriteQuery P.c P.db P.fuel d = .ok (d', table, s))
    (h3 : P.text d' = .ok text) (h4 : readN res text = some m) (h5 : execN sch bst m = some (bst', rows)) (h6 : P.answer table s rows = .ok out) :
    serve P res sch bst sql = some (bst', out) := by
  have : P.send sql = .ok (text, table, s) := by simp [Proxy.send, h1, h2, h3]
  simp [serve, this, h4, h5, h6]

/-- An INSERT is read as in C71. -/
theorem readN_insert {res : List Char → Bool} {s : List Char} {t : String} {ns : List String} {vs : List DbVal} (h : readStmt res s = some (.insert t ns vs)) :
    readN res s = some (.insert t ns vs) := by
  unfold readStmt at h
  unfold readN
  cases hl : lex s.length s with
  | none => simp [hl] at h
  | some ts =>
    rw [hl, Option.bind_some] at h
    rw [Option.bind_some]
    cases ts with
    | nil => simp [pStmt] at h
    | cons x r =>
      cases x with
      | word w =>
        rw [pStmt] at h
        rw [pStmtN]
        split at h
        · rename_i hi
          rw [if_pos hi, pInsertN, h]
        · split at h
          · simp [pSelect, Option.bind_eq_some_iff] at h
          · split at h
            · simp [pUpdate, Option.bind_eq_some_iff] at h
            · split at h
              · simp [pDelete, Option.bind_eq_some_iff] at h
              · cases h
      | _ => simp [pStmt] at h

/-- **C90, one statement.** With NULL as a value in UPDATE, or a condition IS NULL or IS NOT NULL over a plaintext column, the proxy and the backend answer what a
database without encryption would answer, and the backend then holds what that database would hold. -/
theorem C90_statement_partial {P : Proxy} {res : List Char → Bool} (hP : Sound P res) {sch : Nulls.Schema} (hS : Nulls.Shaped P sch) {pst : PTables} {bst : Tables}
    (hR : Nulls.Rel P pst bst) {sql : List Char} {u : NUStmt} (hs : Says P.env P.space sql u) (hf : Fine P.db u) :
    ∃ bst', serve P res sch bst sql = some (bst', (pexec pst u).2) ∧ Nulls.Rel P (pexec pst u).1 bst' := by
  have hpar := parsed_says hs hf.parsable
  obtain ⟨d, hd⟩ := hP.depth
  clear hs
  cases u with
  | insert t row =>
    obtain ⟨tm, ht, hl, hnd, hrow⟩ := hf
    obtain ⟨rows, brows, hp, hb, hrel⟩ := hR t tm ht
    obtain ⟨all, hsch, hall⟩ := hS t tm ht
    have hkeys : ∀ e ∈ row, e.1 ∈ Dict.keys tm.columns := fun e he => by
      obtain ⟨cm, hc, _⟩ := hrow e he
      exact mem_keys hc
    have hnames := targets_nodup (hP.names t tm ht) hnd hkeys
    obtain ⟨ins, s, stored, text, h1, h2, h3, h4, h5⟩ := insert_sent ht (hP.named t tm ht) hP.hom (hP.known t tm ht) (row := row)
      (flatMap_ne (by rintro rfl; simp at hl) fun e he => by
        obtain ⟨cm, hc, _⟩ := hrow e he
        exact targets_ne hP ht hc) hnames hrow (n := d + 1) hd
    refine ⟨Dict.set bst tm.anonymous (brows ++ [Nulls.filled all stored]), serve_of hpar h1 h2 (readN_insert h3) (rows := []) ?_ rfl, ?_⟩
    · rw [execN, Nulls.exec3, hb, hsch]
      simp only
      have hin : ∀ b ∈ stored.map Prod.fst, b ∈ all := by
        intro b hbm
        rw [h4] at hbm
        obtain ⟨e, he, hbm⟩ := List.mem_flatMap.1 hbm
        exact (hall b).2 ⟨e.1, hkeys e he, hbm⟩
      rw [if_pos ⟨by rw [h4]; exact hnames, by simp, hin⟩, zip_fst_snd]
    · have := Nulls.keeps_filled (hP.names t tm ht) hall (fun e he => by
        obtain ⟨cm, hc, hi⟩ := hrow e he
        exact ⟨cm, hc, hi.1⟩) h4 h5
      have := Nulls.rel_set hP hR ht (List.rel_append hrel (.cons this .nil))
      simpa [pexec, Whole.pexec, hp] using this
  | select t ns w =>
    obtain ⟨tm, ht, hpl, hns, hr, hw⟩ := hf
    obtain ⟨rows, brows, hp, hb, hrel⟩ := hR t tm ht
    have hn := hP.named t tm ht
    have hbare := names_bare hn hr
    obtain ⟨j, toks, mt, out, hj1, hj2, hpart, hm⟩ := where_sentN hn ht hw
    obtain ⟨l, hl, hl'⟩ := Like.pickBy_rel hm hrel
    obtain ⟨ans, ho, ha⟩ := Nulls.rows_answer ht hr hl'
    refine ⟨bst, ?_, hR⟩
    have := serve_of (sch := sch) (bst := bst) (bst' := bst) hpar (select_rewrittenN ht hpl hr hj1 hj2 P.fuel) (select_writtenN hbare hn.table hpart hd)
      (read_selectN hpart (by simpa [readNames] using hns) hbare hn.table) (rows := ans) (by rw [execN, hb]; simp only [hl]; rw [ho]; rfl) ha
    simpa [pexec, hp] using this
  | update t sets w =>
    obtain ⟨tm, ht, hne, hnd, hset, hw⟩ := hf
    obtain ⟨rows, brows, hp, hb, hrel⟩ := hR t tm ht
    have hn := hP.named t tm ht
    have hkeys : ∀ e ∈ sets, e.1 ∈ Dict.keys tm.columns := fun e he => by
      obtain ⟨cm, hc, _⟩ := hset e he
      exact mem_keys hc
    have hnames := targets_nodup (hP.names t tm ht) hnd hkeys
    have hcells := out_cellsN (P := P) hn hset
    have hne' : assignOutN P.c tm.columns sets ≠ [] := by
      have : (assignOutN P.c tm.columns sets).map Prod.fst ≠ [] := by
        rw [assignOutN_names]
        exact flatMap_ne hne fun e he => by
          obtain ⟨cm, hc, _⟩ := hset e he
          exact targets_ne hP ht hc
      simpa using this
    obtain ⟨j, toks, mt, out, hj1, hj2, hpart, hm⟩ := where_sentN hn ht hw
    obtain ⟨l, hl, hl'⟩ := Like.changeBy_rel hm (u := assign (assignedN P.c tm.columns sets)) (v := putAll sets)
      (fun row brow h => keeps_put (hP.names t tm ht) hnd hset h) hrel
    refine ⟨Dict.set bst tm.anonymous l, ?_, ?_⟩
    · refine serve_of hpar (update_rewrittenN ht hset hnames hj1 hj2 P.fuel)
        (update_writtenN (fun e he => (hcells e he).1) (fun e he => (hcells e he).2) hpart (n := d + 1) hd)
        (read_updateN hpart hne' (fun e he => (hcells e he).1) (fun e he => (hcells e he).2) hn.table) (rows := []) ?_ rfl
      rw [execN, hb]
      simp only
      rw [if_pos, show (assignOutN P.c tm.columns sets).map (fun e => (e.1, e.2.val)) = assignedN P.c tm.columns sets from rfl, hl]
      · rfl
      · rw [List.all_eq_true]
        intro x hx
        rw [List.all_eq_true]
        intro brow hbm
        obtain ⟨row, _, hk⟩ : ∃ row, row ∈ rows ∧ Nulls.Keeps P.c tm.columns row brow := by
          clear hl hl' hp hb
          induction hrel with
          | nil => simp at hbm
          | @cons a b l m h1 _ ih =>
            rcases List.mem_cons.1 hbm with rfl | hbm
            · exact ⟨a, by simp, h1⟩
            · obtain ⟨r, hr, hk⟩ := ih hbm
              exact ⟨r, by simp [hr], hk⟩
        have hmem : x.1 ∈ (assignedN P.c tm.columns sets).map Prod.fst := List.mem_map.2 ⟨x, hx, rfl⟩
        rw [assignedN_names] at hmem
        obtain ⟨e, he, hpe⟩ := List.mem_flatMap.1 hmem
        exact hk.there e.1 (hkeys e he) x.1 hpe
    · have := Nulls.rel_set hP hR ht hl'
      simpa [pexec, hp] using this
  | delete t w =>
    obtain ⟨tm, ht, hw⟩ := hf
    obtain ⟨rows, brows, hp, hb, hrel⟩ := hR t tm ht
    have hn := hP.named t tm ht
    obtain ⟨j, toks, mt, out, hj1, hj2, hpart, hm⟩ := where_sentN hn ht hw
    obtain ⟨l, hl, hl'⟩ := Like.removeBy_rel hm hrel
    refine ⟨Dict.set bst tm.anonymous l, ?_, ?_⟩
    · exact serve_of hpar (delete_rewrittenN ht hj1 hj2 P.fuel) (delete_writtenN hpart (n := d + 1) hd) (read_deleteN hpart hn.table) (rows := [])
        (by rw [execN, hb]; simp only [hl]; rfl) rfl
    · have := Nulls.rel_set hP hR ht hl'
      simpa [pexec, hp] using this

/-- **C90, sessions** of any length. -/
theorem C90_session_partial {P : Proxy} {res : List Char → Bool} (hP : Sound P res) {sch : Nulls.Schema} (hS : Nulls.Shaped P sch) {pst : PTables} {bst : Tables}
    (hR : Nulls.Rel P pst bst) {sqls : List (List Char)} {us : List NUStmt} (hs : List.Forall₂ (Says P.env P.space) sqls us) (hf : ∀ u ∈ us, Fine P.db u) :
    ∃ bst', session P res sch bst sqls = some (bst', (psession pst us).2) ∧ Nulls.Rel P (psession pst us).1 bst' := by
  induction hs generalizing pst bst with
  | nil => exact ⟨bst, rfl, hR⟩
  | @cons sql u sqls us h _ ih =>
    obtain ⟨bst1, h1, h2⟩ := C90_statement_partial hP hS hR h (hf u (by simp))
    obtain ⟨bst2, h3, h4⟩ := ih h2 fun u hu => hf u (by simp [hu])
    exact ⟨bst2, by rw [session, h1]; simp only [h3]; rfl, h4⟩

/-- A column that was set to NULL is shown as NULL in every row concerned, the other columns as before. -/
theorem C90_set_null (sets : List (String × Option Val)) (hd : (sets.map Prod.fst).Nodup) (row : PRow) (n : String) :
    ((n, none) ∈ sets → shown (putAll sets row) n = .null) ∧ (∀ v, (n, some v) ∈ sets → shown (putAll sets row) n = v.out) ∧
      (n ∉ sets.map Prod.fst → shown (putAll sets row) n = shown row n) := by
  refine ⟨fun h => ?_, fun v h => ?_, fun h => ?_⟩
  · rw [Whole.shown, putAll_mem hd h]
  · rw [Whole.shown, putAll_mem hd h]
  · rw [Whole.shown, putAll_other h, Whole.shown]

/-- IS NULL and IS NOT NULL divide the rows. -/
theorem C90_divide (n : String) (row : PRow) : chosen (.isNull n false) row = !chosen (.isNull n true) row := by
  simp only [chosen]
  cases Dict.get? row n <;> rfl

end EulerDB.NullLit
