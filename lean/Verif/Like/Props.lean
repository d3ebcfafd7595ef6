/-
C88: a search with LIKE through the proxy finds the rows that the pattern matches.
-/
import Verif.Like.Stmts

namespace EulerDB.Like

open EulerDB EulerDB.Clause EulerDB.Delta EulerDB.Whole

/-! ### Rows -/

theorem pickBy_rel {R : PRow → Whole.Row → Prop} {f : Whole.Row → Option Bool} {g : PRow → Bool} (hf : ∀ row brow, R row brow → f brow = some (g row))
    {rows : List PRow} {brows : List Whole.Row} (h : List.Forall₂ R rows brows) : ∃ l, pickBy f brows = some l ∧ List.Forall₂ R (rows.filter g) l := by
  induction h with
  | nil => exact ⟨[], rfl, .nil⟩
  | @cons row brow rows brows h1 _ ih =>
    obtain ⟨l, h2, h3⟩ := ih
    rw [pickBy, hf _ _ h1, h2, List.filter_cons]
    cases hs : g row with
    | true => exact ⟨brow :: l, by simp, by simpa using List.Forall₂.cons h1 h3⟩
    | false => exact ⟨l, by simp, by simpa using h3⟩

theorem changeBy_rel {R : PRow → Whole.Row → Prop} {f : Whole.Row → Option Bool} {g : PRow → Bool} (hf : ∀ row brow, R row brow → f brow = some (g row))
    {u : Whole.Row → Whole.Row} {v : PRow → PRow} (hu : ∀ row brow, R row brow → R (v row) (u brow)) {rows : List PRow} {brows : List Whole.Row}
    (h : List.Forall₂ R rows brows) :
    ∃ l, changeBy f (fun r => some (u r)) brows = some l ∧ List.Forall₂ R (rows.map fun row => if g row then v row else row) l := by
  induction h with
  | nil => exact ⟨[], rfl, .nil⟩
  | @cons row brow rows brows h1 _ ih =>
    obtain ⟨l, h2, h3⟩ := ih
    rw [changeBy, hf _ _ h1, h2, List.map_cons]
    cases hs : g row with
    | true => exact ⟨u brow :: l, by simp, by simpa using List.Forall₂.cons (hu _ _ h1) h3⟩
    | false => exact ⟨brow :: l, by simp, by simpa using List.Forall₂.cons h1 h3⟩

theorem removeBy_rel {R : PRow → Whole.Row → Prop} {f : Whole.Row → Option Bool} {g : PRow → Bool} (hf : ∀ row brow, R row brow → f brow = some (g row))
    {rows : List PRow} {brows : List Whole.Row} (h : List.Forall₂ R rows brows) :
    ∃ l, changeBy f (fun _ => none) brows = some l ∧ List.Forall₂ R (rows.filter fun row => !g row) l := by
  induction h with
  | nil => exact ⟨[], rfl, .nil⟩
  | @cons row brow rows brows h1 _ ih =>
    obtain ⟨l, h2, h3⟩ := ih
    rw [changeBy, hf _ _ h1, h2, List.filter_cons]
    cases hs : g row with
    | true => exact ⟨l, by simp, by simpa using h3⟩
    | false => exact ⟨brow :: l, by simp, by simpa using List.Forall₂.cons h1 h3⟩

/-! ### One statement -/

def LUStmt.json : LUStmt → Dict String Json
  | .plain u => u.json
  | .select t ns n p => selectJ (colsIn ns) t (likeJson n p)
  | .update t sets n p => updateJ t (sets.map fun e => (e.1, e.2.rhs)) (likeJson n p)
  | .delete t n p => deleteJ t (likeJson n p)

/-- What is asked for the statement to be parsed. -/
def Parsable (db : Db) : LUStmt → Prop
  | .plain u => Nulls.Fine db u
  | .select _ ns _ _ => ns ≠ []
  | .update _ sets _ _ => (sets.map Prod.fst).Nodup
  | .delete _ _ _ => True

theorem Fine.parsable {db : Db} {u : LUStmt} (h : Fine db u) : Parsable db u := by
  cases u with
  | plain u => exact h
  | select t ns n p => exact h.choose_spec.2.2.1
  | update t sets n p => exact h.choose_spec.2.2.1
  | delete t n p => trivial

theorem parsed_says {P : Proxy} {sql : List Char} {u : LUStmt} (hs : Says P.env P.space sql u) (hf : Parsable P.db u) : P.parsed sql = .ok u.json := by
  cases hs with
  | plain hs => exact Nulls.parsed_says hs hf
  | @select s ns t n p v ht h hw =>
    have hp := Sql.C70_select_partial P.env P.space ht h
    rw [listJson_cols hf, Sql.whereJson, hw] at hp
    obtain ⟨u, v, rfl, _, _⟩ := ht.split
    cases h with
    | mk h1 _ _ _ _ _ _ => exact parsed_of (no_alter _ (by simp) h1) hp
  | @update s t l n p v sets ht h hl hw =>
    have hp := Sql.C70_update_partial P.env P.space ht h (by
      have := congrArg (List.map Prod.fst) hl
      simp only [List.map_map, Function.comp_def] at this
      exact this ▸ hf)
    rw [hl, Sql.whereJson, hw] at hp
    obtain ⟨u, v, rfl, _, _⟩ := ht.split
    cases h with
    | mk h1 _ _ _ _ => exact parsed_of (no_alter _ (by simp) h1) hp
  | @delete s t n p v ht h hw =>
    have hp := Sql.C70_delete_partial P.env P.space ht h
    rw [Sql.whereJson, hw] at hp
    obtain ⟨u, v, rfl, _, _⟩ := ht.split
    cases h with
    | mk h1 _ _ _ => exact parsed_of (no_alter _ (by simp) h1) hp

theorem serve_of {P : Proxy} {res : List Char → Bool} {sch : Nulls.Schema} {bst bst' : Tables} {sql text : List Char} {d d' : Dict String Json} {table : Json} {s : Sel}
    {m : LStmt} {rows : List (List DbVal)} {out : List (List OutVal)} (h1 : P.parsed sql = .ok d) (h2 : rewriteQuery P.c P.db P.fuel d = .ok (d', table, s))
    (h3 : P.text d' = .ok text) (h4 : readStmt res text = none ∧ readLike res text = some m) (h5 : execL bst m = some (bst', rows))
    (h6 : P.answer table s rows = .ok out) : serve P res sch bst sql = some (bst', out) := by
  have : P.send sql = .ok (text, table, s) := by simp [Proxy.send, h1, h2, h3]
  simp [serve, execAny, this, h4.1, h4.2, h5, h6]

/-- The statements of C87 are answered as they are there. -/
theorem serve_plain {P : Proxy} {res : List Char → Bool} {sch : Nulls.Schema} {st : Tables} {sql : List Char} {r : Tables × List (List OutVal)}
    (h : Nulls.serve P res sch st sql = some r) : serve P res sch st sql = some r := by
  unfold Nulls.serve at h
  unfold serve execAny
  cases hs : P.send sql with
  | error e => simp [hs] at h
  | ok x =>
    obtain ⟨t, table, s⟩ := x
    simp only [hs] at h ⊢
    cases hr : readStmt res t with
    | none => simp [hr] at h
    | some m =>
      simp only [hr] at h ⊢
      exact h

/-- **C88, one statement.** A SELECT, UPDATE or DELETE with LIKE is answered by the proxy and the backend as by a database without encryption in which LIKE is
`found`, and the backend then holds what that database would hold. -/
theorem C88_statement_partial {P : Proxy} {res : List Char → Bool} (hP : Sound P res) {sch : Nulls.Schema} (hS : Nulls.Shaped P sch) {pst : PTables} {bst : Tables}
    (hR : Nulls.Rel P pst bst) {sql : List Char} {u : LUStmt} (hs : Says P.env P.space sql u) (hf : Fine P.db u) :
    ∃ bst', serve P res sch bst sql = some (bst', (pexec (found P.c P.db) pst u).2) ∧ Nulls.Rel P (pexec (found P.c P.db) pst u).1 bst' := by
  have hpar := parsed_says hs hf.parsable
  obtain ⟨d, hd⟩ := hP.depth
  cases u with
  | plain u =>
    cases hs with
    | plain hs =>
      obtain ⟨bst', h1, h2⟩ := Nulls.C87_statement_partial hP hS hR hs hf
      exact ⟨bst', serve_plain h1, h2⟩
  | select t ns n p =>
    obtain ⟨tm, ht, hpl, hns, hr, hw⟩ := hf
    obtain ⟨rows, brows, hp, hb, hrel⟩ := hR t tm ht
    have hn := hP.named t tm ht
    have hbare := names_bare hn hr
    obtain ⟨b, q, hwr, hbb, hq, hm⟩ := like_sent (c := P.c) hn ht hw
    obtain ⟨l, hl, hl'⟩ := pickBy_rel hm hrel
    obtain ⟨out, ho, ha⟩ := Nulls.rows_answer ht hr hl'
    refine ⟨bst, ?_, hR⟩
    have := serve_of (sch := sch) (bst := bst) (bst' := bst) hpar (select_rewrittenL ht hpl hr hwr P.fuel) (select_writtenL hbare hn.table hbb hq hd)
      (read_selectL (by simpa [readNames] using hns) hbare hn.table hbb hq) (rows := out) (by rw [execL, hb]; simp only [hl]; rw [ho]; rfl) ha
    simpa [pexec, hp] using this
  | update t sets n p =>
    obtain ⟨tm, ht, hne, hnd, hset, hw⟩ := hf
    obtain ⟨rows, brows, hp, hb, hrel⟩ := hR t tm ht
    have hn := hP.named t tm ht
    have hkeys : ∀ e ∈ sets, e.1 ∈ Dict.keys tm.columns := fun e he => by
      obtain ⟨cm, hc, _⟩ := hset e he
      exact mem_keys hc
    have hnames := targets_nodup (hP.names t tm ht) hnd hkeys
    have hcells := out_cells (P := P) hn hset
    have hne' : assignOut P.c tm.columns sets ≠ [] := by
      have : (assignOut P.c tm.columns sets).map Prod.fst ≠ [] := by
        rw [assignOut_names]
        exact flatMap_ne hne fun e he => by
          obtain ⟨cm, hc, _⟩ := hset e he
          exact targets_ne hP ht hc
      simpa using this
    obtain ⟨b, q, hwr, hbb, hq, hm⟩ := like_sent (c := P.c) hn ht hw
    obtain ⟨l, hl, hl'⟩ := changeBy_rel hm (u := assign (assigned P.c tm.columns sets)) (v := setAll sets)
      (fun row brow h => Nulls.keeps_update (hP.names t tm ht) hnd hset h) hrel
    refine ⟨Dict.set bst tm.anonymous l, ?_, ?_⟩
    · refine serve_of hpar (update_rewrittenL ht hset hnames hwr P.fuel) (update_writtenL (fun e he => (hcells e he).1) (fun e he => (hcells e he).2) hbb hq (n := d + 1) hd)
        (read_updateL hne' (fun e he => (hcells e he).1) (fun e he => (hcells e he).2) hn.table hbb hq) (rows := []) ?_ rfl
      rw [execL, hb]
      simp only
      rw [if_pos, show (assignOut P.c tm.columns sets).map (fun e => (e.1, e.2.val)) = assigned P.c tm.columns sets from rfl, hl]
      · rfl
      · rw [List.all_eq_true]
        intro x hx
        rw [List.all_eq_true]
        intro brow hbm
        obtain ⟨row, _, hk⟩ : ∃ row, row ∈ rows ∧ Nulls.Keeps P.c tm.columns row brow := by
          clear hl hl' hp hb
          induction hrel with
          | nil => simp at hbm
          | @cons a b l m h1 _ ih =>
            rcases List.mem_cons.1 hbm with rfl | hbm
            · exact ⟨a, by simp, h1⟩
            · obtain ⟨r, hr, hk⟩ := ih hbm
              exact ⟨r, by simp [hr], hk⟩
        have hmem : x.1 ∈ (assigned P.c tm.columns sets).map Prod.fst := List.mem_map.2 ⟨x, hx, rfl⟩
        rw [assigned_names] at hmem
        obtain ⟨e, he, hpe⟩ := List.mem_flatMap.1 hmem
        exact hk.there e.1 (hkeys e he) x.1 hpe
    · have := Nulls.rel_set hP hR ht hl'
      simpa [pexec, hp] using this
  | delete t n p =>
    obtain ⟨tm, ht, hw⟩ := hf
    obtain ⟨rows, brows, hp, hb, hrel⟩ := hR t tm ht
    have hn := hP.named t tm ht
    obtain ⟨b, q, hwr, hbb, hq, hm⟩ := like_sent (c := P.c) hn ht hw
    obtain ⟨l, hl, hl'⟩ := removeBy_rel hm hrel
    refine ⟨Dict.set bst tm.anonymous l, ?_, ?_⟩
    · exact serve_of hpar (delete_rewrittenL ht hwr P.fuel) (delete_writtenL hbb hq (n := d + 1) hd) (read_deleteL hn.table hbb hq) (rows := [])
        (by rw [execL, hb]; simp only [hl]; rfl) rfl
    · have := Nulls.rel_set hP hR ht hl'
      simpa [pexec, hp] using this

/-- **C88, sessions** of any length, statements with and without LIKE mixed. -/
theorem C88_session_partial {P : Proxy} {res : List Char → Bool} (hP : Sound P res) {sch : Nulls.Schema} (hS : Nulls.Shaped P sch) {pst : PTables} {bst : Tables}
    (hR : Nulls.Rel P pst bst) {sqls : List (List Char)} {us : List LUStmt} (hs : List.Forall₂ (Says P.env P.space) sqls us) (hf : ∀ u ∈ us, Fine P.db u) :
    ∃ bst', session P res sch bst sqls = some (bst', (psession (found P.c P.db) pst us).2) ∧ Nulls.Rel P (psession (found P.c P.db) pst us).1 bst' := by
  induction hs generalizing pst bst with
  | nil => exact ⟨bst, rfl, hR⟩
  | @cons sql u sqls us h _ ih =>
    obtain ⟨bst1, h1, h2⟩ := C88_statement_partial hP hS hR h (hf u (by simp))
    obtain ⟨bst2, h3, h4⟩ := ih h2 fun u hu => hf u (by simp [hu])
    exact ⟨bst2, by rw [session, h1]; simp only [h3]; rfl, h4⟩

/-! ### What is found -/

theorem found_plain {c : Crypto} {db : Db} {t n p : String} {tm : TableMeta ColMeta} {cm : ColMeta} (ht : Dict.get? db t = some tm)
    (hc : Dict.get? tm.columns n = some cm) (hp : cm.plaintext = true) (row : PRow) : found c db t n p row = meant t n p row := by
  unfold found meant
  rw [ht, Option.bind_some, hc]
  cases Dict.get? row n with
  | none => rfl
  | some v => simp [hp]

/-- A pattern that was accepted finds a value whose fuzzy ciphertext it matches. -/
theorem found_enc {c : Crypto} {db : Db} {t n p : String} {tm : TableMeta ColMeta} {cm : ColMeta} (ht : Dict.get? db t = some tm)
    (hc : Dict.get? tm.columns n = some cm) (hp : cm.plaintext = false) (hw : ∀ w ∈ Fuzzy.words p.toList, 3 ≤ w.length) {row : PRow} {v : Val}
    (hv : Dict.get? row n = some v) : ∃ q e, Fuzzy.likeRewrite c.alnum (c.aes cm.key) p.toList = .ok q ∧
      Fuzzy.fuzzyEncrypt c.alnum (c.aes cm.key) v.str = .ok e ∧ found c db t n p row = Fuzzy.like q e := by
  obtain ⟨q, hq⟩ := (Fuzzy.C08_pattern_accepted_iff c.alnum (c.aes cm.key) p.toList).2 hw
  refine ⟨q, _, hq, Fuzzy.fuzzyEncrypt_eq _ _ _, ?_⟩
  unfold found
  rw [ht, Option.bind_some, hc, hv]
  simp only [hp, Bool.false_eq_true, if_false, hq, Fuzzy.fuzzyEncrypt_eq]

/-- **C88, one word.** In an encrypted column a pattern with one word finds the values it matches, except those that are not alphanumeric if the word is. -/
theorem C88_one_word {c : Crypto} (hN : c.alnum '\x00' = false) {db : Db} {t n p : String} {w : List Char} {tm : TableMeta ColMeta} {cm : ColMeta}
    (ht : Dict.get? db t = some tm) (hc : Dict.get? tm.columns n = some cm) (hp : cm.plaintext = false) (hpp : Fuzzy.PlainPattern p.toList)
    (hw : Fuzzy.words p.toList = [w]) (h3 : 3 ≤ w.length) {row : PRow} {v : Val} (hv : Dict.get? row n = some v) :
    found c db t n p row = (meant t n p row && (Fuzzy.strAlnum c.alnum v.str || !Fuzzy.strAlnum c.alnum w)) := by
  obtain ⟨q, e, hq, he, hf⟩ := found_enc (c := c) ht hc hp (p := p) (by rw [hw]; simpa using h3) hv
  rw [hf, meant, hv]
  simp only
  cases hs : Fuzzy.strAlnum c.alnum v.str || !Fuzzy.strAlnum c.alnum w with
  | true =>
    rw [Bool.and_true, Bool.eq_iff_iff]
    refine ⟨Fuzzy.C09_no_false_positives_partial c.alnum hN _ _ _ _ _ w hpp hw hq he, Fuzzy.C08_no_false_negatives_partial c.alnum hN _ _ _ _ _ hpp hq he ?_⟩
    rw [hw]
    simpa using hs
  | false =>
    simp only [Bool.or_eq_false_iff, Bool.not_eq_false'] at hs
    rw [Bool.and_false]
    exact Fuzzy.C08_fails_mixed c.alnum hN _ _ _ _ _ hq he hs.1 w (by rw [hw]; simp) hs.2

/-- **C88, several words:** a value that the pattern matches is found, if it is alphanumeric or none of the words is. -/
theorem C88_none_missed_partial {c : Crypto} (hN : c.alnum '\x00' = false) {db : Db} {t n p : String} {tm : TableMeta ColMeta} (ht : Dict.get? db t = some tm)
    (hs : Searchable tm.columns n p) (hpp : Fuzzy.PlainPattern p.toList) {row : PRow}
    (hv : ∀ v, Dict.get? row n = some v → Fuzzy.strAlnum c.alnum v.str = true ∨ ∀ w ∈ Fuzzy.words p.toList, Fuzzy.strAlnum c.alnum w = false)
    (hm : meant t n p row = true) : found c db t n p row = true := by
  obtain ⟨cm, hc, _, hen⟩ := hs
  by_cases hp : cm.plaintext = true
  · rw [found_plain ht hc hp]; exact hm
  · have hp' : cm.plaintext = false := by simpa using hp
    cases hg : Dict.get? row n with
    | none => simp [meant, hg] at hm
    | some v =>
      obtain ⟨q, e, hq, he, hf⟩ := found_enc (c := c) ht hc hp' (hen hp').2 hg
      rw [hf]
      simp only [meant, hg] at hm
      exact Fuzzy.C08_no_false_negatives_partial c.alnum hN _ _ _ _ _ hpp hq he (hv v hg) hm

/-- Every value that is found in an encrypted column contains every word of the pattern. -/
theorem C88_words_occur_partial {c : Crypto} (hN : c.alnum '\x00' = false) {db : Db} {t n p : String} {tm : TableMeta ColMeta} {cm : ColMeta}
    (ht : Dict.get? db t = some tm) (hc : Dict.get? tm.columns n = some cm) (hp : cm.plaintext = false) {row : PRow} (hm : found c db t n p row = true) :
    ∃ v, Dict.get? row n = some v ∧ ∀ w ∈ Fuzzy.words p.toList, w <:+: v.str := by
  unfold found at hm
  rw [ht, Option.bind_some, hc] at hm
  cases hv : Dict.get? row n with
  | none => simp [hv] at hm
  | some v =>
    refine ⟨v, rfl, ?_⟩
    simp only [hv, hp, Bool.false_eq_true, if_false, Fuzzy.fuzzyEncrypt_eq] at hm
    cases hq : Fuzzy.likeRewrite c.alnum (c.aes cm.key) p.toList with
    | error e => simp [hq] at hm
    | ok q =>
      simp only [hq] at hm
      exact Fuzzy.C09_every_word_occurs_partial c.alnum hN _ _ _ _ _ hq (Fuzzy.fuzzyEncrypt_eq _ _ _) hm

/-- A search whose answer does not depend on the values: the column is not encrypted, or the pattern has one word, which is not alphanumeric. -/
def Exact (alnum : Char → Bool) (cols : Dict String ColMeta) (n p : String) : Prop :=
  ∃ cm, Dict.get? cols n = some cm ∧ (cm.plaintext = false → Fuzzy.PlainPattern p.toList ∧ ∃ w, Fuzzy.words p.toList = [w] ∧ Fuzzy.strAlnum alnum w = false)

theorem found_exact {c : Crypto} (hN : c.alnum '\x00' = false) {db : Db} {t n p : String} {tm : TableMeta ColMeta} (ht : Dict.get? db t = some tm)
    (hs : Searchable tm.columns n p) (he : Exact c.alnum tm.columns n p) : found c db t n p = meant t n p := by
  funext row
  obtain ⟨cm, hc, hx⟩ := he
  obtain ⟨cm', hc', _, hw⟩ := hs
  rw [hc] at hc'
  injection hc' with hc'
  subst hc'
  by_cases hp : cm.plaintext = true
  · exact found_plain ht hc hp row
  · have hp' : cm.plaintext = false := by simpa using hp
    obtain ⟨hpp, w, h1, h2⟩ := hx hp'
    cases hv : Dict.get? row n with
    | none =>
      unfold found meant
      rw [ht, Option.bind_some, hc, hv]
    | some v =>
      rw [C88_one_word hN ht hc hp' hpp h1 ((hw hp').2 w (by rw [h1]; simp)) hv, h2]
      simp

/-- The statement searches exactly. -/
def Precise (alnum : Char → Bool) (db : Db) : LUStmt → Prop
  | .plain _ => True
  | .select t _ n p => ∃ tm, Dict.get? db t = some tm ∧ Exact alnum tm.columns n p
  | .update t _ n p => ∃ tm, Dict.get? db t = some tm ∧ Exact alnum tm.columns n p
  | .delete t n p => ∃ tm, Dict.get? db t = some tm ∧ Exact alnum tm.columns n p

theorem same {db : Db} {t : String} {tm tm' : TableMeta ColMeta} (h : Dict.get? db t = some tm) (h' : Dict.get? db t = some tm') : tm = tm' := by
  rw [h] at h'
  injection h'

theorem pexec_exact {c : Crypto} (hN : c.alnum '\x00' = false) {db : Db} (st : PTables) {u : LUStmt} (hf : Fine db u) (he : Precise c.alnum db u) :
    pexec (found c db) st u = pexec meant st u := by
  cases u with
  | plain u => rfl
  | select t ns n p =>
    obtain ⟨tm, ht, _, _, _, hs⟩ := hf
    obtain ⟨tm', ht', he⟩ := he
    obtain rfl := same ht ht'
    rw [pexec, pexec, found_exact hN ht hs he]
  | update t sets n p =>
    obtain ⟨tm, ht, _, _, _, hs⟩ := hf
    obtain ⟨tm', ht', he⟩ := he
    obtain rfl := same ht ht'
    rw [pexec, pexec, found_exact hN ht hs he]
  | delete t n p =>
    obtain ⟨tm, ht, hs⟩ := hf
    obtain ⟨tm', ht', he⟩ := he
    obtain rfl := same ht ht'
    rw [pexec, pexec, found_exact hN ht hs he]

/-- **C88, exact sessions:** if every search is over a plaintext column or for one word that is not alphanumeric, the answers are those of a database without
encryption. -/
theorem C88_exact_session_partial {P : Proxy} {res : List Char → Bool} (hP : Sound P res) (hN : P.c.alnum '\x00' = false) {sch : Nulls.Schema} (hS : Nulls.Shaped P sch)
    {pst : PTables} {bst : Tables} (hR : Nulls.Rel P pst bst) {sqls : List (List Char)} {us : List LUStmt} (hs : List.Forall₂ (Says P.env P.space) sqls us)
    (hf : ∀ u ∈ us, Fine P.db u) (he : ∀ u ∈ us, Precise P.c.alnum P.db u) :
    ∃ bst', session P res sch bst sqls = some (bst', (psession meant pst us).2) ∧ Nulls.Rel P (psession meant pst us).1 bst' := by
  have : ∀ (us : List LUStmt) (pst : PTables), (∀ u ∈ us, Fine P.db u) → (∀ u ∈ us, Precise P.c.alnum P.db u) →
      psession (found P.c P.db) pst us = psession meant pst us := by
    intro us
    induction us with
    | nil => intro _ _ _; rfl
    | cons u us ih =>
      intro pst hf he
      rw [psession, psession, pexec_exact hN pst (hf u (by simp)) (he u (by simp)), ih _ (fun u hu => hf u (by simp [hu])) fun u hu => he u (by simp [hu])]
  rw [← this us pst hf he]
  exact C88_session_partial hP hS hR hs hf

/-- **C88, alphanumeric columns:** where all values are alphanumeric, a search for one word is exact. -/
theorem C88_alnum_column_partial {P : Proxy} {res : List Char → Bool} (hP : Sound P res) (hN : P.c.alnum '\x00' = false) {sch : Nulls.Schema} (hS : Nulls.Shaped P sch)
    {pst : PTables} {bst : Tables} (hR : Nulls.Rel P pst bst) {sql : List Char} {t n p : String} {ns : List String} (hs : Says P.env P.space sql (.select t ns n p))
    (hf : Fine P.db (.select t ns n p)) (hpp : Fuzzy.PlainPattern p.toList) {w : List Char} (hw : Fuzzy.words p.toList = [w])
    (ha : ∀ row ∈ (Dict.get? pst t).getD [], ∀ v, Dict.get? row n = some v → Fuzzy.strAlnum P.c.alnum v.str = true) :
    ∃ bst', serve P res sch bst sql = some (bst', (((Dict.get? pst t).getD []).filter (meant t n p)).map fun row => ns.map (shown row)) := by
  obtain ⟨bst', h, _⟩ := C88_statement_partial hP hS hR hs hf
  obtain ⟨tm, ht, _, _, _, cm, hc, _, hen⟩ := hf
  refine ⟨bst', ?_⟩
  rw [h]
  simp only [pexec]
  have : ((Dict.get? pst t).getD []).filter (found P.c P.db t n p) = ((Dict.get? pst t).getD []).filter (meant t n p) := by
    refine List.filter_congr fun row hr => ?_
    by_cases hp : cm.plaintext = true
    · exact found_plain ht hc hp row
    · have hp' : cm.plaintext = false := by simpa using hp
      cases hv : Dict.get? row n with
      | none =>
        unfold found meant
        rw [ht, Option.bind_some, hc, hv]
      | some v =>
        rw [C88_one_word hN ht hc hp' hpp hw ((hen hp').2 w (by rw [hw]; simp)) hv, ha row hr v hv]
        simp
  rw [this]

end EulerDB.Like
