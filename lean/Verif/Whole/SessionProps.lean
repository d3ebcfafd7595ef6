/-
C71: a session through the proxy is a session with a database without encryption.
-/
import Verif.Whole.Session

namespace EulerDB.Whole

open EulerDB EulerDB.Clause EulerDB.Delta

/-! ### Rows -/

theorem Keeps.kinds {c : Crypto} {cols : Dict String ColMeta} {row : PRow} {brow : Row} (h : Keeps c cols row brow) : Kinds cols fun n => Dict.get? row n := by
  constructor
  · intro n cm hc ht
    obtain ⟨v, hv, hs⟩ := h.vals n cm hc
    cases v with
    | int z => exact ⟨z, hv⟩
    | text s => exact absurd ht hs.1
  · intro n cm hc ht
    obtain ⟨v, hv, hs⟩ := h.vals n cm hc
    cases v with
    | int z => exact absurd hs ht.1
    | text s => exact ⟨s, hv, hs.2.2.2⟩

theorem Keeps.concerned {P : Writer} {res : List Char → Bool} {c : Crypto} {tm : TableMeta ColMeta} (hn : Named P res tm) {row : PRow} {brow : Row}
    (h : Keeps c tm.columns row brow) {w : Option Cond} (hw : TypedW tm.columns w) :
    concerns ((sentW c tm.columns w).map W.ex) brow = some (selected w row) := by
  cases w with
  | none => rfl
  | some x => exact sent_truth hn h.kinds h.holds (hw x rfl)

theorem pick_rel {P : Writer} {res : List Char → Bool} {c : Crypto} {tm : TableMeta ColMeta} (hn : Named P res tm) {w : Option Cond} (hw : TypedW tm.columns w)
    {rows : List PRow} {brows : List Row} (h : List.Forall₂ (Keeps c tm.columns) rows brows) :
    ∃ l, pick ((sentW c tm.columns w).map W.ex) brows = some l ∧ List.Forall₂ (Keeps c tm.columns) (rows.filter (selected w)) l := by
  induction h with
  | nil => exact ⟨[], rfl, .nil⟩
  | @cons row brow rows brows h1 _ ih =>
    obtain ⟨l, h2, h3⟩ := ih
    rw [pick, h1.concerned hn hw, h2, List.filter_cons]
    by_cases hs : selected w row = true
    · rw [if_pos hs]
      exact ⟨brow :: l, by simp [hs], .cons h1 h3⟩
    · rw [if_neg hs]
      exact ⟨l, by simp [hs], h3⟩

theorem change_rel {P : Writer} {res : List Char → Bool} {c : Crypto} {tm : TableMeta ColMeta} (hn : Named P res tm) {w : Option Cond} (hw : TypedW tm.columns w)
    {f : Row → Row} {g : PRow → PRow} (hf : ∀ row brow, Keeps c tm.columns row brow → Keeps c tm.columns (g row) (f brow))
    {rows : List PRow} {brows : List Row} (h : List.Forall₂ (Keeps c tm.columns) rows brows) :
    ∃ l, change ((sentW c tm.columns w).map W.ex) (fun r => some (f r)) brows = some l ∧
      List.Forall₂ (Keeps c tm.columns) (rows.map fun row => if selected w row then g row else row) l := by
  induction h with
  | nil => exact ⟨[], rfl, .nil⟩
  | @cons row brow rows brows h1 _ ih =>
    obtain ⟨l, h2, h3⟩ := ih
    rw [change, h1.concerned hn hw, h2, List.map_cons]
    by_cases hs : selected w row = true
    · rw [if_pos hs]
      exact ⟨f brow :: l, by simp [hs], .cons (hf _ _ h1) h3⟩
    · rw [if_neg hs]
      exact ⟨brow :: l, by simp [hs], .cons h1 h3⟩

theorem remove_rel {P : Writer} {res : List Char → Bool} {c : Crypto} {tm : TableMeta ColMeta} (hn : Named P res tm) {w : Option Cond} (hw : TypedW tm.columns w)
    {rows : List PRow} {brows : List Row} (h : List.Forall₂ (Keeps c tm.columns) rows brows) :
    ∃ l, change ((sentW c tm.columns w).map W.ex) (fun _ => none) brows = some l ∧
      List.Forall₂ (Keeps c tm.columns) (rows.filter fun row => !selected w row) l := by
  induction h with
  | nil => exact ⟨[], rfl, .nil⟩
  | @cons row brow rows brows h1 _ ih =>
    obtain ⟨l, h2, h3⟩ := ih
    rw [change, h1.concerned hn hw, h2, List.filter_cons]
    by_cases hs : selected w row = true
    · exact ⟨l, by simp [hs], by simpa [hs] using h3⟩
    · exact ⟨brow :: l, by simp [hs], by simpa [hs] using List.Forall₂.cons h1 h3⟩

/-! ### UPDATE -/

theorem mem_assignOut {c : Crypto} {cols : Dict String ColMeta} {sets : List (String × Val)} {n : String} {v : Val} {cm : ColMeta} (hm : (n, v) ∈ sets)
    (hc : Dict.get? cols n = some cm) {p : String × Rhs} (hp : p ∈ cells c cm n v) : p ∈ assignOut c cols sets := by
  unfold assignOut
  refine List.mem_flatMap.2 ⟨(n, v), hm, ?_⟩
  simp only [hc]
  exact hp

/-- The assigned values, as MySQL reads them. -/
def assigned (c : Crypto) (cols : Dict String ColMeta) (sets : List (String × Val)) : List (String × DbVal) :=
  (assignOut c cols sets).map fun e => (e.1, e.2.val)

theorem assigned_names (c : Crypto) (cols : Dict String ColMeta) (sets : List (String × Val)) :
    (assigned c cols sets).map Prod.fst = sets.flatMap fun e => targets cols e.1 := by
  rw [← assignOut_names c]
  simp [assigned, Function.comp_def]

theorem Assignable.suits {cm : ColMeta} {v : Val} (h : Assignable cm v) : Suits cm v := by
  cases v with
  | int z => exact h.1
  | text s => exact ⟨h.1.1, h.1.2.1, h.1.2.2, h.2.1⟩

theorem keeps_update {c : Crypto} {cols : Dict String ColMeta} (hk : ((Dict.keys cols).flatMap (targets cols)).Nodup) {sets : List (String × Val)}
    (hd : (sets.map Prod.fst).Nodup) (hs : ∀ e ∈ sets, ∃ cm, Dict.get? cols e.1 = some cm ∧ Assignable cm e.2) {row : PRow} {brow : Row}
    (h : Keeps c cols row brow) : Keeps c cols (setAll sets row) (assign (assigned c cols sets) brow) := by
  have hkeys : ∀ e ∈ sets, e.1 ∈ Dict.keys cols := fun e he => by
    obtain ⟨cm, hc, _⟩ := hs e he
    exact mem_keys hc
  have hnd : ((assigned c cols sets).map Prod.fst).Nodup := by
    rw [assigned_names]
    exact targets_nodup hk hd hkeys
  have hold : ∀ n ∈ Dict.keys cols, n ∉ sets.map Prod.fst → ∀ b ∈ targets cols n, Dict.get? (assign (assigned c cols sets) brow) b = Dict.get? brow b := by
    intro n hn hns b hb
    rw [assign_eq]
    refine setAll_other ?_
    rw [assigned_names]
    intro hm
    obtain ⟨e, he, hb'⟩ := List.mem_flatMap.1 hm
    refine targets_disjoint hk hn (hkeys e he) ?_ hb hb'
    rintro rfl
    exact hns (List.mem_map.2 ⟨e, he, rfl⟩)
  have hnew : ∀ n v cm, (n, v) ∈ sets → Dict.get? cols n = some cm → ∀ p ∈ cells c cm n v,
      Dict.get? (assign (assigned c cols sets) brow) p.1 = some p.2.val := by
    intro n v cm hm hc p hp
    rw [assign_eq]
    exact setAll_mem hnd (List.mem_map.2 ⟨p, mem_assignOut hm hc hp, rfl⟩)
  have hfit : ∀ n v cm, (n, v) ∈ sets → Dict.get? cols n = some cm → Assignable cm v := by
    intro n v cm hm hc
    obtain ⟨cm', hc', ha⟩ := hs _ hm
    simp only at hc' ha
    rw [hc] at hc'
    injection hc' with hc'
    subst hc'
    exact ha
  have htp : ∀ n cm, Dict.get? cols n = some cm → cm.plaintext = true → n ∈ targets cols n := by
    intro n cm hc hp
    simp [targets, hc, hp]
  have hte : ∀ n cm e b, Dict.get? cols n = some cm → cm.plaintext = false → Dict.get? cm.encCols e = some b → b ∈ targets cols n := by
    intro n cm e b hc hp hb
    simp only [targets, hc, hp, Bool.false_eq_true, if_false]
    exact List.mem_map.2 ⟨(e, b), Dict.mem_of_get? hb, rfl⟩
  have hce : ∀ n v cm e b, cm.plaintext = false → Dict.get? cm.encCols e = some b → (b, setRhs c cm e v) ∈ cells c cm n v := by
    intro n v cm e b hp hb
    simp only [cells, hp, Bool.false_eq_true, if_false]
    exact List.mem_map.2 ⟨(e, b), Dict.mem_of_get? hb, rfl⟩
  refine ⟨?_, ⟨?_, ?_, ?_, ?_⟩, ?_, ?_⟩
  · intro n cm hc
    obtain ⟨v, hv, hsu⟩ := h.vals n cm hc
    by_cases hm : n ∈ sets.map Prod.fst
    · obtain ⟨e, he, rfl⟩ := List.mem_map.1 hm
      exact ⟨e.2, setAll_mem hd he, (hfit e.1 e.2 cm he hc).suits⟩
    · exact ⟨v, by rw [setAll_other hm]; exact hv, hsu⟩
  · intro n v cm hv hc hp
    rcases setAll_cases hd hv with hm | ⟨hm, hv⟩
    · have := hnew n v cm hm hc (n, plainRhs v) (by simp [cells, hp])
      rw [plainRhs_val] at this
      exact this
    · rw [hold n (mem_keys hc) hm n (htp n cm hc hp)]
      exact h.holds.plain n v cm hv hc hp
  · intro n v cm b hv hc hp hb
    rcases setAll_cases hd hv with hm | ⟨hm, hv⟩
    · refine ⟨_, sym_eq _ _ _, ?_⟩
      rw [hnew n v cm hm hc _ (hce n v cm "symmetric" b hp hb)]
      cases v <;> simp (decide := true) [setRhs, Rhs.val, Val.str]
    · rw [hold n (mem_keys hc) hm b (hte n cm _ b hc hp hb)]
      exact h.holds.sym n v cm b hv hc hp hb
  · intro n z cm b hv hc hp hb
    rcases setAll_cases hd hv with hm | ⟨hm, hv⟩
    · obtain ⟨_, ha⟩ := hfit n _ cm hm hc
      have hz := (ha hp).1
      refine ⟨z, Ope.C04_fails_ope_is_identity (c.ope cm.key) z hz.1 hz.2, ?_⟩
      rw [hnew n _ cm hm hc _ (hce n _ cm "order-preserving" b hp hb)]
      simp (decide := true) [setRhs, Rhs.val]
    · rw [hold n (mem_keys hc) hm b (hte n cm _ b hc hp hb)]
      exact h.holds.ope n z cm b hv hc hp hb
  · intro n v cm b hv hc hp hb
    rcases setAll_cases hd hv with hm | ⟨hm, hv⟩
    · refine ⟨fz c cm.key v.str, ?_, ?_⟩
      · rw [Crypto.fuzzy, String.toList_ofList, Fuzzy.fuzzyEncrypt_eq]; rfl
      · rw [hnew n v cm hm hc _ (hce n v cm "fuzzy" b hp hb)]
        cases v <;> simp (decide := true) [setRhs, Rhs.val, Val.str]
    · rw [hold n (mem_keys hc) hm b (hte n cm _ b hc hp hb)]
      exact h.holds.fuzzy n v cm b hv hc hp hb
  · intro n hn b hb
    rw [assign_eq]
    exact setAll_some (h.there n hn b hb)
  · intro b hb
    by_cases hm : b ∈ (assigned c cols sets).map Prod.fst
    · rw [assigned_names] at hm
      obtain ⟨e, he, hb'⟩ := List.mem_flatMap.1 hm
      exact ⟨e.1, hkeys e he, hb'⟩
    · refine h.only b ?_
      by_contra hx
      refine (Dict.get?_eq_none_iff _ _).1 ?_ hb
      rw [assign_eq, setAll_other hm]
      exact (Dict.get?_eq_none_iff _ _).2 hx

/-! ### SELECT -/

theorem row_answer {P : Proxy} {t : String} {tm : TableMeta ColMeta} (ht : Dict.get? P.db t = some tm) {ns : List String} (hr : ∀ n ∈ ns, Readable tm.columns n)
    {row : PRow} {brow : Row} (h : Keeps P.c tm.columns row brow) :
    ∃ cells, (readNames tm.columns ns).mapM (fun n => Dict.get? brow n) = some cells ∧
      decryptRow P.c P.homDec P.ev P.db (.str t) (pushAll tm.columns {} ns).columns (pushAll tm.columns {} ns).state cells = .ok (ns.map (shown row)) := by
  have hv : ∀ n ∈ ns, ∃ v, Dict.get? row n = some v := fun n hn => by
    obtain ⟨cm, b, hc, _⟩ := (hr n hn).col
    obtain ⟨v, hv, _⟩ := h.vals n cm hc
    exact ⟨v, hv⟩
  obtain ⟨sel, hsel, hget⟩ : ∃ sel : List (String × Val), sel.map Prod.fst = ns ∧ ∀ e ∈ sel, Dict.get? row e.1 = some e.2 := by
    clear hr
    induction ns with
    | nil => exact ⟨[], rfl, by simp⟩
    | cons n ns ih =>
      obtain ⟨v, hvn⟩ := hv n (by simp)
      obtain ⟨sel, h1, h2⟩ := ih fun n hn => hv n (by simp [hn])
      refine ⟨(n, v) :: sel, by simp [h1], ?_⟩
      intro e he
      rcases List.mem_cons.1 he with rfl | he
      · exact hvn
      · exact h2 e he
  obtain ⟨cells, h1, cs, ts, ss, h2, h3⟩ := readAll (c := P.c) (homDec := P.homDec) (ev := P.ev) (row := sel) (stored := brow) ht (by
    intro n v cm b hrd hm hc hb
    have hval : Dict.get? row n = some v := hget _ hm
    obtain ⟨v', hv', hsu⟩ := h.vals n cm hc
    rw [hval] at hv'
    injection hv' with hv'
    subst hv'
    unfold readName at hb
    by_cases hp : cm.plaintext = true
    · rw [if_pos hp] at hb
      injection hb with hb
      subst hb
      refine ⟨_, h.holds.plain n v cm hval hc hp, ?_⟩
      rw [readState, if_pos hp, if_pos rfl]
      cases v <;> rfl
    · have hp' : cm.plaintext = false := by simpa using hp
      rw [if_neg hp] at hb
      obtain ⟨y, hy, hg⟩ := h.holds.sym n v cm b hval hc hp' hb
      rw [sym_eq, String.toList_ofList] at hy
      injection hy with hy
      subst hy
      refine ⟨_, hg, ?_⟩
      rw [readState, if_neg hp, if_neg (by decide)]
      have g1 : tableOfJson P.db (.str t) = .ok tm := getItem_ok.2 ht
      have g2 : Dict.getItem tm.columns n = .ok cm := getItem_ok.2 hc
      have hd : splitDot n = [n] := by
        unfold splitDot
        rw [Text.split_word]
        · simp
        exact hrd.dot
      unfold decryptVal decCol
      rw [if_neg (by simp)]
      simp only [hd, g1, g2, if_true]
      rw [symDec_ct]
      · cases v with
        | int z =>
          unfold Suits at hsu
          simp [Val.str, Except.map, decodeVal, hsu, Text.parseInt_intStr, Val.out]
        | text s =>
          obtain ⟨h3, h4, h5, _⟩ := hsu
          simp [Val.str, Except.map, decodeVal, h3, h4, h5, Val.out]
      · cases v with
        | int z => exact intStr_not_nul z
        | text s => exact hsu.2.2.2) sel {} (fun e he => he) (fun e he => hr e.1 (hsel ▸ List.mem_map.2 ⟨e, he, rfl⟩))
  rw [hsel] at h1 h2
  refine ⟨cells, h1, ?_⟩
  rw [h2]
  have : (sel.map fun e => e.2.out) = ns.map (shown row) := by
    rw [← hsel, List.map_map]
    refine List.map_congr_left fun e he => ?_
    simp [shown, hget e he]
  rw [← this]
  exact h3

theorem rows_answer {P : Proxy} {t : String} {tm : TableMeta ColMeta} (ht : Dict.get? P.db t = some tm) {ns : List String} (hr : ∀ n ∈ ns, Readable tm.columns n)
    {rows : List PRow} {brows : List Row} (h : List.Forall₂ (Keeps P.c tm.columns) rows brows) :
    ∃ out, (brows.mapM fun row => (readNames tm.columns ns).mapM fun n => Dict.get? row n) = some out ∧
      P.answer (.str t) (pushAll tm.columns {} ns) out = .ok (rows.map fun row => ns.map (shown row)) := by
  induction h with
  | nil => exact ⟨[], rfl, rfl⟩
  | @cons row brow rows brows h1 _ ih =>
    obtain ⟨out, h2, h3⟩ := ih
    obtain ⟨cells, h4, h5⟩ := row_answer ht hr h1
    refine ⟨cells :: out, by simp [List.mapM_cons, h2, h4], ?_⟩
    rw [Proxy.answer, h5]
    simp only [h3]
    rfl

end EulerDB.Whole
