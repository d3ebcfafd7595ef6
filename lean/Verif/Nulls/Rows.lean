/-
C87: rows with NULLs under INSERT, UPDATE, DELETE and SELECT.
-/
import Verif.Nulls.Cond

namespace EulerDB.Nulls

open EulerDB EulerDB.Clause EulerDB.Delta EulerDB.Whole EulerDB.Join

theorem pick3_rel {P : Writer} {res : List Char → Bool} {c : Crypto} {tm : TableMeta ColMeta} (hn : Named P res tm) {w : Option Cond} (hw : TypedW tm.columns w)
    {rows : List PRow} {brows : List Whole.Row} (h : List.Forall₂ (Keeps c tm.columns) rows brows) :
    ∃ l, pick3 ((sentW c tm.columns w).map W.ex) brows = some l ∧ List.Forall₂ (Keeps c tm.columns) (rows.filter (selected w)) l := by
  induction h with
  | nil => exact ⟨[], rfl, .nil⟩
  | @cons row brow rows brows h1 _ ih =>
    obtain ⟨l, h2, h3⟩ := ih
    rw [pick3, h1.concerned hn hw, h2, List.filter_cons]
    by_cases hs : selected w row = true
    · rw [if_pos hs]
      exact ⟨brow :: l, by simp [hs], .cons h1 h3⟩
    · rw [if_neg hs]
      exact ⟨l, by simp [hs], h3⟩

theorem change3_rel {P : Writer} {res : List Char → Bool} {c : Crypto} {tm : TableMeta ColMeta} (hn : Named P res tm) {w : Option Cond} (hw : TypedW tm.columns w)
    {f : Whole.Row → Whole.Row} {g : PRow → PRow} (hf : ∀ row brow, Keeps c tm.columns row brow → Keeps c tm.columns (g row) (f brow))
    {rows : List PRow} {brows : List Whole.Row} (h : List.Forall₂ (Keeps c tm.columns) rows brows) :
    ∃ l, change3 ((sentW c tm.columns w).map W.ex) (fun r => some (f r)) brows = some l ∧
      List.Forall₂ (Keeps c tm.columns) (rows.map fun row => if selected w row then g row else row) l := by
  induction h with
  | nil => exact ⟨[], rfl, .nil⟩
  | @cons row brow rows brows h1 _ ih =>
    obtain ⟨l, h2, h3⟩ := ih
    rw [change3, h1.concerned hn hw, h2, List.map_cons]
    by_cases hs : selected w row = true
    · rw [if_pos hs]
      exact ⟨f brow :: l, by simp [hs], .cons (hf _ _ h1) h3⟩
    · rw [if_neg hs]
      exact ⟨brow :: l, by simp [hs], .cons h1 h3⟩

theorem remove3_rel {P : Writer} {res : List Char → Bool} {c : Crypto} {tm : TableMeta ColMeta} (hn : Named P res tm) {w : Option Cond} (hw : TypedW tm.columns w)
    {rows : List PRow} {brows : List Whole.Row} (h : List.Forall₂ (Keeps c tm.columns) rows brows) :
    ∃ l, change3 ((sentW c tm.columns w).map W.ex) (fun _ => none) brows = some l ∧
      List.Forall₂ (Keeps c tm.columns) (rows.filter fun row => !selected w row) l := by
  induction h with
  | nil => exact ⟨[], rfl, .nil⟩
  | @cons row brow rows brows h1 _ ih =>
    obtain ⟨l, h2, h3⟩ := ih
    rw [change3, h1.concerned hn hw, h2, List.filter_cons]
    by_cases hs : selected w row = true
    · exact ⟨l, by simp [hs], by simpa [hs] using h3⟩
    · exact ⟨brow :: l, by simp [hs], by simpa [hs] using List.Forall₂.cons h1 h3⟩

/-! ### UPDATE -/

theorem keeps_update {c : Crypto} {cols : Dict String ColMeta} (hk : ((Dict.keys cols).flatMap (targets cols)).Nodup) {sets : List (String × Val)}
    (hd : (sets.map Prod.fst).Nodup) (hs : ∀ e ∈ sets, ∃ cm, Dict.get? cols e.1 = some cm ∧ Assignable cm e.2) {row : PRow} {brow : Whole.Row}
    (h : Keeps c cols row brow) : Keeps c cols (setAll sets row) (assign (assigned c cols sets) brow) := by
  have hkeys : ∀ e ∈ sets, e.1 ∈ Dict.keys cols := fun e he => by
    obtain ⟨cm, hc, _⟩ := hs e he
    exact mem_keys hc
  have hnd : ((assigned c cols sets).map Prod.fst).Nodup := by
    rw [assigned_names]
    exact targets_nodup hk hd hkeys
  have hold : ∀ n ∈ Dict.keys cols, n ∉ sets.map Prod.fst → ∀ b ∈ targets cols n, Dict.get? (assign (assigned c cols sets) brow) b = Dict.get? brow b := by
    intro n hn hns b hb
    rw [assign_eq]
    refine setAll_other ?_
    rw [assigned_names]
    intro hm
    obtain ⟨e, he, hb'⟩ := List.mem_flatMap.1 hm
    refine targets_disjoint hk hn (hkeys e he) ?_ hb hb'
    rintro rfl
    exact hns (List.mem_map.2 ⟨e, he, rfl⟩)
  have hnew : ∀ n v cm, (n, v) ∈ sets → Dict.get? cols n = some cm → ∀ p ∈ cells c cm n v,
      Dict.get? (assign (assigned c cols sets) brow) p.1 = some p.2.val := by
    intro n v cm hm hc p hp
    rw [assign_eq]
    exact setAll_mem hnd (List.mem_map.2 ⟨p, mem_assignOut hm hc hp, rfl⟩)
  have hfit : ∀ n v cm, (n, v) ∈ sets → Dict.get? cols n = some cm → Assignable cm v := by
    intro n v cm hm hc
    obtain ⟨cm', hc', ha⟩ := hs _ hm
    simp only at hc' ha
    rw [hc] at hc'
    injection hc' with hc'
    subst hc'
    exact ha
  have hce : ∀ n v cm e b, cm.plaintext = false → Dict.get? cm.encCols e = some b → (b, setRhs c cm e v) ∈ cells c cm n v := by
    intro n v cm e b hp hb
    simp only [cells, hp, Bool.false_eq_true, if_false]
    exact List.mem_map.2 ⟨(e, b), Dict.mem_of_get? hb, rfl⟩
  refine ⟨?_, ⟨?_, ?_, ?_, ?_⟩, ?_, ?_, ?_⟩
  · intro n v cm hv hc
    rcases setAll_cases hd hv with hm | ⟨_, hv⟩
    · exact (hfit n v cm hm hc).suits
    · exact h.suits n v cm hv hc
  · intro n v cm hv hc hp
    rcases setAll_cases hd hv with hm | ⟨hm, hv⟩
    · have := hnew n v cm hm hc (n, plainRhs v) (by simp [cells, hp])
      rw [plainRhs_val] at this
      exact this
    · rw [hold n (mem_keys hc) hm n (target_plain hc hp)]
      exact h.holds.plain n v cm hv hc hp
  · intro n v cm b hv hc hp hb
    rcases setAll_cases hd hv with hm | ⟨hm, hv⟩
    · refine ⟨_, sym_eq _ _ _, ?_⟩
      rw [hnew n v cm hm hc _ (hce n v cm "symmetric" b hp hb)]
      cases v <;> simp (decide := true) [setRhs, Rhs.val, Val.str]
    · rw [hold n (mem_keys hc) hm b (target_enc hc hp hb)]
      exact h.holds.sym n v cm b hv hc hp hb
  · intro n z cm b hv hc hp hb
    rcases setAll_cases hd hv with hm | ⟨hm, hv⟩
    · obtain ⟨_, ha⟩ := hfit n _ cm hm hc
      have hz := (ha hp).1
      refine ⟨z, Ope.C04_fails_ope_is_identity (c.ope cm.key) z hz.1 hz.2, ?_⟩
      rw [hnew n _ cm hm hc _ (hce n _ cm "order-preserving" b hp hb)]
      simp (decide := true) [setRhs, Rhs.val]
    · rw [hold n (mem_keys hc) hm b (target_enc hc hp hb)]
      exact h.holds.ope n z cm b hv hc hp hb
  · intro n v cm b hv hc hp hb
    rcases setAll_cases hd hv with hm | ⟨hm, hv⟩
    · refine ⟨fz c cm.key v.str, ?_, ?_⟩
      · rw [Crypto.fuzzy, String.toList_ofList, Fuzzy.fuzzyEncrypt_eq]; rfl
      · rw [hnew n v cm hm hc _ (hce n v cm "fuzzy" b hp hb)]
        cases v <;> simp (decide := true) [setRhs, Rhs.val, Val.str]
    · rw [hold n (mem_keys hc) hm b (target_enc hc hp hb)]
      exact h.holds.fuzzy n v cm b hv hc hp hb
  · intro n hn hno b hb
    have hm : n ∉ sets.map Prod.fst := by
      intro hm
      obtain ⟨e, he, rfl⟩ := List.mem_map.1 hm
      rw [setAll_mem hd (b := e.1) (x := e.2) he] at hno
      cases hno
    rw [setAll_other hm] at hno
    rw [hold n hn hm b hb]
    exact h.null n hn hno b hb
  · intro n hn b hb
    rw [assign_eq]
    exact setAll_some (h.there n hn b hb)
  · intro b hb
    by_cases hm : b ∈ (assigned c cols sets).map Prod.fst
    · rw [assigned_names] at hm
      obtain ⟨e, he, hb'⟩ := List.mem_flatMap.1 hm
      exact ⟨e.1, hkeys e he, hb'⟩
    · refine h.only b ?_
      by_contra hx
      refine (Dict.get?_eq_none_iff _ _).1 ?_ hb
      rw [assign_eq, setAll_other hm]
      exact (Dict.get?_eq_none_iff _ _).2 hx

/-! ### SELECT -/

theorem cell_answer {P : Proxy} {t : String} {tm : TableMeta ColMeta} (ht : Dict.get? P.db t = some tm) {n b : String} {cm : ColMeta} (hrd : Readable tm.columns n)
    (hc : Dict.get? tm.columns n = some cm) (hb : readName n cm = some b) {row : PRow} {brow : Whole.Row} (h : Keeps P.c tm.columns row brow) :
    ∃ x, Dict.get? brow b = some x ∧
      (if readState cm = "plaintext" then .ok (plainVal x) else decryptVal P.c P.homDec P.ev P.db (.str t) x n (readState cm)) = .ok (shown row n) := by
  have htar : b ∈ targets tm.columns n := by
    unfold readName at hb
    by_cases hp : cm.plaintext = true
    · rw [if_pos hp] at hb
      injection hb with hb
      subst hb
      exact target_plain hc hp
    · rw [if_neg hp] at hb
      exact target_enc hc (by simpa using hp) hb
  cases hval : Dict.get? row n with
  | none =>
    refine ⟨.null, h.null n (mem_keys hc) hval b htar, ?_⟩
    rw [Whole.shown, hval]
    by_cases hp : readState cm = "plaintext"
    · rw [if_pos hp]; rfl
    · rw [if_neg hp, decryptVal, if_pos rfl]
  | some v =>
    have hsu := h.suits n v cm hval hc
    rw [Whole.shown, hval]
    unfold readName at hb
    by_cases hp : cm.plaintext = true
    · rw [if_pos hp] at hb
      injection hb with hb
      subst hb
      refine ⟨_, h.holds.plain n v cm hval hc hp, ?_⟩
      rw [readState, if_pos hp, if_pos rfl]
      cases v <;> rfl
    · have hp' : cm.plaintext = false := by simpa using hp
      rw [if_neg hp] at hb
      obtain ⟨y, hy, hg⟩ := h.holds.sym n v cm b hval hc hp' hb
      rw [sym_eq, String.toList_ofList] at hy
      injection hy with hy
      subst hy
      refine ⟨_, hg, ?_⟩
      rw [readState, if_neg hp, if_neg (by decide)]
      have g1 : tableOfJson P.db (.str t) = .ok tm := getItem_ok.2 ht
      have g2 : Dict.getItem tm.columns n = .ok cm := getItem_ok.2 hc
      have hd : splitDot n = [n] := by
        unfold splitDot
        rw [Text.split_word]
        · simp
        exact hrd.dot
      unfold decryptVal decCol
      rw [if_neg (by simp)]
      simp only [hd, g1, g2, if_true]
      rw [symDec_ct]
      · cases v with
        | int z =>
          unfold Suits at hsu
          simp [Val.str, Except.map, decodeVal, hsu, Text.parseInt_intStr, Val.out]
        | text s =>
          obtain ⟨h3, h4, h5, _⟩ := hsu
          simp [Val.str, Except.map, decodeVal, h3, h4, h5, Val.out]
      · cases v with
        | int z => exact intStr_not_nul z
        | text s => exact hsu.2.2.2

theorem row_answer {P : Proxy} {t : String} {tm : TableMeta ColMeta} (ht : Dict.get? P.db t = some tm) {row : PRow} {brow : Whole.Row}
    (h : Keeps P.c tm.columns row brow) : ∀ (ns : List String) (s : Sel), (∀ n ∈ ns, Readable tm.columns n) →
    ∃ cells, (readNames tm.columns ns).mapM (fun n => Dict.get? brow n) = some cells ∧ ∃ cs ts ss,
      pushAll tm.columns s ns = ⟨s.columns ++ cs, s.types ++ ts, s.state ++ ss⟩ ∧ decryptRow P.c P.homDec P.ev P.db (.str t) cs ss cells = .ok (ns.map (shown row))
  | [], s, _ => ⟨[], by simp [readNames], [], [], [], by simp [pushAll], by simp [decryptRow]⟩
  | n :: r, s, hr => by
    obtain ⟨cm, b, hc, hb⟩ := (hr n (by simp)).col
    obtain ⟨x, hx, hd⟩ := cell_answer ht (hr n (by simp)) hc hb h
    obtain ⟨cells, h1, cs, ts, ss, h2, h3⟩ := row_answer ht h r (s.push n cm.type (readState cm)) fun m hm => hr m (by simp [hm])
    refine ⟨x :: cells, ?_, n :: cs, cm.type :: ts, readState cm :: ss, ?_, ?_⟩
    · simp only [readNames] at h1
      simp only [List.map_cons, readNames, hc, Option.bind_some, hb, Option.getD_some, List.mapM_cons, hx]
      rw [h1]
      rfl
    · rw [pushAll, hc]
      simp only
      rw [h2]
      simp [Sel.push]
    · rw [decryptRow, hd, h3]
      rfl

theorem rows_answer {P : Proxy} {t : String} {tm : TableMeta ColMeta} (ht : Dict.get? P.db t = some tm) {ns : List String} (hr : ∀ n ∈ ns, Readable tm.columns n)
    {rows : List PRow} {brows : List Whole.Row} (h : List.Forall₂ (Keeps P.c tm.columns) rows brows) :
    ∃ out, (brows.mapM fun row => (readNames tm.columns ns).mapM fun n => Dict.get? row n) = some out ∧
      P.answer (.str t) (pushAll tm.columns {} ns) out = .ok (rows.map fun row => ns.map (shown row)) := by
  induction h with
  | nil => exact ⟨[], rfl, rfl⟩
  | @cons row brow rows brows h1 _ ih =>
    obtain ⟨out, h2, h3⟩ := ih
    obtain ⟨cells, h4, cs, ts, ss, h5, h6⟩ := row_answer ht h1 ns {} hr
    refine ⟨cells :: out, by simp [List.mapM_cons, h2, h4], ?_⟩
    rw [Proxy.answer]
    have : decryptRow P.c P.homDec P.ev P.db (.str t) (pushAll tm.columns {} ns).columns (pushAll tm.columns {} ns).state cells = .ok (ns.map (shown row)) := by
      rw [h5]
      exact h6
    rw [this]
    simp only [h3]
    rfl

/-! ### INSERT -/

theorem get?_nulls : ∀ (l : List String) (b : String), Dict.get? (l.map fun b => (b, DbVal.null)) b = if b ∈ l then some .null else none
  | [], _ => by simp
  | n :: l, b => by
    rw [List.map_cons, Dict.get?_cons, get?_nulls l b]
    by_cases h : n = b
    · subst h; simp
    · rw [if_neg h]
      simp [Ne.symm h]

theorem get?_filled (all : List String) (r : Whole.Row) (b : String) :
    Dict.get? (filled all r) b = (Dict.get? r b).or (if b ∈ all then some .null else none) := by
  rw [filled, Dict.get?_append, get?_nulls]
  cases hg : Dict.get? r b with
  | some x => rfl
  | none =>
    have := (Dict.get?_eq_none_iff _ _).1 hg
    simp [this]

theorem keeps_filled {c : Crypto} {cols : Dict String ColMeta} (hk : ((Dict.keys cols).flatMap (targets cols)).Nodup) {row : List (String × Val)} {stored : Whole.Row}
    {all : List String} (hall : ∀ b, b ∈ all ↔ ∃ n ∈ Dict.keys cols, b ∈ targets cols n)
    (hrow : ∀ e ∈ row, ∃ cm, Dict.get? cols e.1 = some cm ∧ Suits cm e.2) (hs : stored.map Prod.fst = row.flatMap (fun e => targets cols e.1))
    (hh : Holds c cols (fun n => Dict.get? row n) stored) : Keeps c cols row (filled all stored) := by
  have hkeys : ∀ e ∈ row, e.1 ∈ Dict.keys cols := fun e he => by
    obtain ⟨cm, hc, _⟩ := hrow e he
    exact mem_keys hc
  refine ⟨?_, ⟨?_, ?_, ?_, ?_⟩, ?_, ?_, ?_⟩
  · intro n v cm hv hc
    obtain ⟨cm', hc', h⟩ := hrow (n, v) (Dict.mem_of_get? hv)
    simp only at hc' h
    rw [hc] at hc'
    injection hc' with hc'
    exact hc' ▸ h
  · intro n v cm hv hc hp
    rw [get?_filled, hh.plain n v cm hv hc hp]
    rfl
  · intro n v cm b hv hc hp hb
    obtain ⟨x, h1, h2⟩ := hh.sym n v cm b hv hc hp hb
    exact ⟨x, h1, by rw [get?_filled, h2]; rfl⟩
  · intro n z cm b hv hc hp hb
    obtain ⟨x, h1, h2⟩ := hh.ope n z cm b hv hc hp hb
    exact ⟨x, h1, by rw [get?_filled, h2]; rfl⟩
  · intro n v cm b hv hc hp hb
    obtain ⟨x, h1, h2⟩ := hh.fuzzy n v cm b hv hc hp hb
    exact ⟨x, h1, by rw [get?_filled, h2]; rfl⟩
  · intro n hn hno b hb
    have : Dict.get? stored b = none := by
      refine (Dict.get?_eq_none_iff _ _).2 fun hm => ?_
      have hm : b ∈ stored.map Prod.fst := hm
      rw [hs] at hm
      obtain ⟨e, he, hb'⟩ := List.mem_flatMap.1 hm
      by_cases hne : n = e.1
      · subst hne
        exact (Dict.get?_eq_none_iff _ _).1 hno (List.mem_map.2 ⟨e, he, rfl⟩)
      · exact targets_disjoint hk hn (hkeys e he) hne hb hb'
    rw [get?_filled, this, if_pos ((hall b).2 ⟨n, hn, hb⟩)]
    rfl
  · intro n hn b hb
    rw [get?_filled, if_pos ((hall b).2 ⟨n, hn, hb⟩)]
    cases Dict.get? stored b <;> rfl
  · intro b hb
    by_contra hno
    refine (Dict.get?_eq_none_iff _ _).1 ?_ hb
    rw [get?_filled, if_neg fun h => hno ((hall b).1 h)]
    have : Dict.get? stored b = none := by
      refine (Dict.get?_eq_none_iff _ _).2 fun hm => hno ?_
      have hm : b ∈ stored.map Prod.fst := hm
      rw [hs] at hm
      obtain ⟨e, he, hb'⟩ := List.mem_flatMap.1 hm
      exact ⟨e.1, hkeys e he, hb'⟩
    rw [this]
    rfl

end EulerDB.Nulls
