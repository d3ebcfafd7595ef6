/-
C90: rows under `SET n = NULL`.
-/
import Verif.NullLit.Send

namespace EulerDB.NullLit

open EulerDB EulerDB.Clause EulerDB.Delta EulerDB.Whole

/-! ### The client's rows -/

theorem get?_put_self (row : PRow) (n : String) (v : Option Val) : Dict.get? (put row n v) n = v := by
  cases v with
  | none => exact Dict.get?_erase_self _ _
  | some v => exact Dict.get?_set_self _ _ _

theorem get?_put_ne (row : PRow) {n m : String} (h : m ≠ n) (v : Option Val) : Dict.get? (put row n v) m = Dict.get? row m := by
  cases v with
  | none => exact Dict.get?_erase_ne _ h
  | some v => exact Dict.get?_set_ne _ h _

theorem putAll_other {sets : List (String × Option Val)} {n : String} (h : n ∉ sets.map Prod.fst) (row : PRow) : Dict.get? (putAll sets row) n = Dict.get? row n := by
  induction sets generalizing row with
  | nil => rfl
  | cons e l ih =>
    simp only [List.map_cons, List.mem_cons, not_or] at h
    rw [putAll, List.foldl_cons]
    exact (ih h.2 _).trans (get?_put_ne row h.1 e.2)

theorem putAll_mem {sets : List (String × Option Val)} {n : String} {v : Option Val} (hd : (sets.map Prod.fst).Nodup) (h : (n, v) ∈ sets) (row : PRow) :
    Dict.get? (putAll sets row) n = v := by
  induction sets generalizing row with
  | nil => cases h
  | cons e l ih =>
    rw [List.map_cons, List.nodup_cons] at hd
    rw [putAll, List.foldl_cons]
    rcases List.mem_cons.1 h with rfl | h
    · exact (putAll_other hd.1 _).trans (get?_put_self row n v)
    · exact ih hd.2 h _

theorem putAll_cases {sets : List (String × Option Val)} (hd : (sets.map Prod.fst).Nodup) (row : PRow) (n : String) :
    (∃ v, (n, v) ∈ sets ∧ Dict.get? (putAll sets row) n = v) ∨ n ∉ sets.map Prod.fst ∧ Dict.get? (putAll sets row) n = Dict.get? row n := by
  by_cases h : n ∈ sets.map Prod.fst
  · obtain ⟨⟨m, v⟩, he, rfl⟩ := List.mem_map.1 h
    exact .inl ⟨v, he, putAll_mem hd he row⟩
  · exact .inr ⟨h, putAll_other h row⟩

/-! ### The rows of the backend -/

def assignedN (c : Crypto) (cols : Dict String ColMeta) (sets : List (String × Option Val)) : List (String × DbVal) :=
  (assignOutN c cols sets).map fun e => (e.1, e.2.val)

theorem assignedN_names (c : Crypto) (cols : Dict String ColMeta) (sets : List (String × Option Val)) :
    (assignedN c cols sets).map Prod.fst = sets.flatMap fun e => targets cols e.1 := by
  rw [assignedN, List.map_map, ← assignOutN_names c cols sets]
  rfl

theorem mem_assignOutN {c : Crypto} {cols : Dict String ColMeta} {sets : List (String × Option Val)} {n : String} {v : Option Val} {cm : ColMeta}
    (hm : (n, v) ∈ sets) (hc : Dict.get? cols n = some cm) {p : String × NRhs} (hp : p ∈ cellsN c cm n v) : p ∈ assignOutN c cols sets :=
  List.mem_flatMap.2 ⟨(n, v), hm, by simpa [hc] using hp⟩

theorem keeps_put {c : Crypto} {cols : Dict String ColMeta} (hk : ((Dict.keys cols).flatMap (targets cols)).Nodup) {sets : List (String × Option Val)}
    (hd : (sets.map Prod.fst).Nodup) (hs : ∀ e ∈ sets, ∃ cm, Dict.get? cols e.1 = some cm ∧ AssignableN cm e.2) {row : PRow} {brow : Whole.Row}
    (h : Nulls.Keeps c cols row brow) : Nulls.Keeps c cols (putAll sets row) (assign (assignedN c cols sets) brow) := by
  have hkeys : ∀ e ∈ sets, e.1 ∈ Dict.keys cols := fun e he => by
    obtain ⟨cm, hc, _⟩ := hs e he
    exact mem_keys hc
  have hnd : ((assignedN c cols sets).map Prod.fst).Nodup := by
    rw [assignedN_names]
    exact targets_nodup hk hd hkeys
  have hold : ∀ n ∈ Dict.keys cols, n ∉ sets.map Prod.fst → ∀ b ∈ targets cols n, Dict.get? (assign (assignedN c cols sets) brow) b = Dict.get? brow b := by
    intro n hn hns b hb
    rw [assign_eq]
    refine setAll_other ?_
    rw [assignedN_names]
    intro hm
    obtain ⟨e, he, hb'⟩ := List.mem_flatMap.1 hm
    refine targets_disjoint hk hn (hkeys e he) ?_ hb hb'
    rintro rfl
    exact hns (List.mem_map.2 ⟨e, he, rfl⟩)
  have hnew : ∀ n v cm, (n, v) ∈ sets → Dict.get? cols n = some cm → ∀ p ∈ cellsN c cm n v,
      Dict.get? (assign (assignedN c cols sets) brow) p.1 = some p.2.val := by
    intro n v cm hm hc p hp
    rw [assign_eq]
    exact setAll_mem hnd (List.mem_map.2 ⟨p, mem_assignOutN hm hc hp, rfl⟩)
  have hfit : ∀ n v cm, (n, some v) ∈ sets → Dict.get? cols n = some cm → Assignable cm v := by
    intro n v cm hm hc
    obtain ⟨cm', hc', ha⟩ := hs _ hm
    simp only at hc' ha
    rw [hc] at hc'
    injection hc' with hc'
    subst hc'
    exact ha v rfl
  have hce : ∀ n v cm e b, cm.plaintext = false → Dict.get? cm.encCols e = some b → (b, v.map (setRhs c cm e)) ∈ cellsN c cm n v := by
    intro n v cm e b hp hb
    simp only [cellsN, hp, Bool.false_eq_true, if_false]
    exact List.mem_map.2 ⟨(e, b), Dict.mem_of_get? hb, rfl⟩
  have hcases : ∀ {n v}, Dict.get? (putAll sets row) n = some v → (n, some v) ∈ sets ∨ n ∉ sets.map Prod.fst ∧ Dict.get? row n = some v := by
    intro n v hv
    rcases putAll_cases hd row n with ⟨x, hm, hx⟩ | ⟨hm, hx⟩
    · rw [hx] at hv
      exact .inl (hv ▸ hm)
    · exact .inr ⟨hm, hx ▸ hv⟩
  refine ⟨?_, ⟨?_, ?_, ?_, ?_⟩, ?_, ?_, ?_⟩
  · intro n v cm hv hc
    rcases hcases hv with hm | ⟨_, hv⟩
    · exact (hfit n v cm hm hc).suits
    · exact h.suits n v cm hv hc
  · intro n v cm hv hc hp
    rcases hcases hv with hm | ⟨hm, hv⟩
    · have := hnew n (some v) cm hm hc (n, some (plainRhs v)) (by simp [cellsN, hp])
      rw [NRhs.val, plainRhs_val] at this
      exact this
    · rw [hold n (mem_keys hc) hm n (Nulls.target_plain hc hp)]
      exact h.holds.plain n v cm hv hc hp
  · intro n v cm b hv hc hp hb
    rcases hcases hv with hm | ⟨hm, hv⟩
    · refine ⟨_, sym_eq _ _ _, ?_⟩
      rw [hnew n (some v) cm hm hc _ (hce n (some v) cm "symmetric" b hp hb)]
      cases v <;> simp (decide := true) [setRhs, NRhs.val, Rhs.val, Val.str]
    · rw [hold n (mem_keys hc) hm b (Nulls.target_enc hc hp hb)]
      exact h.holds.sym n v cm b hv hc hp hb
  · intro n z cm b hv hc hp hb
    rcases hcases hv with hm | ⟨hm, hv⟩
    · obtain ⟨_, ha⟩ := hfit n _ cm hm hc
      have hz := (ha hp).1
      refine ⟨z, Ope.C04_fails_ope_is_identity (c.ope cm.key) z hz.1 hz.2, ?_⟩
      rw [hnew n _ cm hm hc _ (hce n _ cm "order-preserving" b hp hb)]
      simp (decide := true) [setRhs, NRhs.val, Rhs.val]
    · rw [hold n (mem_keys hc) hm b (Nulls.target_enc hc hp hb)]
      exact h.holds.ope n z cm b hv hc hp hb
  · intro n v cm b hv hc hp hb
    rcases hcases hv with hm | ⟨hm, hv⟩
    · refine ⟨fz c cm.key v.str, ?_, ?_⟩
      · rw [Crypto.fuzzy, String.toList_ofList, Fuzzy.fuzzyEncrypt_eq]; rfl
      · rw [hnew n (some v) cm hm hc _ (hce n (some v) cm "fuzzy" b hp hb)]
        cases v <;> simp (decide := true) [setRhs, NRhs.val, Rhs.val, Val.str]
    · rw [hold n (mem_keys hc) hm b (Nulls.target_enc hc hp hb)]
      exact h.holds.fuzzy n v cm b hv hc hp hb
  · intro n hn hno b hb
    rcases putAll_cases hd row n with ⟨x, hm, hx⟩ | ⟨hm, hx⟩
    · rw [hx] at hno
      subst hno
      obtain ⟨cm, hc, _⟩ := hs _ hm
      simp only at hc
      have : (b, (none : NRhs)) ∈ cellsN c cm n none := by
        rw [targets, hc] at hb
        simp only at hb
        unfold cellsN
        by_cases hp : cm.plaintext = true
        · rw [if_pos hp] at hb ⊢
          simpa using hb
        · rw [if_neg hp] at hb ⊢
          obtain ⟨p, hpm, rfl⟩ := List.mem_map.1 hb
          exact List.mem_map.2 ⟨p, hpm, rfl⟩
      exact hnew n none cm hm hc _ this
    · rw [hx] at hno
      rw [hold n hn hm b hb]
      exact h.null n hn hno b hb
  · intro n hn b hb
    rw [assign_eq]
    exact setAll_some (h.there n hn b hb)
  · intro b hb
    by_cases hm : b ∈ (assignedN c cols sets).map Prod.fst
    · rw [assignedN_names] at hm
      obtain ⟨e, he, hb'⟩ := List.mem_flatMap.1 hm
      exact ⟨e.1, hkeys e he, hb'⟩
    · refine h.only b ?_
      by_contra hx
      refine (Dict.get?_eq_none_iff _ _).1 ?_ hb
      rw [assign_eq, setAll_other hm]
      exact (Dict.get?_eq_none_iff _ _).2 hx

theorem out_cellsN {P : Proxy} {res : List Char → Bool} {tm : TableMeta ColMeta} (hn : Named P.w res tm) {sets : List (String × Option Val)}
    (hs : ∀ e ∈ sets, ∃ cm, Dict.get? tm.columns e.1 = some cm ∧ AssignableN cm e.2) :
    ∀ e ∈ assignOutN P.c tm.columns sets, Bare P.w res e.1 ∧ e.2.Ok P.w := by
  intro p hp
  obtain ⟨⟨n, v⟩, he, hp⟩ := List.mem_flatMap.1 hp
  obtain ⟨cm, hc, ha⟩ := hs _ he
  simp only at hc ha
  simp only [hc, cellsN] at hp
  split at hp
  · rename_i hpl
    simp only [List.mem_singleton] at hp
    subst hp
    refine ⟨hn.plain n cm hc hpl, fun x hx => ?_⟩
    cases v with
    | none => cases hx
    | some v =>
      injection hx with hx
      subst hx
      exact plainRhs_ok (ha v rfl) hpl
  · rename_i hpl
    have hpl' : cm.plaintext = false := by simpa using hpl
    obtain ⟨q, hq, rfl⟩ := List.mem_map.1 hp
    refine ⟨hn.enc n cm hc hpl' q.1 q.2 hq, fun x hx => ?_⟩
    cases v with
    | none => cases hx
    | some v =>
      injection hx with hx
      subst hx
      exact setRhs_ok (ha v rfl) hpl' hq

end EulerDB.NullLit
