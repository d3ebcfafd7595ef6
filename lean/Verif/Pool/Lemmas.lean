import Verif.Pool.Model

/-! # Invariants of the pool -/

namespace EulerDB.Pool

open EulerDB

/-- All connections the pool or a handle refers to. -/
def owned (s : St) : List Nat := s.idle ++ (s.ded.map Prod.snd ++ (s.cache.map Shared.con ++ s.orphans.map Shared.con))

/-- The number of shared handles on a connection. -/
def handles (s : St) (c : Nat) : Nat := s.shh.countP fun e => e.2 = c

structure Inv (p : Cfg) (s : St) : Prop where
  nodup : (owned s).Nodup
  lt : ∀ c ∈ owned s, c < s.next
  hnodup : ((s.ded ++ s.shh).map Prod.fst).Nodup
  hlt : ∀ e ∈ s.ded ++ s.shh, e.1 < s.nextH
  count : ∀ o ∈ s.cache ++ s.orphans, o.shared = (handles s o.con : Int) ∧ 0 < o.shared
  owner : ∀ e ∈ s.shh, ∃ o ∈ s.cache ++ s.orphans, o.con = e.2
  clean : ∀ c ∈ s.idle, s.tx c = false
  fresh : ∀ c, s.next ≤ c → s.tx c = false
  lim : p.maxcached ≠ 0 → s.idle.length ≤ p.maxcached

theorem inv_init (p : Cfg) : Inv p {} := by
  constructor <;> simp [owned]

theorem handles_zero {p : Cfg} {s : St} (h : Inv p s) {c : Nat} (hc : c ∉ s.cache.map Shared.con) (ho : c ∉ s.orphans.map Shared.con) : handles s c = 0 := by
  unfold handles
  rw [List.countP_eq_zero]
  intro e he heq
  simp only [decide_eq_true_eq] at heq
  obtain ⟨o, hm, hoc⟩ := h.owner e he
  rcases List.mem_append.1 hm with hm | hm
  · exact hc (List.mem_map.2 ⟨o, hm, by rw [hoc, heq]⟩)
  · exact ho (List.mem_map.2 ⟨o, hm, by rw [hoc, heq]⟩)

/-- Putting a connection nobody refers to back. -/
theorem inv_cacheCon {p : Cfg} {s : St} {c : Nat} (h : Inv p s) (hc : c ∉ owned s) (hlt : c < s.next) : Inv p (cacheCon p c s) := by
  have hci : c ∉ s.idle := fun hm => hc (by simp [owned, hm])
  unfold cacheCon
  split
  · rename_i hlim
    have htx : ∀ x, resetTx p.reset s.tx c x = true → s.tx x = true ∧ x ≠ c := by
      intro x hx
      unfold resetTx at hx
      split at hx
      · simp only [setTx] at hx
        split at hx
        · cases hx
        · rename_i hne; exact ⟨hx, hne⟩
      · rename_i hf
        refine ⟨hx, ?_⟩
        rintro rfl
        simp [hx] at hf
    constructor
    · have : (owned s).Nodup := h.nodup
      rw [List.nodup_iff_count_le_one] at this ⊢
      intro x
      have := this x
      simp only [owned, List.count_append, List.count_cons, List.count_nil] at this ⊢
      by_cases hx : c = x
      · subst hx
        have h0 := List.count_eq_zero.2 hc
        simp only [owned, List.count_append] at h0
        simp
        omega
      · simp [hx]
        omega
    · intro x hx
      by_cases he : x = c
      · subst he; exact hlt
      · refine h.lt x ?_
        simp only [owned, List.mem_append, List.mem_singleton] at hx ⊢
        tauto
    · exact h.hnodup
    · exact h.hlt
    · exact h.count
    · exact h.owner
    · intro x hx
      by_contra hne
      have hne := htx x (by simpa using hne)
      simp only [List.mem_append, List.mem_singleton] at hx
      rcases hx with hx | hx
      · rw [h.clean x hx] at hne; cases hne.1
      · exact hne.2 hx
    · intro x hx
      by_contra hne
      have hne := htx x (by simpa using hne)
      rw [h.fresh x hx] at hne; cases hne.1
    · intro hm
      have := h.lim hm
      rcases hlim with hl | hl
      · exact absurd hl hm
      · simp only [List.length_append, List.length_singleton]; omega
  · constructor
    · exact h.nodup
    · exact h.lt
    · exact h.hnodup
    · exact h.hlt
    · exact h.count
    · exact h.owner
    · intro x hx
      simp only [setTx]
      split
      · rfl
      · exact h.clean x hx
    · intro x hx
      simp only [setTx]
      split
      · rfl
      · exact h.fresh x hx
    · exact h.lim

theorem take_spec {create : Bool} {s s' : St} {c : Nat} (h : take create s = some (c, s')) :
    (s.idle = c :: s'.idle ∧ s' = { s with idle := s'.idle }) ∨ (s.idle = [] ∧ c = s.next ∧ s' = { s with next := s.next + 1 }) := by
  unfold take at h
  split at h
  · rename_i x r hi
    injection h with h
    injection h with h1 h2
    subst h1 h2
    exact Or.inl ⟨hi, rfl⟩
  · rename_i hi
    split at h
    · injection h with h
      injection h with h1 h2
      subst h1 h2
      exact Or.inr ⟨hi, rfl, rfl⟩
    · cases h

/-- Taking a connection out: nobody refers to it any more, and it is in no transaction. -/
theorem inv_take {p : Cfg} {create : Bool} {s s' : St} {c : Nat} (hi : Inv p s) (h : take create s = some (c, s')) :
    Inv p s' ∧ c ∉ owned s' ∧ c < s'.next ∧ s'.tx c = false ∧ s'.cache = s.cache ∧ s'.orphans = s.orphans ∧ s'.ded = s.ded ∧ s'.shh = s.shh ∧
      s'.nextH = s.nextH ∧ s'.connections = s.connections ∧ s'.tx = s.tx := by
  rcases take_spec h with ⟨h1, h2⟩ | ⟨h1, h2, h3⟩
  · have hn := hi.nodup
    rw [h2]
    simp only [owned, h1, List.cons_append] at hn ⊢
    have hn' := List.nodup_cons.1 hn
    refine ⟨?_, hn'.1, hi.lt c (by simp [owned, h1]), hi.clean c (by simp [h1]), ?_⟩
    · constructor
      · exact hn'.2
      · intro x hx
        exact hi.lt x (by simp only [owned, h1, List.cons_append, List.mem_cons]; right; exact hx)
      · exact hi.hnodup
      · exact hi.hlt
      · exact hi.count
      · exact hi.owner
      · intro x hx; exact hi.clean x (by simp [h1, hx])
      · exact hi.fresh
      · intro hm
        have := hi.lim hm
        simp only [h1, List.length_cons] at this
        simp only; omega
    · simp
  · rw [h3, h2]
    refine ⟨?_, ?_, by simp, hi.fresh _ (le_refl _), by simp⟩
    · constructor
      · exact hi.nodup
      · intro x hx
        have := hi.lt x hx
        simp only; omega
      · exact hi.hnodup
      · exact hi.hlt
      · exact hi.count
      · exact hi.owner
      · exact hi.clean
      · intro x hx
        exact hi.fresh x (by simp only at hx; omega)
      · exact hi.lim
    · intro hm
      exact absurd (hi.lt _ hm) (by simp)

theorem inv_addDed {p : Cfg} {s : St} {c : Nat} {k : Int} (h : Inv p s) (hc : c ∉ owned s) (hlt : c < s.next) :
    Inv p { s with connections := k, ded := (s.nextH, c) :: s.ded, nextH := s.nextH + 1 } := by
  constructor
  · have : (owned s).Nodup := h.nodup
    rw [List.nodup_iff_count_le_one] at this ⊢
    intro x
    have := this x
    simp only [owned, List.count_append, List.count_cons, List.map_cons] at this ⊢
    by_cases hx : c = x
    · subst hx
      have h0 := List.count_eq_zero.2 hc
      simp only [owned, List.count_append] at h0
      simp
      omega
    · simp [hx]
      omega
  · intro x hx
    by_cases he : x = c
    · subst he; exact hlt
    · refine h.lt x ?_
      simp only [owned, List.mem_append, List.map_cons, List.mem_cons] at hx ⊢
      tauto
  · have := h.hnodup
    simp only [List.cons_append, List.map_cons]
    rw [List.nodup_cons]
    refine ⟨?_, this⟩
    intro hm
    obtain ⟨e, he, hne⟩ := List.mem_map.1 hm
    have := h.hlt e he
    omega
  · intro e he
    simp only [List.cons_append, List.mem_cons] at he
    rcases he with rfl | he
    · simp
    · have := h.hlt e he
      simp only; omega
  · exact h.count
  · exact h.owner
  · exact h.clean
  · exact h.fresh
  · exact h.lim

theorem inv_addShared {p : Cfg} {s : St} {c : Nat} {k : Int} (h : Inv p s) (hc : c ∉ owned s) (hlt : c < s.next) :
    Inv p { s with connections := k, cache := s.cache ++ [⟨c, 1⟩], shh := (s.nextH, c) :: s.shh, nextH := s.nextH + 1 } := by
  have hcc : c ∉ s.cache.map Shared.con := fun hm => hc (by simp only [owned, List.mem_append]; tauto)
  have hco : c ∉ s.orphans.map Shared.con := fun hm => hc (by simp only [owned, List.mem_append]; tauto)
  have h0 := handles_zero h hcc hco
  constructor
  · have : (owned s).Nodup := h.nodup
    rw [List.nodup_iff_count_le_one] at this ⊢
    intro x
    have := this x
    simp only [owned, List.count_append, List.count_cons, List.map_append, List.map_cons, List.map_nil, List.count_nil] at this ⊢
    by_cases hx : c = x
    · subst hx
      have h0 := List.count_eq_zero.2 hc
      simp only [owned, List.count_append] at h0
      simp
      omega
    · simp [hx]
      omega
  · intro x hx
    by_cases he : x = c
    · subst he; exact hlt
    · refine h.lt x ?_
      simp only [owned, List.mem_append, List.map_append, List.map_cons, List.map_nil, List.mem_singleton] at hx ⊢
      tauto
  · have := h.hnodup
    rw [List.map_append, List.map_cons]
    rw [List.nodup_middle, List.nodup_cons, ← List.map_append]
    refine ⟨?_, this⟩
    intro hm
    obtain ⟨e, he, hne⟩ := List.mem_map.1 hm
    have := h.hlt e he
    omega
  · intro e he
    simp only [List.mem_append, List.mem_cons] at he
    have hh : e ∈ s.ded ++ s.shh ∨ e = (s.nextH, c) := by
      simp only [List.mem_append]; tauto
    rcases hh with he | rfl
    · have := h.hlt e he
      simp only; omega
    · simp
  · intro o ho
    have ho' : o ∈ s.cache ++ s.orphans ∨ o = ⟨c, 1⟩ := by
      simp only [List.mem_append, List.mem_singleton] at ho ⊢; tauto
    rcases ho' with ho' | rfl
    · have hne : c ≠ o.con := by
        rintro rfl
        rcases List.mem_append.1 ho' with hm | hm
        · exact hcc (List.mem_map.2 ⟨o, hm, rfl⟩)
        · exact hco (List.mem_map.2 ⟨o, hm, rfl⟩)
      have := h.count o ho'
      simpa [handles, List.countP_cons, hne] using this
    · simp only [handles] at h0
      simp [handles, h0]
  · intro e he
    simp only [List.mem_cons] at he
    rcases he with rfl | he
    · exact ⟨⟨c, 1⟩, by simp, rfl⟩
    · obtain ⟨o, ho, hoc⟩ := h.owner e he
      refine ⟨o, ?_, hoc⟩
      simp only [List.mem_append, List.mem_singleton] at ho ⊢; tauto
  · exact h.clean
  · exact h.fresh
  · exact h.lim

/-- The pool after reordering the shared cache. -/
theorem inv_perm {p : Cfg} {s : St} {l : List Shared} (h : Inv p s) (hl : l.Perm s.cache) : Inv p { s with cache := l } := by
  have hm : ∀ o, o ∈ l ++ s.orphans ↔ o ∈ s.cache ++ s.orphans := fun o => by simp [hl.mem_iff]
  have hp : (owned { s with cache := l }).Perm (owned s) := by
    unfold owned
    exact (((hl.map Shared.con).append_right _).append_left _).append_left _
  constructor
  · exact hp.nodup_iff.2 h.nodup
  · intro x hx; exact h.lt x (hp.mem_iff.1 hx)
  · exact h.hnodup
  · exact h.hlt
  · intro o ho; exact h.count o ((hm o).1 ho)
  · intro e he
    obtain ⟨o, ho, hoc⟩ := h.owner e he
    exact ⟨o, (hm o).2 ho, hoc⟩
  · exact h.clean
  · exact h.fresh
  · exact h.lim

theorem sort_perm (tx : Nat → Bool) (l : List Shared) : (sortShared tx l).Perm l := List.perm_insertionSort _ l

theorem inv_shareLeast {p : Cfg} {s : St} (h : Inv p s) : Inv p (shareLeast p s).1 := by
  unfold shareLeast
  cases hs : sortShared s.tx s.cache with
  | nil => exact h
  | cons o r =>
    have hperm : (o :: r).Perm s.cache := hs ▸ sort_perm s.tx s.cache
    simp only
    split
    · exact inv_perm h hperm
    · have h1 := inv_perm h (l := o :: r) hperm
      have hoc := h1.count o (by simp)
      have hdis : ∀ e ∈ r ++ s.orphans, e.con ≠ o.con := by
        have hn := h1.nodup
        rw [List.nodup_iff_count_le_one] at hn
        intro e he heq
        have := hn o.con
        simp only [owned, List.count_append, List.map_cons, List.count_cons_self] at this
        rcases List.mem_append.1 he with he | he
        · have : 0 < List.count o.con (List.map Shared.con r) := List.count_pos_iff.2 (List.mem_map.2 ⟨e, he, heq⟩)
          omega
        · have : 0 < List.count o.con (List.map Shared.con s.orphans) := List.count_pos_iff.2 (List.mem_map.2 ⟨e, he, heq⟩)
          omega
      have hp : (owned { s with cache := r ++ [⟨o.con, o.shared + 1⟩] }).Perm (owned { s with cache := o :: r }) := by
        unfold owned
        refine List.Perm.append_left _ (List.Perm.append_left _ (List.Perm.append_right _ ?_))
        simp only [List.map_append, List.map_cons, List.map_nil]
        exact List.perm_append_comm
      constructor
      · exact hp.nodup_iff.2 h1.nodup
      · intro x hx; exact h1.lt x (hp.mem_iff.1 hx)
      · have := h.hnodup
        rw [List.map_append, List.map_cons]
        rw [List.nodup_middle, List.nodup_cons, ← List.map_append]
        refine ⟨?_, this⟩
        intro hm
        obtain ⟨e, he, hne⟩ := List.mem_map.1 hm
        have := h.hlt e he
        omega
      · intro e he
        simp only [List.mem_append, List.mem_cons] at he
        have hh : e ∈ s.ded ++ s.shh ∨ e = (s.nextH, o.con) := by
          simp only [List.mem_append]; tauto
        rcases hh with he | rfl
        · have := h.hlt e he
          simp only; omega
        · simp
      · intro x hx
        have hx' : x ∈ r ++ s.orphans ∨ x = ⟨o.con, o.shared + 1⟩ := by
          simp only [List.mem_append, List.mem_singleton] at hx ⊢; tauto
        rcases hx' with hx' | rfl
        · have hne := hdis x hx'
          have := h1.count x (by simp only [List.cons_append, List.mem_cons]; right; exact hx')
          simpa [handles, List.countP_cons, Ne.symm hne] using this
        · have h2 := hoc.1
          have h3 := hoc.2
          simp only [handles] at h2
          simp only [handles, List.countP_cons, decide_true, if_true]
          refine ⟨?_, by omega⟩
          rw [h2]; push_cast; rfl
      · intro e he
        simp only [List.mem_cons] at he
        rcases he with rfl | he
        · exact ⟨⟨o.con, o.shared + 1⟩, by simp, rfl⟩
        · obtain ⟨x, hx, hxc⟩ := h1.owner e he
          simp only [List.cons_append, List.mem_cons] at hx
          rcases hx with rfl | hx
          · exact ⟨⟨x.con, x.shared + 1⟩, by simp, hxc⟩
          · exact ⟨x, by simp only [List.mem_append, List.mem_singleton] at hx ⊢; tauto, hxc⟩
      · exact h.clean
      · exact h.fresh
      · exact h.lim

theorem inv_open {p : Cfg} {s : St} (sh cr : Bool) (h : Inv p s) : Inv p (openCon p sh cr s).1 := by
  unfold openCon
  split
  · split
    · exact h
    · split
      · cases ht : take cr s with
        | none => exact h
        | some e =>
          obtain ⟨c, s'⟩ := e
          obtain ⟨h1, h2, h3, _⟩ := inv_take h ht
          exact inv_addShared h1 h2 h3
      · exact inv_shareLeast h
  · split
    · exact h
    · cases ht : take cr s with
      | none => exact h
      | some e =>
        obtain ⟨c, s'⟩ := e
        obtain ⟨h1, h2, h3, _⟩ := inv_take h ht
        exact inv_addDed h1 h2 h3

/-- `find?` and `eraseP` meet the same element. -/
theorem find_erase {α : Type} {q : α → Bool} : ∀ {l : List α} {b : α}, l.find? q = some b → ∃ as bs, l = as ++ b :: bs ∧ l.eraseP q = as ++ bs ∧ q b = true
  | [], _, h => by simp at h
  | a :: l, b, h => by
    by_cases ha : q a = true
    · rw [List.find?_cons_of_pos ha] at h
      injection h with h
      subst h
      exact ⟨[], l, rfl, by simp [ha], ha⟩
    · rw [List.find?_cons_of_neg ha] at h
      obtain ⟨as, bs, h1, h2, h3⟩ := find_erase h
      exact ⟨a :: as, bs, by rw [h1]; rfl, by simp [ha, h2], h3⟩

theorem inv_closeDed {p : Cfg} {s : St} {h : Nat} {e : Nat × Nat} (hi : Inv p s) (hf : s.ded.find? (fun e => e.1 = h) = some e) :
    Inv p (cacheCon p e.2 { s with ded := s.ded.eraseP fun e => e.1 = h }) := by
  obtain ⟨as, bs, h1, h2, _⟩ := find_erase hf
  rw [h2]
  have hn := hi.nodup
  rw [List.nodup_iff_count_le_one] at hn
  have hsub : ∀ x, x ∈ owned { s with ded := as ++ bs } → x ∈ owned s := by
    intro x hx
    simp only [owned, h1, List.map_append, List.map_cons, List.mem_append, List.mem_cons] at hx ⊢
    tauto
  refine inv_cacheCon ?_ ?_ (hi.lt e.2 (by simp [owned, h1]))
  · constructor
    · rw [List.nodup_iff_count_le_one]
      intro x
      have := hn x
      simp only [owned, h1, List.map_append, List.map_cons, List.count_append, List.count_cons] at this ⊢
      omega
    · intro x hx; exact hi.lt x (hsub x hx)
    · have := hi.hnodup
      rw [h1] at this
      refine this.sublist ?_
      simp only [List.append_assoc, List.map_append, List.cons_append, List.map_cons]
      exact List.Sublist.append (List.Sublist.refl _) (List.sublist_cons_self _ _)
    · intro x hx
      refine hi.hlt x ?_
      simp only [h1, List.mem_append, List.mem_cons] at hx ⊢
      tauto
    · exact hi.count
    · exact hi.owner
    · exact hi.clean
    · exact hi.fresh
    · exact hi.lim
  · intro hm
    have := hn e.2
    have hc : 0 < List.count e.2 (owned { s with ded := as ++ bs }) := List.count_pos_iff.2 hm
    simp only [owned, h1, List.map_append, List.map_cons, List.count_append, List.count_cons_self] at this hc
    omega

theorem decShare_con (c : Nat) (l : List Shared) : (decShare c l).map Shared.con = l.map Shared.con := by
  unfold decShare
  rw [List.map_map]
  refine List.map_congr_left fun o _ => ?_
  simp only [Function.comp]
  split <;> rfl

theorem mem_decShare {c : Nat} {l : List Shared} {o : Shared} (h : o ∈ decShare c l) :
    ∃ x ∈ l, o.con = x.con ∧ o.shared = if x.con = c then x.shared - 1 else x.shared := by
  unfold decShare at h
  obtain ⟨x, hx, rfl⟩ := List.mem_map.1 h
  refine ⟨x, hx, ?_⟩
  split <;> simp

theorem decShare_mem {c : Nat} {l : List Shared} {x : Shared} (h : x ∈ l) : ∃ o ∈ decShare c l, o.con = x.con :=
  ⟨_, List.mem_map.2 ⟨x, h, rfl⟩, by split <;> rfl⟩

theorem eraseP_congr {α : Type} {q q' : α → Bool} : ∀ {l : List α}, (∀ a ∈ l, q a = q' a) → l.eraseP q = l.eraseP q'
  | [], _ => rfl
  | a :: l, h => by
    rw [List.eraseP_cons, List.eraseP_cons, h a (by simp), eraseP_congr fun x hx => h x (by simp [hx])]

/-- Without repetitions, erasing the first entry of a connection erases all. -/
theorem eraseP_filter (c : Nat) : ∀ {l : List Shared}, (l.map Shared.con).Nodup → (l.eraseP fun e => e.con = c) = l.filter fun e => e.con ≠ c
  | [], _ => rfl
  | a :: l, h => by
    rw [List.map_cons, List.nodup_cons] at h
    by_cases ha : a.con = c
    · rw [List.eraseP_cons_of_pos (by simp [ha]), List.filter_cons_of_neg (by simp [ha]), List.filter_eq_self.2]
      intro x hx
      simp only [decide_not, Bool.not_eq_eq_eq_not, Bool.not_true, decide_eq_false_iff_not]
      rintro rfl
      exact h.1 (List.mem_map.2 ⟨x, hx, ha.symm⟩)
    · rw [List.eraseP_cons_of_neg (by simp [ha]), List.filter_cons_of_pos (by simp [ha]), eraseP_filter c h.2]

/-- A state whose shared counts are those of the handles, one connection `c` possibly having none left. -/
theorem inv_unshare {p : Cfg} {s : St} {h : Nat} {e : Nat × Nat} (hi : Inv p s) (hf : s.shh.find? (fun e => e.1 = h) = some e) :
    Inv p (unshare p e.2 { s with shh := s.shh.eraseP fun e => e.1 = h }) := by
  obtain ⟨as, bs, h1, h2, _⟩ := find_erase hf
  rw [h2]
  have hes : e ∈ s.shh := by simp [h1]
  have hcnt : ∀ c, handles s c = handles { s with shh := as ++ bs } c + if e.2 = c then 1 else 0 := by
    intro c
    simp only [handles, h1, List.countP_append, List.countP_cons, decide_eq_true_eq]
    omega
  -- the state before the decision
  have hown : owned { s with shh := as ++ bs, cache := decShare e.2 s.cache, orphans := decShare e.2 s.orphans } = owned s := by
    simp only [owned, decShare_con]
  have hd : ∀ o ∈ decShare e.2 s.cache ++ decShare e.2 s.orphans, o.shared = (handles { s with shh := as ++ bs } o.con : Int) ∧ 0 ≤ o.shared ∧
      (o.con ≠ e.2 → 0 < o.shared) := by
    intro o ho
    have : ∃ x ∈ s.cache ++ s.orphans, o.con = x.con ∧ o.shared = if x.con = e.2 then x.shared - 1 else x.shared := by
      rcases List.mem_append.1 ho with ho | ho
      · obtain ⟨x, hx, hh⟩ := mem_decShare ho; exact ⟨x, by simp [hx], hh⟩
      · obtain ⟨x, hx, hh⟩ := mem_decShare ho; exact ⟨x, by simp [hx], hh⟩
    obtain ⟨x, hx, ho1, ho2⟩ := this
    obtain ⟨hx1, hx2⟩ := hi.count x hx
    have := hcnt x.con
    by_cases hxe : x.con = e.2
    · rw [if_pos hxe] at ho2
      rw [if_pos hxe.symm] at this
      rw [ho1]
      refine ⟨by omega, by omega, fun hne => absurd hxe hne⟩
    · rw [if_neg hxe] at ho2
      rw [if_neg (Ne.symm hxe)] at this
      rw [ho1]
      refine ⟨by omega, by omega, fun _ => by omega⟩
  have hhn : ((s.ded ++ (as ++ bs)).map Prod.fst).Nodup := by
    have := hi.hnodup
    rw [h1] at this
    refine this.sublist ?_
    simp only [List.map_append, List.map_cons]
    exact List.Sublist.append (List.Sublist.refl _) (List.Sublist.append (List.Sublist.refl _) (List.sublist_cons_self _ _))
  have hhl : ∀ x ∈ s.ded ++ (as ++ bs), x.1 < s.nextH := by
    intro x hx
    refine hi.hlt x ?_
    simp only [h1, List.mem_append, List.mem_cons] at hx ⊢
    tauto
  have hsub : ∀ x ∈ as ++ bs, x ∈ s.shh := by
    intro x hx
    simp only [h1, List.mem_append, List.mem_cons] at hx ⊢
    tauto
  have hnd : ((decShare e.2 s.cache ++ decShare e.2 s.orphans).map Shared.con).Nodup := by
    have := hi.nodup
    rw [← hown] at this
    rw [List.map_append]
    exact (List.nodup_append.1 (List.nodup_append.1 this).2.1).2.1
  obtain ⟨x0, hx0, hx0c⟩ := hi.owner e hes
  have hex : ∃ o ∈ decShare e.2 s.cache ++ decShare e.2 s.orphans, o.con = e.2 := by
    rcases List.mem_append.1 hx0 with hx | hx
    · obtain ⟨o, ho, hoc⟩ := decShare_mem (c := e.2) hx; exact ⟨o, by simp [ho], by rw [hoc, hx0c]⟩
    · obtain ⟨o, ho, hoc⟩ := decShare_mem (c := e.2) hx; exact ⟨o, by simp [ho], by rw [hoc, hx0c]⟩
  have huniq : ∀ a ∈ decShare e.2 s.cache ++ decShare e.2 s.orphans, ∀ b ∈ decShare e.2 s.cache ++ decShare e.2 s.orphans, a.con = b.con → a = b :=
    fun a ha b hb hab => List.inj_on_of_nodup_map hnd ha hb hab
  unfold unshare
  simp only
  cases hfo : (decShare e.2 s.cache ++ decShare e.2 s.orphans).find? (fun o => o.con = e.2) with
  | none =>
    obtain ⟨o, ho, hoc⟩ := hex
    exact absurd hoc (by simpa using List.find?_eq_none.1 hfo o ho)
  | some o =>
    have hom := List.mem_of_find?_eq_some hfo
    have hoc : o.con = e.2 := by simpa using List.find?_some hfo
    simp only
    split
    · rename_i hz
      have hsame : (decShare e.2 s.cache).eraseP (fun e => sameShared s.tx e o) = (decShare e.2 s.cache).filter fun x => x.con ≠ e.2 := by
        rw [← eraseP_filter e.2 (by rw [List.map_append] at hnd; exact (List.nodup_append.1 hnd).1)]
        refine eraseP_congr fun x hx => ?_
        unfold sameShared
        rw [hoc]
        by_cases hxe : x.con = e.2
        · simp [hxe]
        · have := (hd x (by simp [hx])).2.2 hxe
          have hne : x.shared ≠ o.shared := by omega
          simp [hxe, hne]
      have hor : (decShare e.2 s.orphans).eraseP (fun x => x.con = e.2) = (decShare e.2 s.orphans).filter fun x => x.con ≠ e.2 :=
        eraseP_filter e.2 (by rw [List.map_append] at hnd; exact (List.nodup_append.1 hnd).2.1)
      rw [hsame, hor]
      have hzero : handles { s with shh := as ++ bs } e.2 = 0 := by
        have := (hd o hom).1
        rw [hoc] at this
        omega
      refine inv_cacheCon ?_ ?_ ?_
      · constructor
        · have hn := hi.nodup
          rw [← hown] at hn
          refine hn.sublist ?_
          unfold owned
          refine List.Sublist.append (List.Sublist.refl _) (List.Sublist.append (List.Sublist.refl _) (List.Sublist.append ?_ ?_))
          · exact (List.filter_sublist).map _
          · exact (List.filter_sublist).map _
        · intro x hx
          refine hi.lt x ?_
          rw [← hown]
          simp only [owned, List.mem_append, List.mem_map, List.mem_filter] at hx ⊢
          rcases hx with hx | hx | ⟨y, hy, hh⟩ | ⟨y, hy, hh⟩
          · exact Or.inl hx
          · exact Or.inr (Or.inl hx)
          · exact Or.inr (Or.inr (Or.inl ⟨y, hy.1, hh⟩))
          · exact Or.inr (Or.inr (Or.inr ⟨y, hy.1, hh⟩))
        · exact hhn
        · exact hhl
        · intro x hx
          have hx' : x ∈ decShare e.2 s.cache ++ decShare e.2 s.orphans ∧ x.con ≠ e.2 := by
            simp only [List.mem_append, List.mem_filter, decide_eq_true_eq] at hx ⊢
            tauto
          have := hd x hx'.1
          exact ⟨this.1, this.2.2 hx'.2⟩
        · intro x hx
          obtain ⟨y, hy, hyc⟩ := hi.owner x (hsub x hx)
          have hxe : x.2 ≠ e.2 := by
            intro heq
            have : 0 < handles { s with shh := as ++ bs } e.2 := List.countP_pos_iff.2 ⟨x, hx, by simpa using heq⟩
            omega
          have : ∃ o ∈ decShare e.2 s.cache ++ decShare e.2 s.orphans, o.con = y.con := by
            rcases List.mem_append.1 hy with hy | hy
            · obtain ⟨o, ho, hoc⟩ := decShare_mem (c := e.2) hy; exact ⟨o, by simp [ho], hoc⟩
            · obtain ⟨o, ho, hoc⟩ := decShare_mem (c := e.2) hy; exact ⟨o, by simp [ho], hoc⟩
          obtain ⟨o', ho', hoc'⟩ := this
          refine ⟨o', ?_, by rw [hoc', hyc]⟩
          have hne : o'.con ≠ e.2 := by rw [hoc', hyc]; exact hxe
          simp only [List.mem_append, List.mem_filter, decide_eq_true_eq] at ho' ⊢
          tauto
        · exact hi.clean
        · exact hi.fresh
        · exact hi.lim
      · intro hm
        have hn := hi.nodup
        rw [← hown] at hn
        have hin : e.2 ∈ (decShare e.2 s.cache ++ decShare e.2 s.orphans).map Shared.con := List.mem_map.2 ⟨o, hom, hoc⟩
        rw [List.map_append] at hin
        simp only [owned, List.mem_append, List.mem_map, List.mem_filter] at hm
        simp only [owned] at hn
        rw [List.nodup_append] at hn
        obtain ⟨_, hn2, hd1⟩ := hn
        rw [List.nodup_append] at hn2
        obtain ⟨_, _, hd2⟩ := hn2
        rcases hm with hm | ⟨y, hy, hyc⟩ | ⟨y, ⟨_, hy⟩, hyc⟩ | ⟨y, ⟨_, hy⟩, hyc⟩
        · exact hd1 _ hm _ (List.mem_append_right _ hin) rfl
        · exact hd2 _ (List.mem_map.2 ⟨y, hy, hyc⟩) _ hin rfl
        · simp [hyc] at hy
        · simp [hyc] at hy
      · refine hi.lt e.2 ?_
        rw [← hown]
        have hin : e.2 ∈ (decShare e.2 s.cache ++ decShare e.2 s.orphans).map Shared.con := List.mem_map.2 ⟨o, hom, hoc⟩
        rw [List.map_append] at hin
        unfold owned
        exact List.mem_append_right _ (List.mem_append_right _ hin)
    · rename_i hz
      constructor
      · rw [hown]; exact hi.nodup
      · rw [hown]; exact hi.lt
      · exact hhn
      · exact hhl
      · intro x hx
        have := hd x hx
        refine ⟨this.1, ?_⟩
        by_cases hxe : x.con = e.2
        · have hxo := huniq x hx o hom (by rw [hxe, hoc])
          subst hxo
          omega
        · exact this.2.2 hxe
      · intro x hx
        obtain ⟨y, hy, hyc⟩ := hi.owner x (hsub x hx)
        rcases List.mem_append.1 hy with hy | hy
        · obtain ⟨o, ho, hoc⟩ := decShare_mem (c := e.2) hy; exact ⟨o, by simp [ho], by rw [hoc, hyc]⟩
        · obtain ⟨o, ho, hoc⟩ := decShare_mem (c := e.2) hy; exact ⟨o, by simp [ho], by rw [hoc, hyc]⟩
      · exact hi.clean
      · exact hi.fresh
      · exact hi.lim

theorem inv_close {p : Cfg} {s : St} (h : Nat) (hi : Inv p s) : Inv p (closeH p h s) := by
  unfold closeH
  cases h1 : s.ded.find? (fun e => e.1 = h) with
  | some e => exact inv_closeDed hi h1
  | none =>
    simp only
    cases h2 : s.shh.find? (fun e => e.1 = h) with
    | some e => exact inv_unshare hi h2
    | none => exact hi

theorem inv_closePool {p : Cfg} {s : St} (hi : Inv p s) : Inv p (closePool p s) := by
  have h1 : Inv p { s with tx := closeTx s.tx s.idle, idle := [] } := by
    constructor
    · have := hi.nodup
      unfold owned at this ⊢
      exact (List.nodup_append.1 this).2.1
    · intro x hx
      refine hi.lt x ?_
      unfold owned at hx ⊢
      exact List.mem_append_right _ hx
    · exact hi.hnodup
    · exact hi.hlt
    · exact hi.count
    · exact hi.owner
    · simp
    · intro x hx
      simp only [closeTx]
      split
      · rfl
      · exact hi.fresh x hx
    · simp
  unfold closePool
  simp only
  split
  · have hp : ∀ l : List Shared, ∀ k : Int, ∀ t : Nat → Bool,
        (owned { s with idle := [], tx := t, connections := k, orphans := s.orphans ++ s.cache, cache := [] }).Perm (owned { s with tx := closeTx s.tx s.idle, idle := [] }) := by
      intro l k t
      unfold owned
      simp only [List.map_nil, List.nil_append, List.map_append]
      exact List.Perm.append_left _ List.perm_append_comm
    have hm : ∀ o, o ∈ ([] : List Shared) ++ (s.orphans ++ s.cache) ↔ o ∈ s.cache ++ s.orphans := by
      intro o; simp [or_comm]
    constructor
    · exact (hp [] _ _).nodup_iff.2 h1.nodup
    · intro x hx; exact h1.lt x ((hp [] _ _).mem_iff.1 hx)
    · exact h1.hnodup
    · exact h1.hlt
    · intro o ho; exact h1.count o ((hm o).1 ho)
    · intro e he
      obtain ⟨o, ho, hoc⟩ := h1.owner e he
      exact ⟨o, (hm o).2 ho, hoc⟩
    · simp
    · intro x hx
      simp only [closeTx]
      split
      · rfl
      · split
        · rfl
        · exact hi.fresh x hx
    · exact h1.lim
  · exact h1

theorem conOf_owned {p : Cfg} {s : St} (hi : Inv p s) {h c : Nat} (hc : conOf s h = some c) : c ∈ owned s ∧ c ∉ s.idle := by
  unfold conOf at hc
  cases hf : (s.ded ++ s.shh).find? (fun e => e.1 = h) with
  | none => simp [hf] at hc
  | some e =>
    simp only [hf, Option.map_some] at hc
    injection hc with hc
    subst hc
    have hm := List.mem_of_find?_eq_some hf
    have hin : e.2 ∈ s.ded.map Prod.snd ++ (s.cache.map Shared.con ++ s.orphans.map Shared.con) := by
      rcases List.mem_append.1 hm with hm | hm
      · exact List.mem_append_left _ (List.mem_map.2 ⟨e, hm, rfl⟩)
      · obtain ⟨o, ho, hoc⟩ := hi.owner e hm
        rw [← hoc]
        simp only [List.mem_append, List.mem_map] at ho ⊢
        rcases ho with ho | ho
        · exact Or.inr (Or.inl ⟨o, ho, rfl⟩)
        · exact Or.inr (Or.inr ⟨o, ho, rfl⟩)
    refine ⟨List.mem_append_right _ hin, ?_⟩
    intro hidle
    have hn := hi.nodup
    unfold owned at hn
    exact (List.nodup_append.1 hn).2.2 _ hidle _ hin rfl

theorem inv_step {p : Cfg} {s : St} (op : Op) (hi : Inv p s) : Inv p (step p s op).1 := by
  cases op with
  | «open» sh cr => exact inv_open sh cr hi
  | wake => exact inv_shareLeast hi
  | close h => exact inv_close h hi
  | closePool => exact inv_closePool hi
  | tx h b =>
    unfold step
    simp only
    cases hc : conOf s h with
    | none => exact hi
    | some c =>
      obtain ⟨h1, h2⟩ := conOf_owned hi hc
      constructor
      · exact hi.nodup
      · exact hi.lt
      · exact hi.hnodup
      · exact hi.hlt
      · exact hi.count
      · exact hi.owner
      · intro x hx
        simp only [setTx]
        rw [if_neg (by rintro rfl; exact h2 hx)]
        exact hi.clean x hx
      · intro x hx
        simp only [setTx]
        rw [if_neg (by rintro rfl; exact absurd (hi.lt _ h1) (by simp only at hx; omega))]
        exact hi.fresh x hx
      · exact hi.lim

theorem inv_run (p : Cfg) : ∀ (ops : List Op) {s : St}, Inv p s → Inv p (ops.foldl (fun s op => (step p s op).1) s)
  | [], _, h => h
  | op :: ops, _, h => inv_run p ops (inv_step op h)

end EulerDB.Pool
