import Verif.Delta.Model

namespace EulerDB.Delta

open EulerDB

variable {Col : Type}

/-- Exact comparison, as in sqlite. -/
def exact (a b : Name) : Bool := decide (a = b)

/-- The stored rows of one table. -/
def rowsFor (rows : List (Row Col)) (db t : Name) : List (Row Col) :=
  rows.filter fun r => decide (r.db = db ∧ r.table = t)

theorem mutate_meta (s : State Col) (f : Meta Col → Meta Col) : (s.mutate f).meta = f s.meta := by
  unfold State.mutate State.meta
  cases h : s.inst <;> simp

theorem mutate_rows (s : State Col) (f : Meta Col → Meta Col) : (s.mutate f).rows = s.rows := by
  unfold State.mutate
  cases h : s.inst <;> simp

theorem find_set (m : Meta Col) (db : Name) (d : DbMeta Col) (db' t' : Name) :
    find (Dict.set m db d) db' t' = if db' = db then Dict.get? d t' else find m db' t' := by
  unfold find
  rw [Dict.get?_set]
  split <;> simp

/-- What `update_delta` does to the lookup. -/
theorem find_updateMem (s : State Col) (db t : Name) (tm : TableMeta Col) (db' t' : Name) :
    find (updateMem s db t tm).meta db' t' = if db' = db ∧ t' = t then some tm else find s.meta db' t' := by
  unfold updateMem
  split
  · rw [mutate_meta]
    cases hg : Dict.get? s.meta db with
    | none =>
      simp only
      rw [find_set]
      by_cases hd : db' = db
      · subst hd
        simp only [if_true, true_and]
        simp only [Dict.get?]
        by_cases ht : t' = t
        · simp [ht]
        · simp [ht, Ne.symm ht, find, hg]
      · simp [hd]
    | some d =>
      simp only
      rw [find_set]
      by_cases hd : db' = db
      · subst hd
        simp only [if_true, true_and]
        rw [Dict.get?_set]
        by_cases ht : t' = t
        · simp [ht]
        · simp [ht, find, hg]
      · simp [hd]
  · rename_i hm
    have hm' : s.meta = [] := by simpa using hm
    simp only [State.meta, Option.getD_some] at hm' ⊢
    rw [hm']
    unfold find
    simp only [Dict.get?, Option.bind_none]
    by_cases hd : db' = db
    · subst hd
      simp only [if_true, true_and, Option.bind_some, Dict.get?]
      by_cases ht : t' = t
      · simp [ht]
      · simp [ht, Ne.symm ht]
    · simp [hd, Ne.symm hd]

theorem find_updateDelta (s : State Col) (db t : Name) (tm : TableMeta Col) (db' t' : Name) :
    find (updateDelta s db t tm).meta db' t' = if db' = db ∧ t' = t then some tm else find s.meta db' t' :=
  find_updateMem s db t tm db' t'

theorem rows_updateDelta (s : State Col) (db t : Name) (tm : TableMeta Col) :
    (updateDelta s db t tm).rows = s.rows ++ rowsOf db t tm := by
  unfold updateDelta updateRows updateMem
  simp only
  split
  · rw [mutate_rows]
  · rfl

theorem find_deleteDelta {same : Name → Name → Bool} {s s' : State Col} {db t : Name} (h : deleteDelta same s db t = .ok s')
    (db' t' : Name) : find s'.meta db' t' = if db' = db ∧ t' = t then none else find s.meta db' t' := by
  unfold deleteDelta deleteMem at h
  cases hg : Dict.get? s.meta db with
  | none => rw [hg] at h; cases h
  | some d =>
    rw [hg] at h
    simp only at h
    injection h with h
    subst h
    show find (s.mutate _).meta db' t' = _
    rw [mutate_meta, find_set]
    by_cases hd : db' = db
    · subst hd
      simp only [if_true, true_and]
      by_cases ht : t' = t
      · subst ht; simp
      · rw [Dict.get?_erase_ne _ ht]; simp [ht, find, hg]
    · simp [hd]

theorem rows_deleteDelta {same : Name → Name → Bool} {s s' : State Col} {db t : Name} (h : deleteDelta same s db t = .ok s') :
    s'.rows = s.rows.filter fun r => !(same r.db db && same r.table t) := by
  unfold deleteDelta deleteMem at h
  cases hg : Dict.get? s.meta db with
  | none => rw [hg] at h; cases h
  | some d =>
    rw [hg] at h
    simp only at h
    injection h with h
    subst h
    show List.filter _ (s.mutate _).rows = _
    rw [mutate_rows]

theorem rowsFor_append (a b : List (Row Col)) (db t : Name) : rowsFor (a ++ b) db t = rowsFor a db t ++ rowsFor b db t := by
  unfold rowsFor; exact List.filter_append ..

theorem rowsFor_rowsOf (db t : Name) (tm : TableMeta Col) (db' t' : Name) :
    rowsFor (rowsOf db t tm) db' t' = if db' = db ∧ t' = t then rowsOf db t tm else [] := by
  unfold rowsFor rowsOf
  split
  · rename_i h
    obtain ⟨rfl, rfl⟩ := h
    rw [List.filter_eq_self]
    intro r hr
    obtain ⟨e, _, rfl⟩ := List.mem_map.1 hr
    simp
  · rename_i h
    rw [List.filter_eq_nil_iff]
    intro r hr
    obtain ⟨e, _, rfl⟩ := List.mem_map.1 hr
    simp only [decide_eq_true_eq]
    exact fun ⟨h1, h2⟩ => h ⟨h1.symm, h2.symm⟩

theorem rowsFor_delete_exact (rows : List (Row Col)) (db t db' t' : Name) :
    rowsFor (rows.filter fun r => !(exact r.db db && exact r.table t)) db' t' =
      if db' = db ∧ t' = t then [] else rowsFor rows db' t' := by
  unfold rowsFor
  rw [List.filter_filter]
  split
  · rename_i h
    obtain ⟨rfl, rfl⟩ := h
    rw [List.filter_eq_nil_iff]
    intro r _
    simp [exact]
  · rename_i h
    apply List.filter_congr
    intro r _
    by_cases hr : r.db = db' ∧ r.table = t'
    · obtain ⟨rfl, rfl⟩ := hr
      simp only [exact, and_self, decide_true, Bool.true_and, Bool.not_eq_true', Bool.and_eq_false_iff, decide_eq_false_iff_not]
      by_cases h1 : r.db = db
      · exact Or.inr fun h2 => h ⟨h1, h2⟩
      · exact Or.inl h1
    · simp [hr]

/-! ### Loading -/

/-- The effect of one row on its own table. -/
def absorb (o : Option (TableMeta Col)) (r : Row Col) : Option (TableMeta Col) :=
  let tm := o.getD ⟨r.anonymous, [], none⟩
  some { tm with columns := Dict.set tm.columns r.colName r.col }

theorem find_loadStep (m : Meta Col) (r : Row Col) (db t : Name) :
    find (loadStep m r) db t = if r.db = db ∧ r.table = t then absorb (find m db t) r else find m db t := by
  unfold loadStep
  simp only
  rw [find_set]
  by_cases hd : db = r.db
  · subst hd
    simp only [if_true, true_and]
    rw [Dict.get?_set]
    by_cases ht : t = r.table
    · subst ht
      simp only [if_true, absorb, find]
      cases hg : Dict.get? m r.db <;> simp
    · simp only [if_neg ht, if_neg (Ne.symm ht), find]
      cases hg : Dict.get? m r.db <;> simp
  · rw [if_neg hd, if_neg (fun h => hd h.1.symm)]

theorem find_foldl (rows : List (Row Col)) : ∀ (m : Meta Col) (db t : Name),
    find (rows.foldl loadStep m) db t = (rowsFor rows db t).foldl absorb (find m db t) := by
  induction rows with
  | nil => intros; rfl
  | cons r rows ih =>
    intro m db t
    rw [List.foldl_cons, ih, find_loadStep]
    unfold rowsFor
    rw [List.filter_cons]
    by_cases h : r.db = db ∧ r.table = t
    · simp [h]
    · simp [h]

/-- What is known about a table after loading depends on its own rows only. -/
theorem find_load (rows : List (Row Col)) (db t : Name) : find (load rows) db t = (rowsFor rows db t).foldl absorb none :=
  find_foldl rows [] db t

theorem absorb_rowsOf_aux (db t : Name) (anon : Name) : ∀ (cols : Dict Name Col) (pre : Dict Name Col) (c : Option String),
    (Dict.keys (pre ++ cols)).Nodup →
    (cols.map fun e => (⟨db, t, anon, e.1, e.2⟩ : Row Col)).foldl absorb (some ⟨anon, pre, c⟩) = some ⟨anon, pre ++ cols, c⟩
  | [], pre, c, _ => by simp
  | e :: cols, pre, c, h => by
    rw [List.map_cons, List.foldl_cons]
    have hne : Dict.get? pre e.1 = none := by
      rw [Dict.get?_eq_none_iff]
      intro hm
      unfold Dict.keys at h hm
      rw [List.map_append, List.nodup_append] at h
      exact h.2.2 _ hm e.1 (by simp) rfl
    have : absorb (some ⟨anon, pre, c⟩) (⟨db, t, anon, e.1, e.2⟩ : Row Col) = some ⟨anon, pre ++ [e], c⟩ := by
      simp [absorb, Dict.set_of_none _ _ _ hne]
    rw [this, absorb_rowsOf_aux db t anon cols (pre ++ [e]) c (by simpa using h)]
    simp

/-- Loading the rows of one table gives the table back, without its comment. -/
theorem absorb_rowsOf (db t : Name) (tm : TableMeta Col) (hn : (Dict.keys tm.columns).Nodup) (hc : tm.columns ≠ []) :
    (rowsOf db t tm).foldl absorb none = some { tm with comment := none } := by
  unfold rowsOf
  cases hcols : tm.columns with
  | nil => exact absurd hcols hc
  | cons e cols =>
    rw [List.map_cons, List.foldl_cons]
    have : absorb none (⟨db, t, tm.anonymous, e.1, e.2⟩ : Row Col) = some ⟨tm.anonymous, [e], none⟩ := by
      simp [absorb, Dict.set]
    rw [this, absorb_rowsOf_aux db t tm.anonymous cols [e] none (by rw [hcols] at hn; simpa using hn)]
    simp

end EulerDB.Delta
