import Verif.Delta.Lemmas

/-!
# Properties C16, C17, C20: the metadata in memory, in the database and after a restart
-/

namespace EulerDB.Delta

open EulerDB

variable {Col : Type}

/-- The mapping a table stands for: its backend table and the description of its columns (ciphers, backend columns, keys), in order. -/
def mapping (m : Meta Col) (db t : Name) : Option (Name × Dict Name Col) :=
  (find m db t).map fun tm => (tm.anonymous, tm.columns)

/-- The metadata of a table as `rewrite_table` builds it: a dict (no repeated key) with at least one column. -/
def WellFormed (tm : TableMeta Col) : Prop := (Dict.keys tm.columns).Nodup ∧ tm.columns ≠ []

/-- A freshly started proxy on stored rows. -/
def boot (rows : List (Row Col)) : State Col := ⟨load rows, none, rows⟩

/-- Every create of the history is of a table that does not exist at that time. -/
def Fresh (same : Name → Name → Bool) : State Col → List (Op Col) → Prop
  | _, [] => True
  | s, .create db t tm :: h => find s.meta db t = none ∧ WellFormed tm ∧ Fresh same (step same s (.create db t tm)) h
  | s, .drop db t :: h => Fresh same (step same s (.drop db t)) h

/-- Memory and stored rows agree: the rows of every table are those of its metadata in memory. -/
def Synced (s : State Col) : Prop := ∀ db t,
  match find s.meta db t with
  | none => rowsFor s.rows db t = []
  | some tm => rowsFor s.rows db t = rowsOf db t tm ∧ WellFormed tm

theorem synced_create {s : State Col} {db t : Name} {tm : TableMeta Col} (h : Synced s) (hf : find s.meta db t = none)
    (hw : WellFormed tm) : Synced (updateDelta s db t tm) := by
  intro db' t'
  rw [find_updateDelta, rows_updateDelta, rowsFor_append, rowsFor_rowsOf]
  have h0 := h db' t'
  by_cases hc : db' = db ∧ t' = t
  · obtain ⟨rfl, rfl⟩ := hc
    rw [hf] at h0
    simp only [and_self, if_true]
    simp only at h0
    rw [h0]
    exact ⟨by simp, hw⟩
  · rw [if_neg hc, if_neg hc, List.append_nil]
    exact h0

theorem synced_drop {s s' : State Col} {db t : Name} (h : Synced s) (hd : deleteDelta exact s db t = .ok s') : Synced s' := by
  intro db' t'
  rw [find_deleteDelta hd, rows_deleteDelta hd, rowsFor_delete_exact]
  by_cases hc : db' = db ∧ t' = t
  · rw [if_pos hc, if_pos hc]
  · rw [if_neg hc, if_neg hc]; exact h db' t'

theorem synced_step {s : State Col} {o : Op Col} (h : Synced s)
    (ho : ∀ db t tm, o = .create db t tm → find s.meta db t = none ∧ WellFormed tm) : Synced (step exact s o) := by
  cases o with
  | create db t tm =>
    obtain ⟨hf, hw⟩ := ho db t tm rfl
    exact synced_create h hf hw
  | drop db t =>
    simp only [step]
    cases hd : deleteDelta exact s db t with
    | error e => exact h
    | ok s' => exact synced_drop h hd

theorem synced_run : ∀ (h : List (Op Col)) (s : State Col), Synced s → Fresh exact s h → Synced (run exact s h)
  | [], _, hs, _ => hs
  | .create db t tm :: h, s, hs, hf => by
    have := synced_step (o := .create db t tm) hs (by
      intro a b c e
      injection e with e1 e2 e3
      subst e1; subst e2; subst e3
      exact ⟨hf.1, hf.2.1⟩)
    exact synced_run h _ this hf.2.2
  | .drop db t :: h, s, hs, hf => by
    have := synced_step (o := .drop db t) hs (by intro a b c e; cases e)
    exact synced_run h _ this hf

theorem synced_restart {s : State Col} (h : Synced s) (db t : Name) :
    mapping (restart s).meta db t = mapping s.meta db t := by
  unfold mapping
  have e : (restart s).meta = load s.rows := rfl
  rw [e, find_load]
  have h0 := h db t
  cases hf : find s.meta db t with
  | none => rw [hf] at h0; simp only at h0; rw [h0]; rfl
  | some tm =>
    rw [hf] at h0
    rw [h0.1, absorb_rowsOf db t tm h0.2.1 h0.2.2]
    rfl

/-- The proxy starts on an empty metadata database. -/
theorem synced_boot_nil : Synced (boot ([] : List (Row Col))) := fun _ _ => rfl

/-! ## C16 -/

/-- C16, the part that holds: if the metadata database starts empty and no table is created while a table of that name exists, then at every
point of every history a restart changes nothing, for any database and table. -/
theorem C16_restart_partial (h : List (Op Col)) (hf : Fresh exact (boot []) h) (db t : Name) :
    mapping (restart (run exact (boot []) h)).meta db t = mapping (run exact (boot []) h).meta db t :=
  synced_restart (synced_run h _ synced_boot_nil hf) db t

/-- C16 continues to hold across any number of restarts in between. -/
theorem C16_restart_again_partial (s : State Col) (hs : Synced s) (h : List (Op Col)) (hf : Fresh exact s h) (db t : Name) :
    mapping (restart (run exact s h)).meta db t = mapping (run exact s h).meta db t :=
  synced_restart (synced_run h _ hs hf) db t

/-- A restart of a synchronised proxy is synchronised again, so `C16_restart_again_partial` applies to what follows. -/
theorem C16_restart_synced_partial (s : State Col) (hs : Synced s) : Synced (restart s) := by
  intro db t
  have h0 := hs db t
  have e : (restart s).meta = load s.rows := rfl
  have er : (restart s).rows = s.rows := rfl
  rw [e, er, find_load]
  cases hf : find s.meta db t with
  | none =>
    rw [hf] at h0
    simp only at h0
    rw [h0]; rfl
  | some tm =>
    rw [hf] at h0
    rw [h0.1, absorb_rowsOf db t tm h0.2.1 h0.2.2]
    exact ⟨rfl, h0.2⟩

/-- **C16 fails** after a repeated CREATE TABLE of the same name (which the proxy accepts), whatever the two tables are as long as their backend
names differ: in memory the name stands for the second backend table, after a restart for the first. -/
theorem C16_fails_recreate (db t : Name) (tm₁ tm₂ : TableMeta Col) (h1 : WellFormed tm₁)
    (hne : tm₁.anonymous ≠ tm₂.anonymous) :
    let s := run exact (boot []) [.create db t tm₁, .create db t tm₂]
    (mapping s.meta db t).map Prod.fst = some tm₂.anonymous ∧
      (mapping (restart s).meta db t).map Prod.fst = some tm₁.anonymous ∧
      mapping (restart s).meta db t ≠ mapping s.meta db t := by
  intro s
  have hm : (mapping s.meta db t).map Prod.fst = some tm₂.anonymous := by
    have : find s.meta db t = some tm₂ := by
      show find (updateDelta (updateDelta (boot []) db t tm₁) db t tm₂).meta db t = _
      rw [find_updateDelta]; simp
    simp [mapping, this]
  have hr : (mapping (restart s).meta db t).map Prod.fst = some tm₁.anonymous := by
    have hrows : rowsFor s.rows db t = rowsOf db t tm₁ ++ rowsOf db t tm₂ := by
      show rowsFor (updateDelta (updateDelta (boot []) db t tm₁) db t tm₂).rows db t = _
      rw [rows_updateDelta, rows_updateDelta, rowsFor_append, rowsFor_append, rowsFor_rowsOf, rowsFor_rowsOf]
      simp [boot, rowsFor]
    have key : ∀ (rs : List (Row Col)) (o : TableMeta Col), ∃ o', rs.foldl absorb (some o) = some o' ∧ o'.anonymous = o.anonymous := by
      intro rs
      induction rs with
      | nil => exact fun o => ⟨o, rfl, rfl⟩
      | cons r rs ih =>
        intro o
        obtain ⟨o', he, ha⟩ := ih { o with columns := Dict.set o.columns r.colName r.col }
        exact ⟨o', he, ha⟩
    have : find (restart s).meta db t = (rowsOf db t tm₁ ++ rowsOf db t tm₂).foldl absorb none := by
      show find (load s.rows) db t = _
      rw [find_load, hrows]
    unfold mapping
    rw [this, List.foldl_append, absorb_rowsOf db t tm₁ h1.1 h1.2]
    obtain ⟨o', he, ha⟩ := key (rowsOf db t tm₂) { tm₁ with comment := none }
    rw [he]
    simp [ha]
  refine ⟨hm, hr, ?_⟩
  intro e
  rw [e, hm] at hr
  injection hr with hr
  exact hne hr.symm

/-- **C16 fails** for the table comment: it is not stored, so it is gone after a restart. -/
theorem C16_fails_comment (db t : Name) (tm : TableMeta Col) (hw : WellFormed tm) (hc : tm.comment ≠ none) :
    let s := run exact (boot []) [.create db t tm]
    find s.meta db t = some tm ∧ find (restart s).meta db t = some { tm with comment := none } ∧
      find (restart s).meta db t ≠ find s.meta db t := by
  intro s
  have h1 : find s.meta db t = some tm := by
    show find (updateDelta (boot []) db t tm).meta db t = _
    rw [find_updateDelta]; simp
  have h2 : find (restart s).meta db t = some { tm with comment := none } := by
    show find (load s.rows) db t = _
    rw [find_load]
    have : rowsFor s.rows db t = rowsOf db t tm := by
      show rowsFor (updateDelta (boot []) db t tm).rows db t = _
      rw [rows_updateDelta, rowsFor_append, rowsFor_rowsOf]
      simp [boot, rowsFor]
    rw [this, absorb_rowsOf db t tm hw.1 hw.2]
  refine ⟨h1, h2, ?_⟩
  rw [h1, h2]
  intro e
  injection e with e
  exact hc (by rw [← e])

/-- A history with two databases, a drop and a re-creation after the drop meets the hypotheses of `C16_restart_partial`. -/
example : Fresh (Col := Nat) exact (boot [])
    [.create "d" "t" ⟨"table_1", [("a", 1), ("b", 2)], none⟩, .create "e" "t" ⟨"table_2", [("a", 3)], none⟩,
     .drop "d" "t", .create "d" "t" ⟨"table_3", [("c", 4)], some "x"⟩] := by
  refine ⟨by decide, ⟨by decide, by decide⟩, by decide, ⟨by decide, by decide⟩, by decide, ⟨by decide, by decide⟩, trivial⟩

example : WellFormed (Col := Nat) ⟨"table_1", [("a", 1), ("b", 2)], some "c"⟩ := ⟨by decide, by decide⟩

/-! ## C17 -/

/-- C17: creating a table changes no other table, in memory and after a restart, in any state whatsoever; and the memory then holds what was built. -/
theorem C17_create (s : State Col) (db t : Name) (tm : TableMeta Col) :
    find (updateDelta s db t tm).meta db t = some tm ∧
    ∀ db' t', (db' ≠ db ∨ t' ≠ t) →
      find (updateDelta s db t tm).meta db' t' = find s.meta db' t' ∧
      find (restart (updateDelta s db t tm)).meta db' t' = find (restart s).meta db' t' := by
  refine ⟨by rw [find_updateDelta]; simp, ?_⟩
  intro db' t' hne
  have hc : ¬ (db' = db ∧ t' = t) := by
    rintro ⟨h1, h2⟩; rcases hne with h | h
    · exact h h1
    · exact h h2
  refine ⟨by rw [find_updateDelta, if_neg hc], ?_⟩
  show find (load (updateDelta s db t tm).rows) db' t' = find (load s.rows) db' t'
  rw [find_load, find_load, rows_updateDelta, rowsFor_append, rowsFor_rowsOf, if_neg hc, List.append_nil]

/-- C17: a created table is found after a restart with the mapping just built, provided no rows of an earlier table of that name are stored. -/
theorem C17_create_stored_partial (s : State Col) (db t : Name) (tm : TableMeta Col) (hw : WellFormed tm)
    (hold : find (restart s).meta db t = none) :
    mapping (restart (updateDelta s db t tm)).meta db t = some (tm.anonymous, tm.columns) := by
  have hrows : rowsFor s.rows db t = [] := by
    have : find (load s.rows) db t = none := hold
    rw [find_load] at this
    cases hr : rowsFor s.rows db t with
    | nil => rfl
    | cons r rs =>
      rw [hr, List.foldl_cons] at this
      exfalso
      have key : ∀ (rs : List (Row Col)) (o : TableMeta Col), rs.foldl absorb (some o) ≠ none := by
        intro rs
        induction rs with
        | nil => intro o h; cases h
        | cons r rs ih => intro o; exact ih _
      exact key rs _ this
  unfold mapping
  show Option.map _ (find (load (updateDelta s db t tm).rows) db t) = _
  rw [find_load, rows_updateDelta, rowsFor_append, rowsFor_rowsOf, hrows]
  simp only [and_self, if_true, List.nil_append]
  rw [absorb_rowsOf db t tm hw.1 hw.2]
  rfl

/-- C17: dropping a table removes it, in memory and after a restart, and (metadata database comparing names exactly) changes no other table. -/
theorem C17_drop (s s' : State Col) (db t : Name) (hd : deleteDelta exact s db t = .ok s') :
    find s'.meta db t = none ∧ find (restart s').meta db t = none ∧
    ∀ db' t', (db' ≠ db ∨ t' ≠ t) →
      find s'.meta db' t' = find s.meta db' t' ∧ find (restart s').meta db' t' = find (restart s).meta db' t' := by
  refine ⟨by rw [find_deleteDelta hd]; simp, ?_, ?_⟩
  · show find (load s'.rows) db t = none
    rw [find_load, rows_deleteDelta hd, rowsFor_delete_exact]
    simp
  · intro db' t' hne
    have hc : ¬ (db' = db ∧ t' = t) := by
      rintro ⟨h1, h2⟩; rcases hne with h | h
      · exact h h1
      · exact h h2
    refine ⟨by rw [find_deleteDelta hd, if_neg hc], ?_⟩
    show find (load s'.rows) db' t' = find (load s.rows) db' t'
    rw [find_load, find_load, rows_deleteDelta hd, rowsFor_delete_exact, if_neg hc]

/-- C17: a drop raises exactly when the database is unknown. -/
theorem C17_drop_raises (same : Name → Name → Bool) (s : State Col) (db t : Name) :
    (∃ e, deleteDelta same s db t = .error e) ↔ Dict.get? s.meta db = none := by
  unfold deleteDelta deleteMem
  cases Dict.get? s.meta db <;> simp

/-- **C17 fails** when the metadata database compares names without regard to case, as MySQL does by default: dropping `T` deletes the stored
rows of `t` as well, which is lost after a restart. -/
theorem C17_fails_collation (same : Name → Name → Bool) (hrefl : ∀ a, same a a = true) (db t t' : Name) (hne : t ≠ t')
    (hs : same t t' = true) (tm tm' : TableMeta Col) :
    let s := run same (boot []) [.create db t tm, .create db t' tm', .drop db t']
    find s.meta db t = some tm ∧ find (restart s).meta db t = none := by
  intro s
  obtain ⟨s', hs'⟩ : ∃ s', deleteDelta same (updateDelta (updateDelta (boot []) db t tm) db t' tm') db t' = .ok s' := by
    cases hd : deleteDelta same (updateDelta (updateDelta (boot []) db t tm) db t' tm') db t' with
    | ok s' => exact ⟨s', rfl⟩
    | error e =>
      exfalso
      have h1 := (C17_drop_raises same _ db t').1 ⟨e, hd⟩
      have h2 := find_updateDelta (updateDelta (boot []) db t tm) db t' tm' db t'
      simp only [and_self, if_true] at h2
      unfold find at h2
      rw [h1] at h2
      cases h2
  have es : s = s' := by
    show (match deleteDelta same (updateDelta (updateDelta (boot []) db t tm) db t' tm') db t' with
      | .error _ => _
      | .ok s' => s') = s'
    rw [hs']
  rw [es]
  constructor
  · rw [find_deleteDelta hs', if_neg (fun h => hne h.2), find_updateDelta, if_neg (fun h => hne h.2), find_updateDelta]
    simp
  · show find (load s'.rows) db t = none
    rw [find_load, rows_deleteDelta hs', rows_updateDelta, rows_updateDelta]
    have : rowsFor (List.filter (fun r => !(same r.db db && same r.table t'))
        ((boot ([] : List (Row Col))).rows ++ rowsOf db t tm ++ rowsOf db t' tm')) db t = [] := by
      unfold rowsFor
      rw [List.filter_filter, List.filter_eq_nil_iff]
      intro r hr
      simp only [boot, List.nil_append, List.mem_append] at hr
      simp only [Bool.and_eq_true, decide_eq_true_eq, Bool.not_eq_true', Bool.and_eq_false_iff, not_and]
      rintro ⟨rfl, rfl⟩
      rw [hrefl, hs]
      simp
    rw [this]
    rfl

example : deleteDelta (Col := Nat) exact (run exact (boot []) [.create "d" "t" ⟨"x", [("a", 1)], none⟩, .create "d" "u" ⟨"y", [("a", 2)], none⟩])
    "d" "t" = .ok ⟨[], some [("d", [("u", ⟨"y", [("a", 2)], none⟩)])], [⟨"d", "u", "y", "a", 2⟩]⟩ := by decide

/-! ## C20 -/

/-- **C20 fails**: when the proxy was started on an empty metadata database, the aggregate path finds no table, after any history. -/
theorem C20_fails_first_start (same : Name → Name → Bool) (h : List (Op Col)) (db t : Name) :
    aggregateFind (run same (boot []) h) db t = none := by
  suffices H : ∀ (h : List (Op Col)) (s : State Col), s.cls = [] → ((s.inst = none) ∨ (∃ m, s.inst = some m ∧ m ≠ [])) →
      (run same s h).cls = [] by
    unfold aggregateFind
    rw [H h (boot []) rfl (Or.inl rfl)]
    rfl
  intro h
  induction h with
  | nil => exact fun s hs _ => hs
  | cons o h ih =>
    intro s hs hi
    show (run same (step same s o) h).cls = []
    have key : (step same s o).cls = [] ∧ (((step same s o).inst = none) ∨ (∃ m, (step same s o).inst = some m ∧ m ≠ [])) := by
      cases o with
      | create db t tm =>
        unfold step updateDelta updateRows updateMem State.mutate State.meta
        rcases hi with hi | ⟨m, hi, hm⟩
        · simp [hi, hs]
        · simp only [hi, Option.getD_some, ne_eq, hm, not_false_eq_true, if_true]
          refine ⟨hs, Or.inr ⟨_, rfl, ?_⟩⟩
          have : ∀ (v : DbMeta Col), Dict.set m db v ≠ [] := by
            intro v e
            have := Dict.get?_set_self m db v
            rw [e] at this; cases this
          cases Dict.get? m db
          · exact this _
          · exact this _
      | drop db t =>
        simp only [step, deleteDelta, deleteMem]
        cases hg : Dict.get? s.meta db with
        | none => exact ⟨hs, hi⟩
        | some d =>
          unfold State.meta at hg
          unfold deleteRows State.mutate
          rcases hi with hi | ⟨m, hi, hm⟩
          · rw [hi, hs] at hg; cases hg
          · simp only [hi]
            refine ⟨hs, Or.inr ⟨_, rfl, ?_⟩⟩
            intro e
            have := Dict.get?_set_self m db (Dict.erase d t)
            rw [e] at this; cases this
    exact ih _ key.1 key.2

/-- C20, the part that holds: started on stored metadata of at least one table, the aggregate path sees what the rest of the proxy sees, after any
history. -/
theorem C20_later_start_partial (same : Name → Name → Bool) (rows : List (Row Col)) (hr : rows ≠ []) (h : List (Op Col)) (db t : Name) :
    aggregateFind (run same (boot rows) h) db t = find (run same (boot rows) h).meta db t := by
  suffices H : ∀ (h : List (Op Col)) (s : State Col), s.cls ≠ [] → s.inst = none → (run same s h).inst = none by
    unfold aggregateFind State.meta
    rw [H h (boot rows) ?_ rfl]
    · rfl
    · show load rows ≠ []
      unfold load
      have hset : ∀ (m : Meta Col) (k : Name) (v : DbMeta Col), Dict.set m k v ≠ [] := by
        intro m k v e
        have := Dict.get?_set_self m k v
        rw [e] at this; cases this
      rcases List.eq_nil_or_concat rows with e | ⟨init, r, e⟩
      · exact absurd e hr
      · rw [e, List.concat_eq_append, List.foldl_append]
        exact hset _ _ _
  have hset : ∀ (m : Meta Col) (k : Name) (v : DbMeta Col), Dict.set m k v ≠ [] := by
    intro m k v e
    have := Dict.get?_set_self m k v
    rw [e] at this; cases this
  intro h
  induction h with
  | nil => exact fun s _ hi => hi
  | cons o h ih =>
    intro s hs hi
    have key : (step same s o).cls ≠ [] ∧ (step same s o).inst = none := by
      cases o with
      | create db t tm =>
        unfold step updateDelta updateRows updateMem State.mutate State.meta
        simp only [hi, Option.getD_none, ne_eq, hs, not_false_eq_true, if_true]
        refine ⟨?_, trivial⟩
        cases Dict.get? s.cls db
        · exact hset _ _ _
        · exact hset _ _ _
      | drop db t =>
        simp only [step, deleteDelta, deleteMem]
        cases hg : Dict.get? s.meta db with
        | none => exact ⟨hs, hi⟩
        | some d =>
          unfold deleteRows State.mutate
          simp only [hi]
          exact ⟨hset _ _ _, trivial⟩
    exact ih _ key.1 key.2

/-- The failure is about tables that do exist. -/
example : ∃ h : List (Op Nat), find (run exact (boot []) h).meta "d" "t" ≠ none ∧ aggregateFind (run exact (boot []) h) "d" "t" = none :=
  ⟨[.create "d" "t" ⟨"table_1", [("a", 1)], none⟩], by decide, by decide⟩

example : find (run exact (boot [⟨"d", "u", "y", "a", 2⟩]) [.create "d" "t" ⟨"table_1", [("a", 1)], none⟩]).meta "d" "t" ≠ none := by decide

end EulerDB.Delta
