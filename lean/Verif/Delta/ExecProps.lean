import Verif.Delta.Exec
import Verif.Delta.Props

/-!
# Properties C18 and C19: metadata and backend
-/

namespace EulerDB.Delta

open EulerDB

variable {Col : Type}

/-! ## C18 -/

theorem deleteDelta_ok {same : Name → Name → Bool} {s : State Col} {db t : Name} {tm : TableMeta Col}
    (h : find s.meta db t = some tm) : ∃ s', deleteDelta same s db t = .ok s' := by
  cases hd : deleteDelta same s db t with
  | ok s' => exact ⟨s', rfl⟩
  | error e =>
    have := (C17_drop_raises same s db t).1 ⟨e, hd⟩
    unfold find at h
    rw [this] at h
    cases h

/-- **C18 fails.** A DROP TABLE the backend refuses removes the metadata of the table, which still exists, in memory and in the
database, and reports success.  For every world and every known table. -/
theorem C18_fails_drop (w : World Col) (db t : Name) (tm : TableMeta Col) (h : find w.st.meta db t = some tm)
    (hb : (db, tm.anonymous) ∈ w.backend) :
    let r := call exact false w (.drop db t)
    find r.1.st.meta db t = none ∧ find (restart r.1.st).meta db t = none ∧
      (db, tm.anonymous) ∈ r.1.backend ∧ r.2 = .ok () := by
  intro r
  obtain ⟨s', hs'⟩ := deleteDelta_ok (same := exact) h
  have er : r = (⟨s', w.backend⟩, .ok ()) := by
    show call exact false w (.drop db t) = _
    simp only [call, h, hs', Bool.false_and, Bool.false_eq_true, if_false]
  rw [er]
  have := C17_drop w.st s' db t hs'
  exact ⟨this.1, this.2.1, hb, rfl⟩

/-- **C18 fails.** A repeated CREATE TABLE the backend refuses removes the metadata of the table created first, which still exists, and
reports success. -/
theorem C18_fails_recreate (w : World Col) (db t : Name) (tm tm' : TableMeta Col) (_h : find w.st.meta db t = some tm)
    (hb : (db, tm.anonymous) ∈ w.backend) :
    let r := call exact false w (.create db t tm')
    find r.1.st.meta db t = none ∧ find (restart r.1.st).meta db t = none ∧
      (db, tm.anonymous) ∈ r.1.backend ∧ r.2 = .ok () := by
  intro r
  have hf : find (updateDelta w.st db t tm').meta db t = some tm' := by rw [find_updateDelta]; simp
  obtain ⟨s', hs'⟩ := deleteDelta_ok (same := exact) hf
  have er : r = (⟨s', w.backend⟩, .ok ()) := by
    show call exact false w (.create db t tm') = _
    simp only [call, hs', Bool.false_eq_true, if_false]
  rw [er]
  have := C17_drop _ s' db t hs'
  exact ⟨this.1, this.2.1, hb, rfl⟩

/-- **C18 fails.** The caller of an INSERT, UPDATE, DELETE or ALTER that the backend refuses is told that it succeeded. -/
theorem C18_fails_silent (same : Name → Name → Bool) (w : World Col) (db t : Name) (tm : TableMeta Col)
    (h : find w.st.meta db t = some tm) : (call same false w (.other db t)).2 = .ok () := by
  simp only [call, h]

/-- C18, the part that holds: a refused statement never touches the metadata of any table but its own; refused SELECT, INSERT, UPDATE, DELETE and ALTER
touch none; a refused SELECT is reported; a statement on an unknown table is reported and changes nothing. -/
theorem C18_refused_partial (w : World Col) (q : Stmt Col) :
    let r := call exact false w q
    r.1.backend = w.backend ∧
    (∀ db' t', (∀ tm, q ≠ .create db' t' tm) → q ≠ .drop db' t' →
      find r.1.st.meta db' t' = find w.st.meta db' t' ∧ find (restart r.1.st).meta db' t' = find (restart w.st).meta db' t') ∧
    (∀ db t, q = .select db t → ∃ e, r.2 = .error e) ∧
    (∀ db t, q = .drop db t ∨ q = .other db t → find w.st.meta db t = none → r.1 = w ∧ r.2 = .error .keyError) := by
  intro r
  cases q with
  | create db t tm =>
    have hf : find (updateDelta w.st db t tm).meta db t = some tm := by rw [find_updateDelta]; simp
    obtain ⟨s', hs'⟩ := deleteDelta_ok (same := exact) hf
    have er : r = (⟨s', w.backend⟩, .ok ()) := by
      show call exact false w (.create db t tm) = _
      simp only [call, hs', Bool.false_eq_true, if_false]
    rw [er]
    refine ⟨rfl, ?_, (by intro a b e; cases e), by rintro a b (e | e) <;> cases e⟩
    intro db' t' h1 _
    have hne : db' ≠ db ∨ t' ≠ t := by
      by_contra hc
      push Not at hc
      exact h1 tm (by rw [hc.1, hc.2])
    have a := (C17_create w.st db t tm).2 db' t' hne
    have b := (C17_drop _ s' db t hs').2.2 db' t' hne
    exact ⟨b.1.trans a.1, b.2.trans a.2⟩
  | drop db t =>
    cases hf : find w.st.meta db t with
    | none =>
      have er : r = (w, .error .keyError) := by
        show call exact false w (.drop db t) = _
        simp only [call, hf]
      rw [er]
      refine ⟨rfl, fun _ _ _ _ => ⟨rfl, rfl⟩, (by intro a b e; cases e), fun _ _ _ _ => ⟨rfl, rfl⟩⟩
    | some tm =>
      obtain ⟨s', hs'⟩ := deleteDelta_ok (same := exact) hf
      have er : r = (⟨s', w.backend⟩, .ok ()) := by
        show call exact false w (.drop db t) = _
        simp only [call, hf, hs', Bool.false_and, Bool.false_eq_true, if_false]
      rw [er]
      refine ⟨rfl, ?_, (by intro a b e; cases e), ?_⟩
      · intro db' t' _ h2
        have hne : db' ≠ db ∨ t' ≠ t := by
          by_contra hc
          push Not at hc
          exact h2 (by rw [hc.1, hc.2])
        exact (C17_drop _ s' db t hs').2.2 db' t' hne
      · rintro a b (e | e) hn
        · injection e with e1 e2
          subst e1; subst e2
          rw [hf] at hn; cases hn
        · cases e
  | select db t =>
    cases hf : find w.st.meta db t with
    | none =>
      have er : r = (w, .error .keyError) := by
        show call exact false w (.select db t) = _
        simp only [call, hf]
      rw [er]
      exact ⟨rfl, fun _ _ _ _ => ⟨rfl, rfl⟩, fun _ _ _ => ⟨_, rfl⟩, fun _ _ _ _ => ⟨rfl, rfl⟩⟩
    | some tm =>
      have er : r = (w, .error .dbError) := by
        show call exact false w (.select db t) = _
        simp only [call, hf, Bool.false_eq_true, if_false]
      rw [er]
      exact ⟨rfl, fun _ _ _ _ => ⟨rfl, rfl⟩, fun _ _ _ => ⟨_, rfl⟩, by rintro a b (e | e) <;> cases e⟩
  | other db t =>
    cases hf : find w.st.meta db t with
    | none =>
      have er : r = (w, .error .keyError) := by
        show call exact false w (.other db t) = _
        simp only [call, hf]
      rw [er]
      exact ⟨rfl, fun _ _ _ _ => ⟨rfl, rfl⟩, (by intro a b e; cases e), fun _ _ _ _ => ⟨rfl, rfl⟩⟩
    | some tm =>
      have er : r = (w, .ok ()) := by
        show call exact false w (.other db t) = _
        simp only [call, hf]
      rw [er]
      refine ⟨rfl, fun _ _ _ _ => ⟨rfl, rfl⟩, (by intro a b e; cases e), ?_⟩
      rintro a b (e | e) hn
      · cases e
      · injection e with e1 e2
        subst e1; subst e2
        rw [hf] at hn; cases hn

/-- A world as in the hypotheses of the failures: reached by one accepted CREATE. -/
example : ∃ (w : World Nat) (tm : TableMeta Nat), w = history exact emptyWorld [.stmt true (.create "d" "t" tm)] ∧
    find w.st.meta "d" "t" = some tm ∧ ("d", tm.anonymous) ∈ w.backend :=
  ⟨_, ⟨"table_1", [("a", 1)], none⟩, rfl, by decide, by decide⟩

/-! ## C19 -/

/-- Every table in a metadata dict exists in the backend. -/
def Pointed (m : Meta Col) (backend : List (Name × Name)) : Prop :=
  ∀ db t tm, find m db t = some tm → (db, tm.anonymous) ∈ backend

/-- The backend names drawn by the CREATE statements of a history. -/
def drawn : List (Event Col) → List Name
  | [] => []
  | .stmt _ (.create _ _ tm) :: h => tm.anonymous :: drawn h
  | _ :: h => drawn h

/-- `(db, t, anon)` is claimed by the memory or by the stored rows. -/
def Claim (s : State Col) (db t anon : Name) : Prop :=
  (∃ tm, find s.meta db t = some tm ∧ tm.anonymous = anon) ∨ ∃ r ∈ s.rows, r.db = db ∧ r.table = t ∧ r.anonymous = anon

/-- The invariant: claims point to existing tables, no two tables claim the same backend table, claimed names were drawn. -/
structure Inv (used : List Name) (w : World Col) : Prop where
  exist : ∀ db t a, Claim w.st db t a → (db, a) ∈ w.backend
  inj : ∀ db t t' a, Claim w.st db t a → Claim w.st db t' a → t = t'
  old : ∀ db t a, Claim w.st db t a → a ∈ used

theorem absorb_anon : ∀ (rs : List (Row Col)) (o : Option (TableMeta Col)) (tm : TableMeta Col), rs.foldl absorb o = some tm →
    (∃ tm', o = some tm' ∧ tm'.anonymous = tm.anonymous) ∨ ∃ r ∈ rs, r.anonymous = tm.anonymous
  | [], o, tm, h => Or.inl ⟨tm, h, rfl⟩
  | r :: rs, o, tm, h => by
    rw [List.foldl_cons] at h
    rcases absorb_anon rs _ tm h with ⟨tm', h1, h2⟩ | ⟨r', h1, h2⟩
    · unfold absorb at h1
      injection h1 with h1
      cases o with
      | none => right; exact ⟨r, by simp, by rw [← h2, ← h1]; rfl⟩
      | some o => left; exact ⟨o, rfl, by rw [← h2, ← h1]; rfl⟩
    · exact Or.inr ⟨r', List.mem_cons_of_mem _ h1, h2⟩

theorem find_load_anon {rows : List (Row Col)} {db t : Name} {tm : TableMeta Col} (h : find (load rows) db t = some tm) :
    ∃ r ∈ rows, r.db = db ∧ r.table = t ∧ r.anonymous = tm.anonymous := by
  rw [find_load] at h
  rcases absorb_anon _ _ _ h with ⟨tm', h1, _⟩ | ⟨r, hr, ha⟩
  · cases h1
  · unfold rowsFor at hr
    rw [List.mem_filter] at hr
    have := hr.2
    simp only [decide_eq_true_eq] at this
    exact ⟨r, hr.1, this.1, this.2, ha⟩

theorem claim_restart {s : State Col} {db t a : Name} (h : Claim (restart s) db t a) : Claim s db t a := by
  rcases h with ⟨tm, h1, h2⟩ | h
  · obtain ⟨r, hr, h3, h4, h5⟩ := find_load_anon (rows := s.rows) h1
    exact Or.inr ⟨r, hr, h3, h4, h5.trans h2⟩
  · exact Or.inr h

theorem claim_update {s : State Col} {db t : Name} {tm : TableMeta Col} {db' t' a : Name}
    (h : Claim (updateDelta s db t tm) db' t' a) : (db' = db ∧ t' = t ∧ a = tm.anonymous) ∨ Claim s db' t' a := by
  rcases h with ⟨tm', h1, h2⟩ | ⟨r, hr, h1, h2, h3⟩
  · rw [find_updateDelta] at h1
    split at h1
    · rename_i hc
      injection h1 with h1
      exact Or.inl ⟨hc.1, hc.2, by rw [← h2, h1]⟩
    · exact Or.inr (Or.inl ⟨tm', h1, h2⟩)
  · rw [rows_updateDelta, List.mem_append] at hr
    rcases hr with hr | hr
    · exact Or.inr (Or.inr ⟨r, hr, h1, h2, h3⟩)
    · unfold rowsOf at hr
      obtain ⟨e, _, rfl⟩ := List.mem_map.1 hr
      exact Or.inl ⟨h1.symm, h2.symm, h3.symm⟩

theorem claim_delete {same : Name → Name → Bool} (hrefl : ∀ a, same a a = true) {s s' : State Col} {db t : Name}
    (hd : deleteDelta same s db t = .ok s') {db' t' a : Name}
    (h : Claim s' db' t' a) : ¬ (db' = db ∧ t' = t) ∧ Claim s db' t' a := by
  rcases h with ⟨tm', h1, h2⟩ | ⟨r, hr, h1, h2, h3⟩
  · rw [find_deleteDelta hd] at h1
    split at h1
    · cases h1
    · rename_i hc
      exact ⟨hc, Or.inl ⟨tm', h1, h2⟩⟩
  · rw [rows_deleteDelta hd, List.mem_filter] at hr
    refine ⟨?_, Or.inr ⟨r, hr.1, h1, h2, h3⟩⟩
    rintro ⟨rfl, rfl⟩
    have := hr.2
    rw [h1, h2, hrefl, hrefl] at this
    cases this

theorem inv_event {same : Name → Name → Bool} (hrefl : ∀ a, same a a = true) {used : List Name} {w : World Col} (hw : Inv used w)
    (e : Event Col) (hf : ∀ a ∈ drawn [e], a ∉ used) : Inv (drawn [e] ++ used) (event same w e) := by
  have keep : ∀ {w' : World Col}, (∀ db t a, Claim w'.st db t a → Claim w.st db t a) → w'.backend = w.backend →
      Inv (drawn [e] ++ used) w' := by
    intro w' hc hb
    refine ⟨fun db t a h => ?_, fun db t t' a h h' => ?_, fun db t a h => ?_⟩
    · rw [hb]; exact hw.exist db t a (hc _ _ _ h)
    · exact hw.inj db t t' a (hc _ _ _ h) (hc _ _ _ h')
    · exact List.mem_append_right _ (hw.old db t a (hc _ _ _ h))
  cases e with
  | reboot => exact keep (fun db t a h => claim_restart h) rfl
  | stmt ok q =>
    cases q with
    | create db t tm =>
      have hfr : tm.anonymous ∉ used := hf _ (by simp [drawn])
      show Inv _ (call same ok w (.create db t tm)).1
      unfold call
      simp only
      cases ok with
      | true =>
        simp only [if_true]
        refine ⟨fun db' t' a h => ?_, fun db' t₁ t₂ a h₁ h₂ => ?_, fun db' t' a h => ?_⟩
        · rcases claim_update h with ⟨rfl, rfl, rfl⟩ | h
          · simp
          · exact List.mem_cons_of_mem _ (hw.exist _ _ _ h)
        · rcases claim_update h₁ with ⟨rfl, rfl, rfl⟩ | h₁'
          · rcases claim_update h₂ with ⟨_, rfl, _⟩ | h₂
            · rfl
            · exact absurd (hw.old _ _ _ h₂) hfr
          · rcases claim_update h₂ with ⟨rfl, rfl, rfl⟩ | h₂
            · exact absurd (hw.old _ _ _ h₁') hfr
            · exact hw.inj _ _ _ _ h₁' h₂
        · rcases claim_update h with ⟨rfl, rfl, rfl⟩ | h
          · simp [drawn]
          · exact List.mem_append_right _ (hw.old _ _ _ h)
      | false =>
        simp only [Bool.false_eq_true, if_false]
        have hfd : find (updateDelta w.st db t tm).meta db t = some tm := by rw [find_updateDelta]; simp
        obtain ⟨s', hs'⟩ := deleteDelta_ok (same := same) hfd
        rw [hs']
        refine keep (fun db' t' a h => ?_) rfl
        obtain ⟨hne, h⟩ := claim_delete hrefl hs' h
        rcases claim_update h with ⟨rfl, rfl, rfl⟩ | h
        · exact absurd ⟨rfl, rfl⟩ hne
        · exact h
    | drop db t =>
      show Inv _ (call same ok w (.drop db t)).1
      unfold call
      simp only
      cases hfd : find w.st.meta db t with
      | none => exact keep (fun _ _ _ h => h) rfl
      | some tm =>
        obtain ⟨s', hs'⟩ := deleteDelta_ok (same := same) hfd
        simp only
        rw [hs']
        simp only
        split
        · refine ⟨fun db' t' a h => ?_, fun db' t₁ t₂ a h₁ h₂ => ?_, fun db' t' a h => ?_⟩
          · obtain ⟨hne, h'⟩ := claim_delete hrefl hs' h
            rw [List.mem_filter]
            refine ⟨hw.exist _ _ _ h', ?_⟩
            simp only [decide_eq_true_eq]
            intro e
            injection e with e1 e2
            subst e1; subst e2
            exact hne ⟨rfl, hw.inj _ _ _ _ h' (Or.inl ⟨tm, hfd, rfl⟩)⟩
          · exact hw.inj _ _ _ _ (claim_delete hrefl hs' h₁).2 (claim_delete hrefl hs' h₂).2
          · exact List.mem_append_right _ (hw.old _ _ _ (claim_delete hrefl hs' h).2)
        · exact keep (fun db' t' a h => (claim_delete hrefl hs' h).2) rfl
    | select db t =>
      show Inv _ (call same ok w (.select db t)).1
      unfold call
      simp only
      cases find w.st.meta db t with
      | none => exact keep (fun _ _ _ h => h) rfl
      | some tm => cases ok <;> exact keep (fun _ _ _ h => h) rfl
    | other db t =>
      show Inv _ (call same ok w (.other db t)).1
      unfold call
      simp only
      cases find w.st.meta db t with
      | none => exact keep (fun _ _ _ h => h) rfl
      | some tm => exact keep (fun _ _ _ h => h) rfl

theorem drawn_cons (e : Event Col) (h : List (Event Col)) : drawn (e :: h) = drawn [e] ++ drawn h := by
  cases e with
  | reboot => rfl
  | stmt ok q => cases q <;> rfl

theorem inv_history {same : Name → Name → Bool} (hrefl : ∀ a, same a a = true) : ∀ (h : List (Event Col)) (used : List Name) (w : World Col),
    Inv used w → (drawn h).Nodup → (∀ a ∈ drawn h, a ∉ used) → ∃ used', Inv used' (history same w h)
  | [], used, _, hw, _, _ => ⟨used, hw⟩
  | e :: h, used, w, hw, hn, hd => by
    rw [drawn_cons] at hn hd
    rw [List.nodup_append] at hn
    have h1 := inv_event hrefl hw e (fun a ha => hd a (List.mem_append_left _ ha))
    refine inv_history hrefl h _ _ h1 hn.2.1 ?_
    intro a ha hm
    rcases List.mem_append.1 hm with hm | hm
    · exact hn.2.2 a hm a ha rfl
    · exact hd a (List.mem_append_right _ ha) hm

/-- C19, the part that holds: if the backend names drawn are distinct, then after every history of complete statements, each accepted or refused by the
backend, and of reboots between statements, every table in the metadata exists in the backend, both in memory and as it would be loaded after a restart. -/
theorem C19_between_statements_partial (same : Name → Name → Bool) (hrefl : ∀ a, same a a = true) (h : List (Event Col))
    (hn : (drawn h).Nodup) :
    Pointed (history same emptyWorld h).st.meta (history same emptyWorld h).backend ∧
      Pointed (restart (history same emptyWorld h).st).meta (history same emptyWorld h).backend := by
  have h0 : Inv (Col := Col) [] emptyWorld := by
    refine ⟨fun db t a hc => ?_, fun db t t' a hc => ?_, fun db t a hc => ?_⟩ <;>
    · rcases hc with ⟨tm, h1, _⟩ | ⟨r, hr, _⟩
      · cases h1
      · cases hr
  obtain ⟨used, hi⟩ := inv_history hrefl h [] _ h0 hn (by simp)
  refine ⟨fun db t tm hf => hi.exist _ _ _ (Or.inl ⟨tm, hf, rfl⟩), fun db t tm hf => ?_⟩
  exact hi.exist _ _ _ (claim_restart (Or.inl ⟨tm, hf, rfl⟩))

/-- **C19 fails** when the proxy dies while it executes a CREATE: the table is in the metadata after the restart and does not exist in the backend.
In every world in which neither the table nor the backend name existed. -/
theorem C19_fails_crash_create (w : World Col) (db t : Name) (tm : TableMeta Col) (hw : WellFormed tm)
    (hnew : find (restart w.st).meta db t = none) (hb : (db, tm.anonymous) ∉ w.backend) :
    mapping (crashInCreate w db t tm).st.meta db t = some (tm.anonymous, tm.columns) ∧
      ¬ Pointed (crashInCreate w db t tm).st.meta (crashInCreate w db t tm).backend := by
  have h1 := C17_create_stored_partial w.st db t tm hw hnew
  refine ⟨h1, fun hp => ?_⟩
  change mapping (crashInCreate w db t tm).st.meta db t = _ at h1
  unfold mapping at h1
  cases hf : find (crashInCreate w db t tm).st.meta db t with
  | none => rw [hf] at h1; cases h1
  | some tm' =>
    rw [hf] at h1
    simp only [Option.map_some, Option.some.injEq, Prod.mk.injEq] at h1
    have := hp db t tm' hf
    rw [h1.1] at this
    exact hb this

/-- **C19 fails** when the proxy dies while it executes a DROP. -/
theorem C19_fails_crash_drop (w : World Col) (db t : Name) (tm : TableMeta Col) (h : find (restart w.st).meta db t = some tm) :
    find (crashInDrop w db tm).st.meta db t = some tm ∧ ¬ Pointed (crashInDrop w db tm).st.meta (crashInDrop w db tm).backend := by
  refine ⟨h, fun hp => ?_⟩
  have := hp db t tm h
  unfold crashInDrop reboot at this
  simp [List.mem_filter] at this

example : ∃ h : List (Event Nat), (drawn h).Nodup ∧ 2 ≤ (drawn h).length ∧
    find (history exact emptyWorld h).st.meta "d" "t" ≠ none ∧ find (restart (history exact emptyWorld h).st).meta "d" "t" ≠ none :=
  ⟨[.stmt true (.create "d" "t" ⟨"x", [("a", 1)], none⟩), .stmt false (.create "d" "u" ⟨"y", [("a", 1)], none⟩), .reboot,
    .stmt true (.drop "d" "u"), .stmt true (.create "d" "v" ⟨"z", [("b", 1)], none⟩)], by decide, by decide, by decide, by decide⟩

example : WellFormed (Col := Nat) ⟨"x", [("a", 1)], none⟩ ∧ find (restart (emptyWorld (Col := Nat)).st).meta "d" "t" = none ∧
    ("d", "x") ∉ (emptyWorld (Col := Nat)).backend := ⟨⟨by decide, by decide⟩, by decide, by decide⟩

end EulerDB.Delta
