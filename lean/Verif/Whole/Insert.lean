/-
INSERT: the row as it is rewritten, written and read.
-/
import Verif.Whole.Assign

namespace EulerDB.Whole

open EulerDB EulerDB.Clause EulerDB.Delta

/-- The literal of a stored value. -/
def litRhs : DbVal → Rhs
  | .int z => .int z
  | .text s => .lit s
  | _ => .int 0

theorem valueText_rhs {L : Statement.Leaves} {v : Json} {x : DbVal} (h : dbLit v = some x) :
    Statement.valueText L v = String.ofList (litRhs x).text ∧ (litRhs x).val = x := by
  unfold dbLit at h
  split at h
  · injection h with h
    subst h
    exact ⟨rfl, rfl⟩
  · injection h with h
    subst h
    simp [Statement.valueText, litRhs, Rhs.text, Rhs.val, Format.quoted, Statement.doubleQuotes_eq]
  · cases h

theorem storeRow_texts {L : Statement.Leaves} : ∀ {ns vs : List Json} {stored : Dict String DbVal}, storeRow ns vs = some stored →
    vs.map (Statement.valueText L) = (stored.map fun e => litRhs e.2).map (fun r => String.ofList r.text) ∧ (stored.map fun e => litRhs e.2).map Rhs.val = stored.map Prod.snd
  | [], [], stored, h => by
    simp only [storeRow, Option.some.injEq] at h
    subst h
    simp
  | .str n :: ns, v :: vs, stored, h => by
    rw [storeRow] at h
    cases hv : dbLit v with
    | none => simp [hv] at h
    | some x =>
      cases hr : storeRow ns vs with
      | none => simp [hv, hr] at h
      | some r =>
        simp only [hv, hr, Option.some.injEq] at h
        subst h
        obtain ⟨h1, h2⟩ := storeRow_texts (L := L) hr
        obtain ⟨h3, h4⟩ := valueText_rhs (L := L) hv
        simp only [List.map_cons, h1, h2, h3, h4, and_self]
  | .null :: _, _ :: _, _, h => by simp [storeRow] at h
  | .int _ :: _, _ :: _, _, h => by simp [storeRow] at h
  | .float _ :: _, _ :: _, _, h => by simp [storeRow] at h
  | .list _ :: _, _ :: _, _, h => by simp [storeRow] at h
  | .dict _ :: _, _ :: _, _, h => by simp [storeRow] at h
  | [], _ :: _, _, h => by simp [storeRow] at h
  | _ :: _, [], _, h => by simp [storeRow] at h

/-- The value may be inserted. -/
def Insertable (cm : ColMeta) (v : Val) : Prop := Suits cm v ∧ Accepts cm v ∧ ∀ s, v = .text s → cm.plaintext = true → Format.kept s.toList = true

theorem targets_eq (cols : Dict String ColMeta) (row : List (String × Val)) :
    (row.map Prod.fst).flatMap (Table.backendNames cols) = row.flatMap fun e => targets cols e.1 := by
  rw [List.flatMap_map]
  rfl

/-- The INSERT is accepted, written, and read as the row that holds the values. -/
theorem insert_sent {P : Proxy} {res : List Char → Bool} {t : String} {tm : TableMeta ColMeta} (ht : Dict.get? P.db t = some tm) (hn : Named P.w res tm)
    (hh : ∀ k z, '\\' ∉ (P.c.hom k z).toList)
    (hk : ∀ n cm, Dict.get? tm.columns n = some cm → cm.plaintext = false → ∀ e ∈ Dict.keys cm.encCols, e ∈ knownCiphers)
    {row : List (String × Val)} (hne : row.flatMap (fun e => targets tm.columns e.1) ≠ [])
    (hnames : (row.flatMap fun e => targets tm.columns e.1).Nodup)
    (hrow : ∀ e ∈ row, ∃ cm, Dict.get? tm.columns e.1 = some cm ∧ Insertable cm e.2) {n : Nat} (hd : P.depth = n + 2) :
    ∃ ins s stored text, rewriteQuery P.c P.db P.fuel (insertJson t row) = .ok (ins, .str t, s) ∧ P.text ins = .ok text ∧
      readStmt res text = some (.insert tm.anonymous (stored.map Prod.fst) (stored.map Prod.snd)) ∧
      stored.map Prod.fst = row.flatMap (fun e => targets tm.columns e.1) ∧ Holds P.c tm.columns (fun n => Dict.get? row n) stored := by
  obtain ⟨ins, s, stored, hr, _, hs⟩ := C25_insert_accepted_partial P.c P.db P.fuel t tm row ht (fun e he => by
    obtain ⟨cm, h1, h2, h3, _⟩ := hrow e he
    exact ⟨cm, h1, h2, h3⟩)
  have hholds := C26_inserted_row_holds_partial P.c P.db P.fuel t tm row ins _ s stored ht hk (by rw [targets_eq]; exact hnames) (fun e he => by
    obtain ⟨cm, h1, h2, h3, _⟩ := hrow e he
    exact ⟨cm, h1, h2⟩) hr hs
  obtain ⟨tm', bcols, bvals, h1, h2, h3, h4, h5, h6⟩ := insert_spec (insertJson_isInsert t row) hr
  rw [ht] at h1
  injection h1 with h1
  subst h1
  have hspec := (rewriteQuery_spec hr).2
  have hnone : ∀ k, k ≠ "insert" → k ≠ "columns" → k ≠ "query" → Dict.get? ins k = none := by
    intro k a b d
    have hj : Dict.get? (insertJson t row) k = none := by simp [insertJson, Dict.get?_cons, Ne.symm a, Ne.symm b, Ne.symm d]
    by_cases hk : k ∈ clauseKeys
    · exact ((hspec k).2 hk).1 hj
    · rw [(hspec k).1 hk, hj]
  have hkeys : Statement.InsertKeys ins tm.anonymous := by
    refine ⟨h4, fun k hk => ?_⟩
    refine hnone k ?_ ?_ ?_ <;> (rintro rfl; exact absurd hk (by decide))
  have hst : storeRow bcols bvals = some stored := by
    unfold runInsert at hs
    rw [h5, h6] at hs
    exact hs
  have hkept : Statement.TextsKept stored := by
    refine Statement.storeRow_kept hst (Statement.valuesLoop_kept hh ?_ h3)
    intro e he cm hcm hpl x hx
    rw [List.zip_map'] at he
    obtain ⟨r, hr, rfl⟩ := List.mem_map.1 he
    obtain ⟨m, v⟩ := r
    cases v with
    | int z => simp [Val.json, dbLit] at hx
    | text y =>
      simp only [Val.json, Json.lit, dbLit, Option.some.injEq, DbVal.text.injEq] at hx
      subst hx
      obtain ⟨cm', g1, _, _, g4⟩ := hrow _ hr
      rw [getItem_ok.1 hcm] at g1
      injection g1 with g1
      subst g1
      exact g4 y rfl hpl
  obtain ⟨g1, g2, g3⟩ := Statement.storeRow_lits hst
  have hb : stored.map Prod.fst = row.flatMap (fun e => targets tm.columns e.1) := by
    have := columnsLoop_spec tm.columns _ (row.map fun e => e.2.json) _ (by simp) h2
    rw [rowSlots_names, targets_eq, g2] at this
    have h := congrArg (List.map fun j => match j with | Json.str s => s | _ => "") this
    simpa [Function.comp_def] using h
  have hbare : ∀ b ∈ stored.map Prod.fst, Bare P.w res b := by
    rw [hb]
    intro b hb
    obtain ⟨e, he, hb⟩ := List.mem_flatMap.1 hb
    obtain ⟨cm, hc, _⟩ := hrow e he
    simp only [targets, hc] at hb
    by_cases hp : cm.plaintext = true
    · rw [if_pos hp, List.mem_singleton] at hb
      rw [hb]
      exact hn.plain _ cm hc hp
    · rw [if_neg hp] at hb
      obtain ⟨p, hp1, rfl⟩ := List.mem_map.1 hb
      exact hn.enc _ cm hc (by simpa using hp) p.1 p.2 hp1
  obtain ⟨k1, k2⟩ := storeRow_texts (L := P.leaves) hst
  have hsne : stored ≠ [] := by
    rintro rfl
    exact hne (by simpa using hb.symm)
  have hw := Statement.C63_written_partial (L := P.leaves) (tx := fun j => match j with | .str s => s | _ => "") hkeys
    (hnone "values" (by decide) (by decide) (by decide)) h5 h6 (by
      intro j hj
      rw [g2] at hj
      obtain ⟨e, he, rfl⟩ := List.mem_map.1 hj
      refine ⟨trivial, ?_⟩
      simp [Proxy.leaves, exText, nameText_bare (hbare e.1 (List.mem_map.2 ⟨e, he, rfl⟩)), Except.map]) g1 n
  rw [k1, g2] at hw
  refine ⟨ins, s, stored, (Statement.spell (Statement.oneRow tm.anonymous (stored.map Prod.fst) ((stored.map fun e => litRhs e.2).map fun r => String.ofList r.text))).toList,
    hr, ?_, ?_, hb, hholds⟩
  · rw [Proxy.text, hnone "alter" (by decide) (by decide) (by decide), hd, hw]
    simp [Except.map, Function.comp_def]
  · rw [read_insert (P := P.w) (by simpa using hsne) (by simpa using hsne) hbare ?_ hn.table, k2]
    intro r hr
    obtain ⟨e, he, rfl⟩ := List.mem_map.1 hr
    cases hx : e.2 with
    | text s => exact hkept e he s hx
    | _ => trivial

end EulerDB.Whole
