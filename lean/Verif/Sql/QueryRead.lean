/-
How the clauses of a spelled query are read.
-/
import Verif.Sql.QuerySpell

namespace EulerDB.Sql

open EulerDB EulerDB.Parse

/-! ### WHERE and HAVING -/

theorem SpOpt.length {env : Env} {w : String} {d e : Edge} {t r : List Char} {v : Option V} (h : SpOpt env w d t v e r) : r.length ≤ t.length := by
  cases h with
  | absent => exact Nat.le_refl _
  | given _ hk _ => have := hk.length; simp only [List.length_append] at this; omega

theorem SpOpt.starts {env : Env} {w : String} {d e : Edge} {t r : List Char} {v : Option V} (h : SpOpt env w d t v e r) {ws : List String} (hr : Starts ws e r) :
    Starts (w :: ws) d t := by
  cases h with
  | absent => exact hr.mono fun _ h => List.mem_cons_of_mem _ h
  | given hs hk _ => exact .inr ⟨hs, w, List.mem_cons_self .., _, hk⟩

theorem SpOpt.kw {env : Env} {w : String} {d e : Edge} {t r : List Char} {v : Option V} (h : SpOpt env w d t v e r) {ws : List String} (hr : Starts ws e r)
    (hws : ∀ x ∈ w :: ws, x ∈ clauseWords) (hw : w ∉ ws) {k : Nat} (hk : t.length ≤ k) :
    (v = none ∧ Sql.kw w t = none ∧ r = t) ∨ ∃ x u, v = some x ∧ Sql.kw w t = some u ∧ expr env (k + 1) u = .ok x r := by
  obtain ⟨h1, h2, _, _⟩ := clause_words w (hws w (by simp))
  have hws' : ∀ x ∈ ws, x ∈ clauseWords := fun x hx => hws x (by simp [hx])
  cases h with
  | absent => exact .inl ⟨rfl, hr.kw hws' ⟨h1, h2, hw⟩, rfl⟩
  | @given _ _ u _ x hs hkw hx =>
    have := hkw.length
    simp only [List.length_append] at this
    exact .inr ⟨x, _, rfl, hkw.read h1 h2, hx.read (hr.quiet hws').toFin (by omega)⟩

theorem SpOpt.where {env : Env} {d e : Edge} {t r : List Char} {v : Option V} (h : SpOpt env "where" d t v e r) {ws : List String} (hr : Starts ws e r)
    (hws : ∀ x ∈ "where" :: ws, x ∈ clauseWords) (hw : "where" ∉ ws) {k : Nat} (hk : t.length ≤ k) : whereOpt (expr env (k + 1)) t = .ok v r := by
  rcases h.kw hr hws hw hk with ⟨rfl, h1, rfl⟩ | ⟨x, u, rfl, h1, h2⟩
  · rw [whereOpt, h1]
  · rw [whereOpt, h1]; simp only [h2]

theorem SpOpt.having {env : Env} {d e : Edge} {t r : List Char} {v : Option V} (h : SpOpt env "having" d t v e r) {ws : List String} (hr : Starts ws e r)
    (hws : ∀ x ∈ "having" :: ws, x ∈ clauseWords) (hw : "having" ∉ ws) {k : Nat} (hk : t.length ≤ k) :
    havingOpt (expr env (k + 1)) t = .ok (optEntry "having" (v.map scrub)) r := by
  rcases h.kw hr hws hw hk with ⟨rfl, h1, rfl⟩ | ⟨x, u, rfl, h1, h2⟩
  · rw [havingOpt, h1]; rfl
  · rw [havingOpt, h1]; simp only [h2]; rfl

/-! ### GROUP BY -/

theorem SpGroup.length {env : Env} {d e : Edge} {t r : List Char} {l : List Json} (h : SpGroup env d t l e r) : r.length ≤ t.length := by
  cases h with
  | absent => exact Nat.le_refl _
  | given _ hk _ => have := hk.length; simp only [List.length_append] at this; omega

theorem SpGroup.starts {env : Env} {d e : Edge} {t r : List Char} {l : List Json} (h : SpGroup env d t l e r) {ws : List String} (hr : Starts ws e r) :
    Starts ("group" :: ws) d t := by
  cases h with
  | absent => exact hr.mono fun _ h => List.mem_cons_of_mem _ h
  | given hs hk _ =>
    obtain ⟨u, hu⟩ := hk.head (by decide) (by decide)
    exact .inr ⟨hs, "group", List.mem_cons_self .., u, hu⟩

theorem key_reads (env : Env) (k : Nat) : ReadsE Quiet (groupKey (expr env (k + 1))) (fun d t a => t.length ≤ k ∧ SpKey env d t a) := by
  rintro d t j r ⟨hk, v, hv, rfl⟩ hr
  have ha : aliasOpt r = .ok none r := by rw [aliasOpt, hr.noAs]; simp only [Option.getD_none, hr.noName]
  rw [groupKey, hv.read hr.toFin hk]
  simp only [R.next, ha, nameJson]

theorem SpList.ne_nil {α : Type} {P : Edge → List Char → α → Prop} {d : Edge} {t : List Char} {l : List α} (h : SpList P d t l) : l ≠ [] := by
  cases h <;> simp

theorem listEntry_eq (k : String) {l : List Json} (h : l ≠ []) : listEntry k l = [(k, listJson l)] := by
  cases l with
  | nil => exact absurd rfl h
  | cons => rfl

theorem SpGroup.read {env : Env} {d e : Edge} {t r : List Char} {l : List Json} (h : SpGroup env d t l e r) {ws : List String} (hr : Starts ws e r)
    (hws : ∀ x ∈ ws, x ∈ clauseWords) (hw : "group" ∉ ws) {k : Nat} (hk : t.length ≤ k) :
    groupOpt (expr env (k + 1)) t = .ok (listEntry "groupby" l) r := by
  cases h with
  | absent => rw [groupOpt, hr.kws hws ["by"] ⟨by decide, by decide, hw⟩]; rfl
  | @given _ _ u _ l hs hkw hl =>
    have := hkw.length
    simp only [List.length_append] at this
    have hL : listOf (groupKey (expr env (k + 1))) (u ++ r) = .ok l r :=
      listOf_readsE quiet_comma (key_reads env k) (hl.mono fun d x a hx ha => ⟨by omega, ha⟩) (hr.quiet hws) (hr.comma hws)
    rw [groupOpt, hkw.read (by decide)]
    simp only [hL, R.next, R.orElse, listEntry_eq "groupby" hl.ne_nil]

/-! ### ORDER BY -/

theorem SpOrder.length {env : Env} {d e : Edge} {t r : List Char} {l : List Json} (h : SpOrder env d t l e r) : r.length ≤ t.length := by
  cases h with
  | absent => exact Nat.le_refl _
  | given _ hk _ => have := hk.length; simp only [List.length_append] at this; omega

theorem SpOrder.starts {env : Env} {d e : Edge} {t r : List Char} {l : List Json} (h : SpOrder env d t l e r) {ws : List String} (hr : Starts ws e r) :
    Starts ("order" :: ws) d t := by
  cases h with
  | absent => exact hr.mono fun _ h => List.mem_cons_of_mem _ h
  | given hs hk _ =>
    obtain ⟨u, hu⟩ := hk.head (by decide) (by decide)
    exact .inr ⟨hs, "order", List.mem_cons_self .., u, hu⟩

/-- What may follow a sort key. -/
structure Calm (d : Edge) (r : List Char) : Prop extends Fin d r where
  no : anyKw ["asc", "desc", "nulls"] r = false

theorem calm_comma (d : Edge) (g u : List Char) (hg : After d g) : Calm d (g ++ ',' :: u) := by
  have hb : Begins ["asc", "desc", "nulls"] (g ++ ',' :: u) := (begins_char (by decide) (c := ',') (by decide) (by decide) u).gap hg.1
  exact ⟨fin_char hg (by decide) u, hb.anyKw (by decide)⟩

theorem Starts.calm {ws : List String} {d : Edge} {t : List Char} (h : Starts ws d t) (hw : ∀ w ∈ ws, w ∈ clauseWords) : Calm d t :=
  ⟨(h.quiet hw).toFin, h.other hw fun v hv => by
    refine ⟨by revert v; decide, by revert v; decide, fun hm => ?_⟩
    exact (show ∀ v ∈ ["asc", "desc", "nulls"], v ∉ clauseWords by decide) v hv (hw v hm)⟩

theorem Calm.none {d : Edge} {r : List Char} (h : Calm d r) : kw "asc" r = none ∧ kw "desc" r = none ∧ anyKw ["nulls"] r = false := by
  have := h.no
  simp only [anyKw, List.any_cons, List.any_nil, Bool.or_false, Bool.or_eq_false_iff] at this ⊢
  obtain ⟨h1, h2, h3⟩ := this
  exact ⟨by simpa using h1, by simpa using h2, h3⟩

theorem sort_reads (env : Env) (k : Nat) : ReadsE Calm (sortKey (expr env (k + 1))) (fun d t a => t.length ≤ k ∧ SpSort env d t a) := by
  rintro d t j r ⟨hk, h⟩ hr
  obtain ⟨h1, h2, h3⟩ := hr.none
  cases h with
  | plain hv =>
    rw [sortKey, hv.read hr.toFin hk]
    simp only [R.next, sortDir, h1, h2, h3, Bool.false_eq_true, if_false]
  | @dir d t g w' w v hv hg hs hw hk' =>
    have hwd : Wordy w.toList ∧ w.toList ≠ [] ∧ (∀ v ∈ opWords ++ ["over", "within", "filter"], w.toList ≠ v.toList) := by rcases hw with rfl | rfl <;> decide
    have hb : boundary r = true := hr.sep.boundary (by decide)
    have hf := fin_word hg hs (wordy_of hk' hwd.1) (ne_nil_of hk' hwd.2.1) hb fun v hv => not_word hk' (hwd.2.2 v hv)
    have hF : First (g ++ (w' ++ r)) w' r := (first_word (wordy_of hk' hwd.1) (ne_nil_of hk' hwd.2.1) hb).gap hg
    have e : t ++ (g ++ w') ++ r = t ++ (g ++ w' ++ r) := by simp
    simp only [List.length_append] at hk
    rw [sortKey, e, hv.read hf (by omega), List.append_assoc]
    have hd : sortDir (g ++ (w' ++ r)) = ([("sort", .str w)], r) := by
      unfold Word at hk'
      rw [sortDir, hF.kw (by decide), hF.kw (by decide), hk']
      rcases hw with rfl | rfl
      · rw [if_neg (by decide), if_pos rfl]
      · rw [if_pos rfl]
    simp only [R.next, hd, h3, Bool.false_eq_true, if_false]

theorem SpOrder.read {env : Env} {d e : Edge} {t r : List Char} {l : List Json} (h : SpOrder env d t l e r) {ws : List String} (hr : Starts ws e r)
    (hws : ∀ x ∈ ws, x ∈ clauseWords) (hw : "order" ∉ ws) {k : Nat} (hk : t.length ≤ k) :
    orderOpt (expr env (k + 1)) t = .ok (listEntry "orderby" l) r := by
  cases h with
  | absent => rw [orderOpt, hr.kws hws ["by"] ⟨by decide, by decide, hw⟩]; rfl
  | @given _ _ u _ l hs hkw hl =>
    have := hkw.length
    simp only [List.length_append] at this
    have hL : listOf (sortKey (expr env (k + 1))) (u ++ r) = .ok l r :=
      listOf_readsE calm_comma (sort_reads env k) (hl.mono fun d x a hx ha => ⟨by omega, ha⟩) (hr.calm hws) (hr.comma hws)
    rw [orderOpt, hkw.read (by decide)]
    simp only [hL, R.next, R.orElse, listEntry_eq "orderby" hl.ne_nil]

/-! ### Joins -/

/-- The words that begin a join. -/
def joinHeads : List String := ["cross", "outer", "inner", "full", "left", "right", "join"]

theorem findSome_if {α β : Type} [DecidableEq α] {f : α → Option β} {a : α} {b : β} : ∀ (l : List α), a ∈ l → f a = some b → (∀ x ∈ l, x ≠ a → f x = none) →
    l.findSome? f = some b
  | [], h, _, _ => by cases h
  | x :: l, h, ha, hn => by
    by_cases hx : x = a
    · subst hx; rw [List.findSome?_cons, ha]
    · rw [List.findSome?_cons, hn x (by simp) hx]
      exact findSome_if l (by simpa [Ne.symm hx] using h) ha fun y hy => hn y (by simp [hy])

theorem join_forms : ∀ ws ∈ joinForms, (∀ v ∈ ws, Wordy v.toList ∧ v.toList ≠ []) ∧ ws ≠ [] ∧ (∀ vs ∈ joinForms, vs ≠ ws → ¬ ws <+: vs ∧ ¬ vs <+: ws) ∧
    (∀ w ∈ ws.head?, w ∈ joinHeads) := by decide

theorem Kws.join {ws : List String} {t u : List Char} (h : Kws ws t u) (hm : ws ∈ joinForms) : joinHead t = some (" ".intercalate ws, u) := by
  obtain ⟨h1, h2, h3, _⟩ := join_forms ws hm
  obtain ⟨w, ws, rfl⟩ := List.exists_cons_of_ne_nil h2
  refine findSome_if joinForms hm (by rw [h.read h1]; rfl) fun vs hvs hne => ?_
  obtain ⟨h5, h6, _, _⟩ := join_forms vs hvs
  rw [(h.first h1 vs (fun v hv => (h5 v hv).1) h6).2 (h3 vs hvs hne).1 (h3 vs hvs hne).2]
  rfl

theorem Starts.noJoin {ws : List String} {d : Edge} {t : List Char} (h : Starts ws d t) (hw : ∀ w ∈ ws, w ∈ clauseWords) (hno : ∀ w ∈ joinHeads, w ∉ ws) :
    joinHead t = none := by
  rw [joinHead, List.findSome?_eq_none_iff]
  intro vs hvs
  obtain ⟨h1, h2, _, h4⟩ := join_forms vs hvs
  obtain ⟨v, vs, rfl⟩ := List.exists_cons_of_ne_nil h2
  rw [h.kws hw vs ⟨(h1 v (by simp)).1, (h1 v (by simp)).2, hno v (h4 v rfl)⟩]
  rfl

theorem SpJoins.length {env : Env} {d e : Edge} {t r : List Char} {l : List Json} (h : SpJoins env d t l e r) : r.length ≤ t.length := by
  induction h with
  | nil => exact Nat.le_refl _
  | plain _ _ hk _ _ _ ih => have := hk.length; simp only [List.length_append] at this; omega
  | cond _ _ hk _ _ _ _ hk2 _ _ ih =>
    have := hk.length
    have := hk2.length
    simp only [List.length_append] at *
    omega

theorem Kws.starts {ws ws' : List String} {d : Edge} {t u : List Char} (h : Kws ws t u) (hm : ws ∈ joinForms) (hs : Sep d t) : Starts (joinHeads ++ ws') d t := by
  obtain ⟨h1, h2, _, h4⟩ := join_forms ws hm
  obtain ⟨w, ws, rfl⟩ := List.exists_cons_of_ne_nil h2
  obtain ⟨x, hx⟩ := h.head (h1 w (by simp)).1 (h1 w (by simp)).2
  exact .inr ⟨hs, w, List.mem_append_left _ (h4 w rfl), x, hx⟩

theorem SpJoins.starts {env : Env} {d e : Edge} {t r : List Char} {l : List Json} (h : SpJoins env d t l e r) {ws : List String} (hr : Starts ws e r) :
    Starts (joinHeads ++ ws) d t := by
  cases h with
  | nil => exact hr.mono fun _ h => List.mem_append_right _ h
  | plain hm hs hk => exact hk.starts hm hs
  | cond hm hs hk => exact hk.starts hm hs

theorem no_opens {w : String} {t : List Char} (h : ¬ Opens w t) (hw : Wordy w.toList) (hne : w.toList ≠ []) : kw w t = none := by
  have := mt (kw_opens hw hne t).mp h
  simpa using this

/-- The words after a join. -/
structure AfterJoins (ws : List String) : Prop where
  sub : ∀ w ∈ ws, w ∈ clauseWords
  no : ∀ w ∈ "on" :: "using" :: joinHeads, w ∉ ws

theorem AfterJoins.all {ws : List String} (h : AfterJoins ws) : ∀ w ∈ joinHeads ++ ws, w ∈ clauseWords := by
  intro w hw
  rcases List.mem_append.1 hw with hw | hw
  · exact (show ∀ w ∈ joinHeads, w ∈ clauseWords by decide) w hw
  · exact h.sub w hw

theorem kws_other {ws : List String} {t u : List Char} (h : Kws ws t u) (hm : ws ∈ joinForms) : anyKw ["lateral", "window"] t = false := by
  obtain ⟨h1, h2, _, h4⟩ := join_forms ws hm
  obtain ⟨w, ws, rfl⟩ := List.exists_cons_of_ne_nil h2
  obtain ⟨x, hx⟩ := h.head (h1 w (by simp)).1 (h1 w (by simp)).2
  have : ∀ w ∈ joinHeads, ∀ v ∈ ["lateral", "window"], Wordy v.toList ∧ w.toList ≠ v.toList := by decide
  exact hx.other (h1 w (by simp)).1 (h1 w (by simp)).2 (this w (h4 w rfl))

theorem joins_nil {ex : List Char → R V} {ws : List String} {d : Edge} {t : List Char} (h : Starts ws d t) (hw : AfterJoins ws) (n : Nat) :
    joinsFrom ex n t = .ok [] t := by
  cases n with
  | zero => rfl
  | succ n =>
    have e : joinOne ex t = .fail := by
      rw [joinOne, h.other hw.sub fun v hv => ?_, h.noJoin hw.sub fun w hm => hw.no w (by simp [hm])]
      · rfl
      · refine ⟨by revert v; decide, by revert v; decide, fun hm => ?_⟩
        exact (show ∀ v ∈ ["lateral", "window"], v ∉ clauseWords by decide) v hv (hw.sub v hm)
    rw [joinsFrom, e]

theorem SpJoins.read {env : Env} {d e : Edge} {t r : List Char} {l : List Json} (h : SpJoins env d t l e r) {ws : List String} (hr : Starts ws e r)
    (hw : AfterJoins ws) {k : Nat} : t.length ≤ k → ∀ n, t.length ≤ n → joinsFrom (expr env (k + 1)) n t = .ok l r := by
  induction h with
  | nil => exact fun _ n _ => joins_nil hr hw n
  | @plain d e f t u r z ws' j js hm hs hk hlat ht hjs ih =>
    intro hk' n hn
    have hlen := hk.length
    simp only [List.length_append] at hlen
    have hst := hjs.starts hr
    have hq : Quiet e r := hst.quiet hw.all
    have hon : kw "on" r = none := hst.kw hw.all ⟨by decide, by decide, by
      intro hx; rcases List.mem_append.1 hx with hx | hx
      · revert hx; decide
      · exact hw.no "on" (by simp) hx⟩
    have hus : kw "using" r = none := hst.kw hw.all ⟨by decide, by decide, by
      intro hx; rcases List.mem_append.1 hx with hx | hx
      · revert hx; decide
      · exact hw.no "using" (by simp) hx⟩
    have hpos : (u ++ r).length < t.length := by
      obtain ⟨g, k1, _, hk1, _, rfl⟩ := hk
      obtain ⟨h1, h2, _, _⟩ := join_forms ws' hm
      obtain ⟨w, ws1, rfl⟩ := List.exists_cons_of_ne_nil h2
      have := List.length_pos_iff.2 (hk1.ne_nil (h1 w (by simp)).2)
      simp only [List.length_append]; omega
    simp only [List.length_append] at hpos
    obtain ⟨n, rfl⟩ : ∃ m, n = m + 1 := ⟨n - 1, by omega⟩
    have e1 : joinOne (expr env (k + 1)) t = .ok (.dict [(" ".intercalate ws', j)]) r := by
      rw [joinOne, kws_other hk hm, hk.join hm]
      simp only [Bool.false_eq_true, if_false]
      have hl : anyKw ["lateral"] (u ++ r) = false := by simp [anyKw, no_opens hlat (by decide) (by decide)]
      rw [hl]
      simp only [Bool.false_eq_true, if_false, table_reads e u j r ht hq, R.next, joinCond, hon, hus]
    rw [joinsFrom, e1]
    simp only [ih hr (by omega) n (by omega), R.next]
  | @cond d e f x t u r y z q ws' w v j js hm hs hk hlat ht hsr hwk hkw hv hjs ih =>
    intro hk' n hn
    have hlen := hk.length
    have hlen2 := hkw.length
    simp only [List.length_append] at hlen hlen2
    have hst := hjs.starts hr
    have hww : Wordy w.toList ∧ w.toList ≠ [] ∧ w ∈ clauseWords := by rcases hwk with rfl | rfl <;> decide
    have hq : Quiet e r := (show Starts [w] e r from .inr ⟨hsr, w, by simp, _, hkw⟩).quiet (by simpa using hww.2.2)
    have hpos : (u ++ r).length < t.length := by
      obtain ⟨g, k1, _, hk1, _, rfl⟩ := hk
      obtain ⟨h1, h2, _, _⟩ := join_forms ws' hm
      obtain ⟨w, ws1, rfl⟩ := List.exists_cons_of_ne_nil h2
      have := List.length_pos_iff.2 (hk1.ne_nil (h1 w (by simp)).2)
      simp only [List.length_append]; omega
    simp only [List.length_append] at hpos
    obtain ⟨n, rfl⟩ : ∃ m, n = m + 1 := ⟨n - 1, by omega⟩
    have hx : expr env (k + 1) (y ++ z) = .ok v z := hv.read (hst.quiet hw.all).toFin (by omega)
    have hc : joinCond (expr env (k + 1)) r = .ok [(w, scrub v)] z := by
      rcases hwk with rfl | rfl
      · rw [joinCond, hkw.read (by decide) (by decide)]; simp only [hx, R.next, R.orElse]
      · have hon : kw "on" r = none := by
          have := hkw.other (by decide) (by decide) (no := ["on"]) (by decide)
          simpa [anyKw] using this
        rw [joinCond, hon, hkw.read (by decide) (by decide)]; simp only [hx, R.next, R.orElse]
    have e1 : joinOne (expr env (k + 1)) t = .ok (.dict [(" ".intercalate ws', j), (w, scrub v)]) z := by
      rw [joinOne, kws_other hk hm, hk.join hm]
      simp only [Bool.false_eq_true, if_false]
      have hl : anyKw ["lateral"] (u ++ r) = false := by simp [anyKw, no_opens hlat (by decide) (by decide)]
      rw [hl]
      simp only [Bool.false_eq_true, if_false, table_reads e u j r ht hq, R.next, hc]
    rw [joinsFrom, e1]
    simp only [ih hr (by omega) n (by omega), R.next]

end EulerDB.Sql
