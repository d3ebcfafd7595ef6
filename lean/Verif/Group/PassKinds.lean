/-
The passes of `_group` (grouping.py 423-455) one by one: each keeps the tokens and ends.
-/
import Verif.Group.PassProps

namespace EulerDB.Group

open EulerDB.Lex

theorem groupTokens_ok {l : List Tok} {a : Nat} (ha : a < l.length) (c : Cls) (b : Nat) (extend : Bool) (n : Nat) :
    ∃ l' g n', groupTokens l c a b extend n = .ok (l', g, n') := by
  unfold groupTokens
  rw [List.getElem?_eq_getElem ha]
  cases l[a] with
  | leaf => exact ⟨_, _, _, rfl⟩
  | grp =>
    simp only
    split <;> exact ⟨_, _, _, rfl⟩

theorem groupTokens_at {l : List Tok} {c : Cls} {a b : Nat} {extend : Bool} {n : Nat}
    {l' : List Tok} {g : Tok} {n' : Nat} (h : groupTokens l c a b extend n = .ok (l', g, n')) :
    (l'[a]? = some g ∧ g.isInst c = true) ∧ (g.id, g.cls?) ∈ headsAll l' := by
  have hm : ∀ d, l' = l.take a ++ g :: d → (g.id, g.cls?) ∈ headsAll l' := by
    intro d e
    rw [e]
    exact mem_headsAll (List.mem_append_right _ (List.mem_cons_self ..)) (heads_self g)
  rcases groupTokens_cases h with ⟨ha, _, hg, _, e⟩ | ⟨_, _, _, _, ha, _, _, hi, _, hg, _, e⟩
  · refine ⟨⟨?_, by rw [hg]; simp [Tok.isInst]⟩, hm _ e⟩
    rw [e, List.getElem?_append_right (by rw [List.length_take]; omega), List.length_take, Nat.min_eq_left (Nat.le_of_lt ha),
      Nat.sub_self]
    rfl
  · refine ⟨⟨?_, by rw [hg]; exact hi⟩, hm _ e⟩
    rw [e, List.getElem?_append_right (by rw [List.length_take]; omega), List.length_take, Nat.min_eq_left (Nat.le_of_lt ha),
      Nat.sub_self]
    rfl

/-- The tokens a pass joins begin with the token before; where they end is not said. -/
def Loose (p : Pass) : Prop :=
  p.extend = true ∧ NoRemark p.cls ∧
  ∀ (l : List Tok) (pi ti : Nat) (ni : Option Nat), p.validNext (atIdx l ni) = true →
    ∃ j, ni = some j ∧ ∃ e, j ≤ e ∧ p.post l pi ti ni = .ok (l, pi, some e)

/-- What the loop keeps in a loose pass: the tokens not yet looked at are still in the tree. -/
structure Kept (p : Pass) (r : List Tok) (idx : Nat) (s : Run) : Prop where
  wf : Wf s.toks s.next
  sound : EveryAll Sound s.toks
  rest : ∀ t ∈ r, (t.id, t.cls?) ∈ headsAll s.toks
  prev : ∀ pi pid, s.prev = some (pi, pid) →
    ((pi : Int) + s.offset < idx ∨ ∃ g, s.toks[pi]? = some g ∧ g.isInst p.cls = true) ∧
      ∃ c, (pid, c) ∈ headsAll s.toks

theorem visit_loose {p : Pass} (ho : Loose p) {t : Tok} {r : List Tok} {idx : Nat} {s : Run}
    (h : Kept p (t :: r) idx s) (hi : ¬ (idx : Int) - s.offset < 0) :
    ∃ s', visit p s t.id ((idx : Int) - s.offset).toNat = .ok s' ∧
      Grown (some p.cls) s.toks s'.toks s.next s'.next ∧ Kept p r (idx + 1) s' := by
  generalize hk : ((idx : Int) - s.offset).toNat = k
  have hkk : (idx : Int) = k + s.offset := by omega
  have hmem := h.rest t (List.mem_cons_self ..)
  have hstay : Kept p r (idx + 1) { s with prev := some (k, t.id) } := by
    refine ⟨h.wf, h.sound, fun x hx => h.rest x (List.mem_cons_of_mem _ hx), ?_⟩
    intro pi pid e
    simp only [Option.some.injEq, Prod.mk.injEq] at e
    obtain ⟨rfl, rfl⟩ := e
    exact ⟨.inl (by simp only; omega), _, hmem⟩
  obtain ⟨w, u, hd, _⟩ := deref_ok hmem
  unfold visit
  rw [hd]
  simp only
  split
  swap
  · exact ⟨_, rfl, .refl _ _ _, hstay⟩
  cases hp : s.prev with
  | none => exact ⟨_, rfl, .refl _ _ _, hstay⟩
  | some q =>
    obtain ⟨pi, pid⟩ := q
    obtain ⟨hpk, c, hpm⟩ := h.prev pi pid hp
    obtain ⟨w2, u2, hd2, _⟩ := deref_ok hpm
    simp only [hd2]
    split
    swap
    · exact ⟨_, rfl, .refl _ _ _, hstay⟩
    rename_i hv
    rw [Bool.and_eq_true] at hv
    obtain ⟨j, hj, e, hje, hpost⟩ := ho.2.2 s.toks pi k (tokenNext s.toks k) hv.2
    obtain ⟨hkj, x, hx, _⟩ := findFrom_spec hj
    have hjl := (List.getElem?_eq_some_iff.1 hx).1
    have hpl : pi < s.toks.length := by
      rcases hpk with hpk | ⟨g, hg, _⟩
      · omega
      · exact (List.getElem?_eq_some_iff.1 hg).1
    obtain ⟨l2, g2, n2, hg⟩ := groupTokens_ok hpl p.cls (e + 1) p.extend s.next
    rw [hpost]
    simp only [unite, hg]
    have hgrow : Grown (some p.cls) s.toks l2 s.next n2 := groupTokens_grown hg
    obtain ⟨h1, h2⟩ := groupTokens_at hg
    have hsound : EveryAll Sound l2 := by
      refine groupTokens_sound hg h.sound ho.2.1 ?_
      rcases hpk with hpk | hpk
      · exact .inl (by omega)
      · exact .inr ⟨ho.1, hpk⟩
    refine ⟨_, rfl, hgrow, hgrow.wf h.wf, hsound, fun x hx => hgrow.mem (h.rest x (List.mem_cons_of_mem _ hx)), ?_⟩
    intro pi' pid' e
    simp only [Option.some.injEq, Prod.mk.injEq] at e
    obtain ⟨rfl, rfl⟩ := e
    exact ⟨.inr ⟨_, h1⟩, _, h2⟩

theorem setAt_cls {t new : Tok} (hn : new.cls? = t.cls?) {w : List Nat} {l : List Tok} (hw : tokAt w l = some t) :
    (setAt new w l).map Tok.cls? = l.map Tok.cls? :=
  setAt_ind (motive := fun a b => b.map Tok.cls? = a.map Tok.cls?) (t := t) (new := new)
    (fun pre post => by simp [hn])
    (fun pre i d ty ks ks' post _ => by simp [Tok.cls?]) w l hw

theorem setAt_inst {t new : Tok} (hn : new.cls? = t.cls?) {w : List Nat} {l : List Tok} (hw : tokAt w l = some t)
    {k : Nat} {c : Cls} (h : ∃ g, l[k]? = some g ∧ g.isInst c = true) :
    ∃ g, (setAt new w l)[k]? = some g ∧ g.isInst c = true := by
  obtain ⟨g, hg, hi⟩ := h
  have := congrArg (·[k]?) (setAt_cls hn hw)
  simp only [List.getElem?_map, hg, Option.map_some] at this
  cases hk : (setAt new w l)[k]? with
  | none => rw [hk] at this; cases this
  | some g' =>
    rw [hk, Option.map_some, Option.some.injEq] at this
    exact ⟨g', rfl, by rw [isInst_of_cls this]; exact hi⟩

theorem passLoop_loose {p : Pass} (ho : Loose p) {f : Nat} {rec : Tok → Nat → Except PyErr (Tok × Nat)}
    (hrec : RecOk p f rec) : ∀ (r : List Tok) (idx : Nat) (s : Run), Kept p r idx s → weight p.cls s.toks ≤ f →
    ∃ s', passLoop p rec r idx s = .ok s' ∧ Grown (some p.cls) s.toks s'.toks s.next s'.next ∧
      EveryAll Sound s'.toks
  | [], idx, s, h, _ => ⟨s, rfl, .refl _ _ _, h.sound⟩
  | t :: r, idx, s, h, hf => by
    rw [passLoop]
    have hpass : Kept p r (idx + 1) s := by
      refine ⟨h.wf, h.sound, fun x hx => h.rest x (List.mem_cons_of_mem _ hx), ?_⟩
      intro pi pid e
      obtain ⟨h1, h2⟩ := h.prev pi pid e
      exact ⟨h1.imp (by omega) id, h2⟩
    have ih := passLoop_loose ho hrec r (idx + 1) s hpass hf
    by_cases hn : (idx : Int) - s.offset < 0
    · rw [if_pos hn]; exact ih
    rw [if_neg hn]
    by_cases hw : t.isWhitespace = true
    · rw [if_pos hw]; exact ih
    rw [if_neg hw]
    have hmem := h.rest t (List.mem_cons_self ..)
    have hdeep : ∃ s1, descend p rec s t = .ok s1 ∧ Grown (some p.cls) s.toks s1.toks s.next s1.next ∧
        s1.offset = s.offset ∧ Kept p (t :: r) idx s1 := by
      unfold descend
      split
      swap
      · exact ⟨s, rfl, .refl _ _ _, rfl, h⟩
      rename_i hgo
      simp only [Bool.and_eq_true, Bool.not_eq_true'] at hgo
      obtain ⟨w, u, hd, htok, hid, hmu⟩ := deref_ok hmem
      have hc : u.cls? = t.cls? := h.wf.cls hmu (hid ▸ hmem)
      obtain ⟨now', n', hr, hgr, hi1, hi2, hsn⟩ := hrec u s.next
        (by rw [isGroup_of_cls hc]; exact hgo.1.2) (by rw [isInst_of_cls hc]; exact hgo.2)
        (tokAt_wf htok h.wf) (Nat.le_trans (tokAt_weight p.cls htok) hf) (tokAt_every htok h.sound)
      rw [hd]
      simp only [hr]
      have hgrow : Grown (some p.cls) s.toks (setAt now' w s.toks) s.next n' := setAt_grown hgr htok
      refine ⟨_, rfl, hgrow, rfl, hgrow.wf h.wf, setAt_sound hsn hgr htok h.sound, fun x hx => hgrow.mem (h.rest x hx), ?_⟩
      intro pi pid e
      obtain ⟨h1, c, h2⟩ := h.prev pi pid e
      exact ⟨h1.imp id fun hg => setAt_inst hi2 htok hg, c, hgrow.mem h2⟩
    obtain ⟨s1, hs1, hg1, ho1, hk1⟩ := hdeep
    rw [hs1]
    simp only
    obtain ⟨s2, hs2, hg2, hi2⟩ := visit_loose ho hk1 (by rw [ho1]; exact hn)
    rw [ho1] at hs2
    rw [hs2]
    simp only
    obtain ⟨s3, hs3, hg3, hso⟩ := passLoop_loose ho hrec r (idx + 1) s2 hi2
      (by rw [(hg1.trans hg2).weight]; exact hf)
    exact ⟨s3, hs3, (hg1.trans hg2).trans hg3, hso⟩

theorem pass_loose {p : Pass} (ho : Loose p) (hr : ∀ b, Loose { p with recurse := b }) :
    ∀ (fuel : Nat) (t : Tok) (n : Nat), t.isInst p.cls = false → Wf [t] n → weight p.cls [t] < fuel →
    Every Sound t → ∃ t' n', pass p fuel t n = .ok (t', n') ∧ Grown (some p.cls) [t] [t'] n n' ∧ t'.id = t.id ∧
      t'.cls? = t.cls? ∧ Every Sound t' := by
  intro fuel
  induction fuel generalizing p with
  | zero => intro t n _ _ h _; omega
  | succ fuel ih =>
    intro t n hi hw hf hs0
    cases t with
    | leaf i m ty v => exact ⟨_, _, rfl, .refl _ _ _, rfl, rfl, trivial⟩
    | grp i c ty l =>
      have hc : p.cls ≠ .tokenList := by intro e; simp [Tok.isInst, e] at hi
      have hne : c ≠ p.cls := by intro e; simp [Tok.isInst, e] at hi
      have hwt : weight p.cls [.grp i c ty l] = weight p.cls l + 1 := by
        unfold weight
        simp [headsAll, heads, hne]
      have hrec : RecOk p (weight p.cls l) (pass { p with recurse := true } fuel) := by
        intro now n hg hni hwf hwn hsn
        exact ih (p := { p with recurse := true }) (hr true) (fun b => hr b) now n hni hwf
          (by show weight p.cls [now] < fuel; omega) hsn
      have hinv : Kept p l 0 ⟨l, 0, none, n⟩ :=
        ⟨hw.child, hs0.2, fun x hx => mem_headsAll hx (heads_self x), by simp⟩
      obtain ⟨s, hs, hg, hso⟩ := passLoop_loose ho hrec l 0 _ hinv (Nat.le_refl _)
      rw [pass, hs]
      exact ⟨_, _, rfl, hg.inside _ _ _ _, rfl, rfl, ⟨hs0.1.1, hs0.1.2.1.imp hg.ne id, hg.remark hs0.1.2.2⟩, hso⟩

/-! ### The passes -/

theorem atIdx_none {l : List Tok} {ni : Option Nat} (h : (atIdx l ni).isSome = true) : ∃ j, ni = some j := by
  cases ni with
  | none => simp [atIdx] at h
  | some j => exact ⟨j, rfl⟩

theorem orderly_wide {p : Pass} (hp : p.post = wide) (hv : ∀ t, p.validNext t = true → t.isSome = true) : Orderly p := by
  intro l pi ti ni t _ h _
  obtain ⟨j, rfl⟩ := atIdx_none (hv _ h)
  exact ⟨l, pi, j, by rw [hp]; rfl, .inl rfl, .inr rfl, .inl rfl⟩

theorem orderly_ahead {p : Pass} (hp : p.post = ahead) (hv : ∀ t, p.validNext t = true → t.isSome = true) : Orderly p := by
  intro l pi ti ni t _ h _
  obtain ⟨j, rfl⟩ := atIdx_none (hv _ h)
  exact ⟨l, ti, j, by rw [hp]; rfl, .inr rfl, .inr rfl, .inl rfl⟩

theorem orderly_period {p : Pass} (hp : p.post = periodPost) : Orderly p := by
  intro l pi ti ni t _ _ hn
  rw [hp]
  unfold periodPost
  cases ni with
  | none => exact ⟨l, pi, ti, rfl, .inl rfl, .inl rfl, .inl rfl⟩
  | some j =>
    rw [atIdx, List.getElem?_eq_getElem (hn j rfl)]
    simp only
    split
    · exact ⟨l, pi, j, rfl, .inl rfl, .inr rfl, .inl rfl⟩
    · exact ⟨l, pi, ti, rfl, .inl rfl, .inl rfl, .inl rfl⟩

theorem orderly_arrays {p : Pass} (hp : p.post = arraysPost) : Orderly p := by
  intro l pi ti ni t _ _ _
  exact ⟨l, pi, ti, by rw [hp]; rfl, .inl rfl, .inl rfl, .inl rfl⟩

theorem orderly_operators {p : Pass} (hp : p.post = operatorPost)
    (hv : ∀ t, p.validNext t = true → t.isSome = true) (hf : p.fits = fun t => among t [Operator, Wildcard]) :
    Orderly p := by
  intro l pi ti ni t ht h _
  obtain ⟨j, rfl⟩ := atIdx_none (hv _ h)
  refine ⟨l.set ti (setType Operator t), pi, j, by rw [hp, operatorPost, ht], .inl rfl, .inr rfl, .inr ⟨rfl, ?_⟩⟩
  intro u hu
  rw [hf] at hu
  exact hu

theorem loose_assignment {p : Pass} (hp : p.post = assignPost) (hv : ∀ t, p.validNext t = true → t.isSome = true)
    (he : p.extend = true) (hc : NoRemark p.cls) : Loose p := by
  refine ⟨he, hc, ?_⟩
  intro l pi ti ni h
  obtain ⟨j, rfl⟩ := atIdx_none (hv _ h)
  refine ⟨j, rfl, ?_⟩
  rw [hp, assignPost]
  split
  · exact ⟨_, Nat.le_refl _, rfl⟩
  · rename_i k hk
    exact ⟨_, by have := (findFrom_spec hk).1; omega, rfl⟩

/-- A pass that ends and makes every token grow. -/
def PassOk (p : Pass) : Prop :=
  ∀ (fuel : Nat) (t : Tok) (n : Nat), t.isInst p.cls = false → Wf [t] n → weight p.cls [t] < fuel →
    Every Sound t → ∃ t' n', pass p fuel t n = .ok (t', n') ∧ Grown (some p.cls) [t] [t'] n n' ∧ t'.id = t.id ∧
      t'.cls? = t.cls? ∧ Every Sound t'

theorem isSome_of_match {f : Tok → Bool} {t : Option Tok}
    (h : (match t with | none => false | some t => f t) = true) : t.isSome = true := by
  cases t with
  | none => simp at h
  | some _ => rfl

theorem typecasts_ok : PassOk typecasts :=
  pass_ok (by decide) (orderly_wide rfl fun _ h => h) fun _ => orderly_wide rfl fun _ h => h
theorem tzcasts_ok : PassOk tzcasts :=
  pass_ok (by decide) (orderly_wide rfl fun _ h => h) fun _ => orderly_wide rfl fun _ h => h
theorem typedLiteral_ok : PassOk typedLiteral :=
  pass_ok (by decide) (orderly_ahead rfl fun _ h => isSome_of_match h) fun _ => orderly_ahead rfl fun _ h => isSome_of_match h
theorem typedMore_ok : PassOk typedMore :=
  pass_ok (by decide) (orderly_ahead rfl fun _ h => isSome_of_match h) fun _ => orderly_ahead rfl fun _ h => isSome_of_match h
theorem period_ok : PassOk period := pass_ok (by decide) (orderly_period rfl) fun _ => orderly_period rfl
theorem arrays_ok : PassOk arrays := pass_ok (by decide) (orderly_arrays rfl) fun _ => orderly_arrays rfl
theorem asNames_ok : PassOk asNames :=
  pass_ok (by decide) (orderly_wide rfl fun _ h => isSome_of_match h) fun _ => orderly_wide rfl fun _ h => isSome_of_match h
theorem comparison_ok : PassOk comparison :=
  pass_ok (by decide) (orderly_wide rfl fun _ h => isSome_of_match h) fun _ => orderly_wide rfl fun _ h => isSome_of_match h
theorem identifierList_ok : PassOk identifierList :=
  pass_ok (by decide) (orderly_wide rfl fun _ h => isSome_of_match h) fun _ => orderly_wide rfl fun _ h => isSome_of_match h
theorem operators_ok : PassOk operators :=
  pass_ok (by decide) (orderly_operators rfl (fun _ h => isSome_of_match h) rfl)
    fun _ => orderly_operators rfl (fun _ h => isSome_of_match h) rfl
theorem assignment_ok : PassOk assignment :=
  pass_loose (loose_assignment rfl (fun _ h => isSome_of_match h) rfl ⟨by decide, by decide⟩)
    fun _ => loose_assignment rfl (fun _ h => isSome_of_match h) rfl ⟨show assignment.cls ≠ _ by decide, show assignment.cls ≠ _ by decide⟩

end EulerDB.Group
