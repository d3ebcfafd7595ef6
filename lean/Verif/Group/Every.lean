/-
Conditions on every group of a tree; no group is without tokens.
-/
import Verif.Group.Refs

namespace EulerDB.Group

open EulerDB.Lex

mutual
/-- A condition on every group of a tree. -/
def Every (P : Cls → Option TType → List Tok → Prop) : Tok → Prop
  | .leaf .. => True
  | .grp _ c ty l => P c ty l ∧ EveryAll P l
def EveryAll (P : Cls → Option TType → List Tok → Prop) : List Tok → Prop
  | [] => True
  | t :: r => Every P t ∧ EveryAll P r
end

theorem everyAll_append {P : Cls → Option TType → List Tok → Prop} (a b : List Tok) :
    EveryAll P (a ++ b) ↔ EveryAll P a ∧ EveryAll P b := by
  induction a with
  | nil => simp [EveryAll]
  | cons t r ih => simp [EveryAll, ih, and_assoc]

theorem everyAll_iff {P : Cls → Option TType → List Tok → Prop} (l : List Tok) :
    EveryAll P l ↔ ∀ t ∈ l, Every P t := by
  induction l with
  | nil => simp [EveryAll]
  | cons t r ih => simp [EveryAll, ih]

mutual
theorem Every.imp {P Q : Cls → Option TType → List Tok → Prop} (h : ∀ c ty l, P c ty l → Q c ty l) :
    ∀ t : Tok, Every P t → Every Q t
  | .leaf .., _ => trivial
  | .grp _ _ _ l, hp => ⟨h _ _ _ hp.1, EveryAll.imp h l hp.2⟩
theorem EveryAll.imp {P Q : Cls → Option TType → List Tok → Prop} (h : ∀ c ty l, P c ty l → Q c ty l) :
    ∀ l : List Tok, EveryAll P l → EveryAll Q l
  | [], _ => trivial
  | t :: r, hp => ⟨Every.imp h t hp.1, EveryAll.imp h r hp.2⟩
end

theorem every_leaf {P : Cls → Option TType → List Tok → Prop} {t : Tok} (h : t.isGroup = false) : Every P t := by
  cases t with
  | leaf => trivial
  | grp => simp [Tok.isGroup] at h

theorem mem_slice {l : List Tok} {a b : Nat} {t : Tok} (h : t ∈ slice l a b) : t ∈ l :=
  List.mem_of_mem_take (List.mem_of_mem_drop h)

theorem slice_ne {l : List Tok} {a b : Nat} (ha : a < l.length) (hab : a < b) : slice l a b ≠ [] := by
  intro h
  have := congrArg List.length h
  unfold slice at this
  simp only [List.length_drop, List.length_take, List.length_nil] at this
  omega

theorem every_slice {P : Cls → Option TType → List Tok → Prop} {l : List Tok} (h : EveryAll P l) (a b : Nat) :
    EveryAll P (slice l a b) :=
  (everyAll_iff _).2 fun t ht => (everyAll_iff l).1 h t (mem_slice ht)

theorem every_take {P : Cls → Option TType → List Tok → Prop} {l : List Tok} (h : EveryAll P l) (a : Nat) :
    EveryAll P (l.take a) :=
  (everyAll_iff _).2 fun t ht => (everyAll_iff l).1 h t (List.mem_of_mem_take ht)

theorem every_drop {P : Cls → Option TType → List Tok → Prop} {l : List Tok} (h : EveryAll P l) (a : Nat) :
    EveryAll P (l.drop a) :=
  (everyAll_iff _).2 fun t ht => (everyAll_iff l).1 h t (List.mem_of_mem_drop ht)

/-- A group made without `extend`. -/
theorem groupTokens_made {l : List Tok} {a : Nat} (ha : a < l.length) (c : Cls) (b n : Nat) :
    groupTokens l c a b false n = .ok (l.take a ++ .grp n c none (slice l a b) :: l.drop (max a b),
      .grp n c none (slice l a b), n + 1) := by
  unfold groupTokens
  rw [List.getElem?_eq_getElem ha]
  cases l[a] with
  | leaf => rfl
  | grp =>
    simp only
    rw [if_neg (by simp)]

theorem every_made {P : Cls → Option TType → List Tok → Prop} {l : List Tok} (h : EveryAll P l) {c : Cls} {a b n : Nat}
    (hc : P c none (slice l a b)) : EveryAll P (l.take a ++ .grp n c none (slice l a b) :: l.drop (max a b)) := by
  rw [everyAll_append]
  exact ⟨every_take h a, ⟨hc, every_slice h a b⟩, every_drop h _⟩

/-- The leaves of a comment: a comment, then comments and blanks. -/
def Remark (c : Cls) (l : List Tok) : Prop :=
  c = .comment → ∃ x r, leavesAll l = x :: r ∧ below x Comment = true ∧
    ∀ y ∈ r, below y Comment = true ∨ y.isWhitespace = true

theorem Remark.other {c : Cls} {l : List Tok} (h : c ≠ .comment) : Remark c l := fun e => absurd e h

theorem SameLeaf.remark {a b : Tok} (h : SameLeaf a b) :
    (below a Comment = true → below b Comment = true) ∧ a.isWhitespace = b.isWhitespace := by
  cases a <;> cases b <;> simp only [SameLeaf] at h
  obtain ⟨_, rfl, _, h⟩ := h
  refine ⟨?_, rfl⟩
  rcases h with rfl | ⟨h, _⟩
  · exact id
  · intro hb
    rcases h with rfl | rfl <;> cases hb

theorem Remark.same {c : Cls} {l l' : List Tok} (h : Remark c l) (hs : SameLeaves (leavesAll l) (leavesAll l')) :
    Remark c l' := by
  intro e
  obtain ⟨x, r, hl, hx, hr⟩ := h e
  rw [hl] at hs
  obtain ⟨x', r', hxx, hrr, e'⟩ := List.forall₂_cons_left_iff.1 hs
  refine ⟨x', r', e', hxx.remark.1 hx, ?_⟩
  clear hs e' hl
  induction hrr with
  | nil => intro y hy; cases hy
  | cons hab _ ih =>
    intro y hy
    rcases List.mem_cons.1 hy with rfl | hy
    · exact (hr _ (List.mem_cons_self ..)).imp hab.remark.1 fun hw => hab.remark.2 ▸ hw
    · exact ih (fun z hz => hr z (List.mem_cons_of_mem _ hz)) y hy

theorem Grown.remark {o : Option Cls} {c : Cls} {l l' : List Tok} {n n' : Nat} (g : Grown o l l' n n') (h : Remark c l) :
    Remark c l' := h.same g.same

/-- A group has no type or that of an operator (grouping.py 261), a group made by grouping has
tokens, and a comment has comments and blanks only. -/
def Sound (c : Cls) (ty : Option TType) (l : List Tok) : Prop :=
  (ty = none ∨ ty = some Operator) ∧ (l ≠ [] ∨ c = .statement) ∧ Remark c l

/-- A class that neither is that of comments nor extends them. -/
def NoRemark (c : Cls) : Prop := c ≠ .comment ∧ c ≠ .tokenList

theorem groupTokens_sound {l : List Tok} {c : Cls} {a b : Nat} {extend : Bool} {n : Nat}
    {l' : List Tok} {g : Tok} {n' : Nat} (h : groupTokens l c a b extend n = .ok (l', g, n'))
    (hl : EveryAll Sound l) (hc : NoRemark c)
    (hab : a < b ∨ (extend = true ∧ ∃ u, l[a]? = some u ∧ u.isInst c = true)) : EveryAll Sound l' := by
  unfold groupTokens at h
  split at h
  · cases h
  · rename_i s hs
    have ha := (List.getElem?_eq_some_iff.1 hs).1
    split at h
    · rename_i i m t v
      simp only [Except.ok.injEq, Prod.mk.injEq] at h
      obtain ⟨rfl, _, _⟩ := h
      refine every_made hl ⟨.inl rfl, .inl (slice_ne ha ?_), .other hc.1⟩
      rcases hab with h | ⟨_, u, hu, hi⟩
      · exact h
      · rw [hs] at hu
        cases hu
        simp [Tok.isInst] at hi
    · rename_i i d t ks
      have hmem := (everyAll_iff l).1 hl _ (List.mem_of_getElem? hs)
      split at h
      · rename_i hi
        simp only [Except.ok.injEq, Prod.mk.injEq] at h
        obtain ⟨rfl, _, _⟩ := h
        rw [everyAll_append]
        refine ⟨every_take hl a, ⟨⟨hmem.1.1, ?_, .other ?_⟩, ?_⟩, every_drop hl _⟩
        · rcases hmem.1.2.1 with h | h
          · exact .inl (by simp [h])
          · exact .inr h
        · rintro rfl
          have := hi.2
          simp only [Tok.isInst, Bool.or_eq_true, beq_iff_eq] at this
          exact this.elim hc.2 fun e => hc.1 e.symm
        · rw [everyAll_append]
          exact ⟨hmem.2, every_slice hl _ _⟩
      · rename_i hne
        simp only [Except.ok.injEq, Prod.mk.injEq] at h
        obtain ⟨rfl, _, _⟩ := h
        refine every_made hl ⟨.inl rfl, .inl (slice_ne ha ?_), .other hc.1⟩
        rcases hab with h | ⟨he, u, hu, hi⟩
        · exact h
        · rw [hs] at hu
          cases hu
          exact absurd ⟨he, hi⟩ hne

theorem put_sound {c : Cls} {extend : Bool} {l : List Tok} {a e k n : Nat} {l' : List Tok} {k' n' : Nat}
    (h : put c extend l a e k n = .ok (l', k', n')) (hl : EveryAll Sound l) (ha : a ≤ e) (hc : NoRemark c) : EveryAll Sound l' := by
  unfold put at h
  split at h
  · cases h
  · rename_i l1 g n1 hg
    simp only [Except.ok.injEq, Prod.mk.injEq] at h
    obtain ⟨rfl, _, _⟩ := h
    exact groupTokens_sound hg hl hc (.inl (by omega))

theorem headsAll_ne {l : List Tok} (h : l ≠ []) : headsAll l ≠ [] := by
  cases l with
  | nil => exact absurd rfl h
  | cons t r =>
    rw [headsAll]
    cases t <;> simp [heads]

theorem Grown.ne {c : Option Cls} {l l' : List Tok} {n n' : Nat} (h : Grown c l l' n n') (hl : l ≠ []) : l' ≠ [] := by
  rintro rfl
  obtain ⟨a, ha, _⟩ := h.heads
  have := ha.length_eq
  rw [List.length_append] at this
  simp only [headsAll, List.length_nil] at this
  exact headsAll_ne hl (List.eq_nil_of_length_eq_zero (by omega))

theorem tokAt_every {P : Cls → Option TType → List Tok → Prop} {w : List Nat} {l : List Tok} {u : Tok}
    (h : tokAt w l = some u) (hl : EveryAll P l) : Every P u :=
  setAt_ind (motive := fun a _ => EveryAll P a → Every P u) (t := u) (new := u)
    (fun _ _ hw => ((everyAll_append _ _).1 hw).2.1)
    (fun _ _ _ _ _ _ _ ih hw => ih ((everyAll_append _ _).1 hw).2.1.2) w l h hl

theorem setAt_sound {o : Option Cls} {t new : Tok} {n n' : Nat} (hn : Every Sound new) (hgr : Grown o [t] [new] n n') {w : List Nat} {l : List Tok} (hw : tokAt w l = some t)
    (hl : EveryAll Sound l) : EveryAll Sound (setAt new w l) := by
  have key : (l.length = (setAt new w l).length ∧ SameLeaves (leavesAll l) (leavesAll (setAt new w l))) ∧
      (EveryAll Sound l → EveryAll Sound (setAt new w l)) :=
    setAt_ind (motive := fun a b => (a.length = b.length ∧ SameLeaves (leavesAll a) (leavesAll b)) ∧
        (EveryAll Sound a → EveryAll Sound b)) (t := t) (new := new)
      (fun pre post => ⟨⟨by simp, (hgr.replace pre post).same⟩, fun h => by
        rw [everyAll_append] at h ⊢
        exact ⟨h.1, hn, h.2.2⟩⟩)
      (fun pre i d ty ks ks' post ih => ⟨⟨by simp, by
        simp only [leavesAll_append, leavesAll, leaves]
        exact same_append (leavesAll_refl _) (same_append ih.1.2 (leavesAll_refl _))⟩, fun h => by
        rw [everyAll_append] at h ⊢
        refine ⟨h.1, ⟨⟨h.2.1.1.1, ?_, h.2.1.1.2.2.same ih.1.2⟩, ih.2 h.2.1.2⟩, h.2.2⟩
        rcases h.2.1.1.2.1 with h' | h'
        · left
          rintro rfl
          exact h' (List.eq_nil_of_length_eq_zero ih.1.1)
        · exact .inr h'⟩) w l hw
  exact key.2 hl

end EulerDB.Group
