/-
Grouping keeps the leaves of a statement, and every token it had.
-/
import Verif.Group.Model
import Mathlib.Data.List.Forall2
import Mathlib.Data.List.Perm.Basic

namespace EulerDB.Group

open EulerDB.Lex

/-- Identity and class of a token; no class for a leaf. -/
def Tok.cls? : Tok → Option Cls
  | .leaf .. => none
  | .grp _ c _ _ => some c

mutual
/-- Identities and classes of all tokens of a tree. -/
def heads : Tok → List (Nat × Option Cls)
  | .leaf i _ _ _ => [(i, none)]
  | .grp i c _ l => (i, some c) :: headsAll l
def headsAll : List Tok → List (Nat × Option Cls)
  | [] => []
  | t :: r => heads t ++ headsAll r
end

theorem leavesAll_append (a b : List Tok) : leavesAll (a ++ b) = leavesAll a ++ leavesAll b := by
  induction a with
  | nil => simp [leavesAll]
  | cons t r ih => simp [leavesAll, ih]

theorem headsAll_append (a b : List Tok) : headsAll (a ++ b) = headsAll a ++ headsAll b := by
  induction a with
  | nil => simp [headsAll]
  | cons t r ih => simp [headsAll, ih]

/-- The same leaf; its type may have become `Operator` from `Wildcard`, grouping.py 261. -/
def SameLeaf (a b : Tok) : Prop :=
  match a, b with
  | .leaf i m t v, .leaf i' m' t' v' =>
    i = i' ∧ m = m' ∧ v = v' ∧ (t = t' ∨ ((t = Operator ∨ t = Wildcard) ∧ t' = Operator))
  | _, _ => False

theorem SameLeaf.trans {a b c : Tok} (h : SameLeaf a b) (g : SameLeaf b c) : SameLeaf a c := by
  cases a <;> cases b <;> cases c <;> simp only [SameLeaf] at h g ⊢
  obtain ⟨rfl, rfl, rfl, h⟩ := h
  obtain ⟨rfl, rfl, rfl, g⟩ := g
  refine ⟨rfl, rfl, rfl, ?_⟩
  rcases h with rfl | ⟨h, rfl⟩
  · exact g
  · rcases g with rfl | ⟨_, rfl⟩
    · exact .inr ⟨h, rfl⟩
    · exact .inr ⟨h, rfl⟩

/-- The same leaves in the same order. -/
abbrev SameLeaves (a b : List Tok) : Prop := List.Forall₂ SameLeaf a b

mutual
theorem leaves_refl : ∀ t : Tok, SameLeaves (leaves t) (leaves t)
  | .leaf i m t v => by simp [leaves, SameLeaf]
  | .grp _ _ _ l => by simpa [leaves] using leavesAll_refl l
theorem leavesAll_refl : ∀ l : List Tok, SameLeaves (leavesAll l) (leavesAll l)
  | [] => by simp [leavesAll]
  | t :: r => by
    simp only [leavesAll]
    exact List.rel_append (leaves_refl t) (leavesAll_refl r)
end

theorem same_append {a b c d : List Tok} (h : SameLeaves a b) (g : SameLeaves c d) :
    SameLeaves (a ++ c) (b ++ d) := List.rel_append h g

theorem same_trans {a b c : List Tok} (h : SameLeaves a b) (g : SameLeaves b c) : SameLeaves a c := by
  induction h generalizing c with
  | nil => cases g; exact .nil
  | cons h _ ih => cases g with | cons g gs => exact .cons (h.trans g) (ih gs)

/-- What a step of grouping does to the tokens `l`, the first free identity being `n` before and
`n'` after it: the leaves stay, no token is lost or doubled, and the new groups have the class `c`
and the free identities.  Without a class, no new group is a statement. -/
structure Grown (c : Option Cls) (l l' : List Tok) (n n' : Nat) : Prop where
  le : n ≤ n'
  same : SameLeaves (leavesAll l) (leavesAll l')
  heads : ∃ new : List (Nat × Option Cls), (headsAll l').Perm (headsAll l ++ new) ∧
    new.map Prod.fst = List.range' n (n' - n) ∧ ∀ x ∈ new, if c = none then x.2 ≠ some .statement else x.2 = c

theorem Grown.refl (c : Option Cls) (l : List Tok) (n : Nat) : Grown c l l n n :=
  ⟨Nat.le_refl _, leavesAll_refl l, [], by simp, by simp, by simp⟩

theorem Grown.trans {c : Option Cls} {l l' l'' : List Tok} {n n' n'' : Nat} (h : Grown c l l' n n')
    (g : Grown c l' l'' n' n'') : Grown c l l'' n n'' := by
  obtain ⟨a, ha, hb, hc⟩ := h.heads
  obtain ⟨b, ga, gb, gc⟩ := g.heads
  refine ⟨Nat.le_trans h.le g.le, same_trans h.same g.same, a ++ b, ?_, ?_, ?_⟩
  · rw [← List.append_assoc]
    exact ga.trans (ha.append_right b)
  · rw [List.map_append, hb, gb]
    have h1 := h.le
    have h2 := g.le
    have e := List.range'_append_1 (s := n) (m := n' - n) (n := n'' - n')
    rw [Nat.add_sub_cancel' h1] at e
    rw [e]
    congr 1
    omega
  · intro x hx
    rcases List.mem_append.1 hx with hx | hx
    · exact hc x hx
    · exact gc x hx

theorem Grown.weak {c : Cls} {l l' : List Tok} {n n' : Nat} (h : Grown (some c) l l' n n')
    (hc : c ≠ .statement := by decide) : Grown none l l' n n' := by
  obtain ⟨a, ha, hb, hd⟩ := h.heads
  refine ⟨h.le, h.same, a, ha, hb, fun x hx => ?_⟩
  have := hd x hx
  rw [if_neg (by simp)] at this
  rw [if_pos rfl, this]
  exact fun he => hc (Option.some.inj he)

theorem Grown.around {c : Option Cls} {l l' : List Tok} {n n' : Nat} (h : Grown c l l' n n')
    (pre post : List Tok) : Grown c (pre ++ l ++ post) (pre ++ l' ++ post) n n' := by
  obtain ⟨a, ha, hb, hc⟩ := h.heads
  refine ⟨h.le, ?_, a, ?_, hb, hc⟩
  · rw [leavesAll_append, leavesAll_append, leavesAll_append, leavesAll_append]
    exact same_append (same_append (leavesAll_refl _) h.same) (leavesAll_refl _)
  · rw [headsAll_append, headsAll_append, headsAll_append, headsAll_append]
    refine (List.Perm.append_right _ (List.Perm.append_left _ ha)).trans ?_
    rw [← List.append_assoc, List.append_assoc, List.append_assoc _ _ a]
    exact List.Perm.append_left _ List.perm_append_comm

theorem Grown.inside {c : Option Cls} {l l' : List Tok} {n n' : Nat} (h : Grown c l l' n n')
    (i : Nat) (d : Cls) (t t' : Option TType) : Grown c [.grp i d t l] [.grp i d t' l'] n n' := by
  obtain ⟨a, ha, hb, hc⟩ := h.heads
  refine ⟨h.le, ?_, a, ?_, hb, hc⟩
  · simpa [leavesAll, leaves] using h.same
  · simpa [headsAll, Group.heads] using ha

/-- One group put in the place of another: the tokens below it have grown. -/
theorem Grown.replace {c : Option Cls} {t t' : Tok} {n n' : Nat} (h : Grown c [t] [t'] n n')
    (pre post : List Tok) : Grown c (pre ++ t :: post) (pre ++ t' :: post) n n' := by
  have := h.around pre post
  simpa using this

theorem take_slice_drop (l : List Tok) (a b : Nat) (_ : a ≤ l.length) :
    l = l.take a ++ (slice l a b ++ l.drop (max a b)) := by
  unfold slice
  rcases Nat.le_total a b with hab | hab
  · rw [Nat.max_eq_right hab, ← List.append_assoc]
    have : l.take a ++ (l.take b).drop a = l.take b := by
      have e : l.take a = (l.take b).take a := by rw [List.take_take, Nat.min_eq_left hab]
      rw [e, List.take_append_drop]
    rw [this, List.take_append_drop]
  · rw [Nat.max_eq_left hab]
    have : (l.take b).drop a = [] := List.drop_eq_nil_of_le (by rw [List.length_take]; omega)
    rw [this, List.nil_append, List.take_append_drop]

/-- `group_tokens` makes a group of some tokens that follow each other, or adds the tokens that
follow a group to it. -/
theorem groupTokens_cases {l : List Tok} {c : Cls} {a b : Nat} {extend : Bool} {n : Nat}
    {l' : List Tok} {g : Tok} {n' : Nat} (h : groupTokens l c a b extend n = .ok (l', g, n')) :
    (a < l.length ∧ n' = n + 1 ∧ g = .grp n c none (slice l a b) ∧
      l = l.take a ++ (slice l a b ++ l.drop (max a b)) ∧ l' = l.take a ++ g :: l.drop (max a b)) ∨
    (∃ i d t ks, a < l.length ∧ n' = n ∧ l[a]? = some (.grp i d t ks) ∧ (Tok.grp i d t ks).isInst c = true ∧
      extend = true ∧ g = .grp i d t (ks ++ slice l (a + 1) b) ∧
      l = l.take a ++ (.grp i d t ks :: (slice l (a + 1) b ++ l.drop (max (a + 1) b))) ∧
      l' = l.take a ++ g :: l.drop (max (a + 1) b)) := by
  unfold groupTokens at h
  cases hs : l[a]? with
  | none => simp [hs] at h
  | some s =>
    have ha : a < l.length := (List.getElem?_eq_some_iff.1 hs).1
    cases s with
    | leaf i m t v =>
      simp only [hs, Except.ok.injEq, Prod.mk.injEq] at h
      obtain ⟨rfl, rfl, rfl⟩ := h
      exact .inl ⟨ha, rfl, rfl, take_slice_drop l a b (Nat.le_of_lt ha), rfl⟩
    | grp i d t ks =>
      simp only [hs] at h
      split at h
      · rename_i he
        simp only [Except.ok.injEq, Prod.mk.injEq] at h
        obtain ⟨rfl, rfl, rfl⟩ := h
        refine .inr ⟨i, d, t, ks, ha, rfl, rfl, he.2, he.1, rfl, ?_, rfl⟩
        have e := take_slice_drop l (a + 1) b ha
        have e2 : l.take (a + 1) = l.take a ++ [.grp i d t ks] := by
          rw [List.take_add_one, hs]; rfl
        rw [e2, List.append_assoc, List.singleton_append] at e
        exact e
      · simp only [Except.ok.injEq, Prod.mk.injEq] at h
        obtain ⟨rfl, rfl, rfl⟩ := h
        exact .inl ⟨ha, rfl, rfl, take_slice_drop l a b (Nat.le_of_lt ha), rfl⟩

theorem groupTokens_grown {l : List Tok} {c : Cls} {a b : Nat} {extend : Bool} {n : Nat}
    {l' : List Tok} {g : Tok} {n' : Nat} (h : groupTokens l c a b extend n = .ok (l', g, n')) :
    Grown (some c) l l' n n' := by
  rcases groupTokens_cases h with ⟨_, rfl, rfl, e, rfl⟩ | ⟨i, d, t, ks, _, rfl, _, _, _, rfl, e, rfl⟩
  · refine ⟨Nat.le_succ n, ?_, [(n, some c)], ?_, ?_, ?_⟩
    · conv => lhs; rw [e]
      simp only [leavesAll_append, leavesAll, leaves]
      exact same_append (leavesAll_refl _) (same_append (leavesAll_refl _) (leavesAll_refl _))
    · conv => rhs; rw [e]
      simp only [headsAll_append, headsAll, heads, List.append_assoc]
      refine List.Perm.append_left _ ?_
      rw [List.cons_append, ← List.append_assoc]
      exact (List.perm_append_singleton _ _).symm
    · simp
    · simp
  · refine ⟨Nat.le_refl _, ?_, [], ?_, by simp, by simp⟩
    · conv => lhs; rw [e]
      simp only [leavesAll_append, leavesAll, leaves, List.append_assoc]
      exact same_append (leavesAll_refl _) (same_append (leavesAll_refl _) (same_append (leavesAll_refl _)
        (leavesAll_refl _)))
    · conv => rhs; rw [e]
      simp [headsAll_append, headsAll, heads]

/-! ### Functions with `recurse` -/

theorem put_grown {c : Cls} {extend : Bool} {l : List Tok} {a e k n : Nat} {l' : List Tok} {k' n' : Nat}
    (h : put c extend l a e k n = .ok (l', k', n')) : Grown (some c) l l' n n' := by
  unfold put at h
  split at h
  · cases h
  · rename_i l1 g n1 hg
    simp only [Except.ok.injEq, Prod.mk.injEq] at h
    obtain ⟨rfl, _, rfl⟩ := h
    exact groupTokens_grown hg

/-- A step that keeps the tokens. -/
def StepGrows (step : List Tok → Nat → Nat → Except PyErr (List Tok × Nat × Nat)) : Prop :=
  ∀ l i n l' i' n', step l i n = .ok (l', i', n') → Grown none l l' n n'

/-- A function over the tokens of a group that keeps them. -/
def FunGrows (f : List Tok → Nat → Except PyErr (List Tok × Nat)) : Prop :=
  ∀ l n l' n', f l n = .ok (l', n') → Grown none l l' n n'

theorem loop_grown {p : Tok → Bool} {step : List Tok → Nat → Nat → Except PyErr (List Tok × Nat × Nat)}
    (hs : StepGrows step) : ∀ (fuel : Nat) (l : List Tok) (start n : Nat) (l' : List Tok) (n' : Nat),
    loop p step fuel l start n = .ok (l', n') → Grown none l l' n n'
  | 0, l, start, n, l', n', h => by simp [loop] at h
  | fuel + 1, l, start, n, l', n', h => by
    rw [loop] at h
    split at h
    · simp only [Except.ok.injEq, Prod.mk.injEq] at h
      obtain ⟨rfl, rfl⟩ := h
      exact .refl _ _ _
    · split at h
      · cases h
      · rename_i l1 i1 n1 h1
        exact (hs _ _ _ _ _ _ h1).trans (loop_grown hs _ _ _ _ _ _ h)

theorem step_or {l : List Tok} {i n : Nat} {l' : List Tok} {i' n' : Nat}
    (h : (Except.ok (l, i, n) : Except PyErr (List Tok × Nat × Nat)) = .ok (l', i', n')) :
    Grown none l l' n n' := by
  simp only [Except.ok.injEq, Prod.mk.injEq] at h
  obtain ⟨rfl, _, rfl⟩ := h
  exact .refl _ _ _

theorem commentStep_grows : StepGrows commentStep := by
  intro l i n l' i' n' h
  unfold commentStep at h
  split at h
  · exact step_or h
  · exact (put_grown h).weak

theorem functionStep_grows : StepGrows functionStep := by
  intro l i n l' i' n' h
  unfold functionStep at h
  split at h
  · exact step_or h
  · split at h
    · exact step_or h
    · split at h
      · exact (put_grown h).weak
      · exact step_or h

theorem whereStep_grows (c : Cls) : StepGrows (whereStep c) := by
  intro l i n l' i' n' h
  unfold whereStep at h
  split at h
  · exact (put_grown h).weak
  · split at h
    · cases h
    · exact (put_grown h).weak

theorem identifierStep_grows : StepGrows identifierStep := fun _ _ _ _ _ _ h => (put_grown h).weak

theorem aliasedStep_grows : StepGrows aliasedStep := by
  intro l i n l' i' n' h
  unfold aliasedStep at h
  split at h
  · exact step_or h
  · split at h
    · exact step_or h
    · split at h
      · exact (put_grown h).weak
      · exact step_or h

theorem alignStep_grows : StepGrows alignStep := by
  intro l i n l' i' n' h
  unfold alignStep at h
  split at h
  · exact step_or h
  · split at h
    · exact step_or h
    · split at h
      · exact (put_grown h).weak
      · exact step_or h

theorem orderStep_grows : StepGrows orderStep := by
  intro l i n l' i' n' h
  unfold orderStep at h
  split at h
  · exact step_or h
  · split at h
    · exact step_or h
    · split at h
      · exact (put_grown h).weak
      · exact step_or h

theorem groupComments_grows (c : Cls) : FunGrows (groupComments c) :=
  fun _ _ _ _ h => loop_grown commentStep_grows _ _ _ _ _ _ h

theorem groupFunctions_grows (c : Cls) : FunGrows (groupFunctions c) := by
  intro l n l' n' h
  unfold groupFunctions at h
  split at h
  · simp only [Except.ok.injEq, Prod.mk.injEq] at h
    obtain ⟨rfl, rfl⟩ := h
    exact .refl _ _ _
  · exact loop_grown functionStep_grows _ _ _ _ _ _ h

theorem groupWhere_grows (c : Cls) : FunGrows (groupWhere c) :=
  fun _ _ _ _ h => loop_grown (whereStep_grows c) _ _ _ _ _ _ h

theorem groupIdentifier_grows (c : Cls) : FunGrows (groupIdentifier c) :=
  fun _ _ _ _ h => loop_grown identifierStep_grows _ _ _ _ _ _ h

theorem groupAliased_grows (c : Cls) : FunGrows (groupAliased c) :=
  fun _ _ _ _ h => loop_grown aliasedStep_grows _ _ _ _ _ _ h

theorem alignComments_grows (c : Cls) : FunGrows (alignComments c) :=
  fun _ _ _ _ h => loop_grown alignStep_grows _ _ _ _ _ _ h

theorem groupOrder_grows : FunGrows groupOrder :=
  fun _ _ _ _ h => loop_grown orderStep_grows _ _ _ _ _ _ h

theorem groupValues_grows : FunGrows groupValues := by
  intro l n l' n' h
  unfold groupValues at h
  split at h
  · simp only [Except.ok.injEq, Prod.mk.injEq] at h
    obtain ⟨rfl, rfl⟩ := h
    exact .refl _ _ _
  · split at h
    · simp only [Except.ok.injEq, Prod.mk.injEq] at h
      obtain ⟨rfl, rfl⟩ := h
      exact .refl _ _ _
    · split at h
      · cases h
      · rename_i l1 i1 n1 h1
        simp only [Except.ok.injEq, Prod.mk.injEq] at h
        obtain ⟨rfl, rfl⟩ := h
        exact (put_grown h1).weak

mutual
theorem recursed_grown {cs : List Cls} {f : Cls → List Tok → Nat → Except PyErr (List Tok × Nat)}
    (hf : ∀ c, FunGrows (f c)) : ∀ (t : Tok) (n : Nat) (t' : Tok) (n' : Nat),
    recursed cs f t n = .ok (t', n') → Grown none [t] [t'] n n' ∧ t'.id = t.id ∧ t'.cls? = t.cls?
  | .leaf i m ty v, n, t', n', h => by
    simp only [recursed, Except.ok.injEq, Prod.mk.injEq] at h
    obtain ⟨rfl, rfl⟩ := h
    exact ⟨.refl _ _ _, rfl, rfl⟩
  | .grp i c ty l, n, t', n', h => by
    rw [recursed] at h
    split at h
    · cases h
    · rename_i l1 n1 h1
      split at h
      · cases h
      · rename_i l2 n2 h2
        simp only [Except.ok.injEq, Prod.mk.injEq] at h
        obtain ⟨rfl, rfl⟩ := h
        exact ⟨((recursedAll_grown hf l n l1 n1 h1).trans (hf c _ _ _ _ h2)).inside _ _ _ _, rfl, rfl⟩
theorem recursedAll_grown {cs : List Cls} {f : Cls → List Tok → Nat → Except PyErr (List Tok × Nat)}
    (hf : ∀ c, FunGrows (f c)) : ∀ (l : List Tok) (n : Nat) (l' : List Tok) (n' : Nat),
    recursedAll cs f l n = .ok (l', n') → Grown none l l' n n'
  | [], n, l', n', h => by
    simp only [recursedAll, Except.ok.injEq, Prod.mk.injEq] at h
    obtain ⟨rfl, rfl⟩ := h
    exact .refl _ _ _
  | t :: r, n, l', n', h => by
    rw [recursedAll] at h
    split at h
    · cases h
    · rename_i t1 n1 h1
      split at h
      · cases h
      · rename_i r1 n2 h2
        simp only [Except.ok.injEq, Prod.mk.injEq] at h
        obtain ⟨rfl, rfl⟩ := h
        have g2 := recursedAll_grown hf r n1 r1 n2 h2
        have g1 : Grown none [t] [t1] n n1 := by
          split at h1
          · simp only [Except.ok.injEq, Prod.mk.injEq] at h1
            obtain ⟨rfl, rfl⟩ := h1
            exact .refl _ _ _
          · exact (recursed_grown hf t n t1 n1 h1).1
        have a := g1.replace [] r
        have b := g2.around [t1] []
        simp only [List.nil_append, List.append_nil, List.singleton_append] at a b
        exact a.trans b
end

/-! ### `_group_matching` -/

theorem closeAt_grown {p : Pair} {opens : List Nat} {l : List Tok} {n : Nat} {opens' : List Nat}
    {l' : List Tok} {n' : Nat} (h : closeAt p opens l n = .ok (opens', l', n')) :
    Grown (some p.cls) l l' n n' := by
  unfold closeAt at h
  split at h
  · simp only [Except.ok.injEq, Prod.mk.injEq] at h
    obtain ⟨_, rfl, rfl⟩ := h
    exact .refl _ _ _
  · split at h
    · cases h
    · rename_i d1 g1 n1 h1
      simp only [Except.ok.injEq, Prod.mk.injEq] at h
      obtain ⟨_, rfl, rfl⟩ := h
      exact groupTokens_grown h1

mutual
theorem matching_grown (p : Pair) : ∀ (t : Tok) (n : Nat) (t' : Tok) (n' : Nat),
    matching p t n = .ok (t', n') → Grown (some p.cls) [t] [t'] n n' ∧ t'.id = t.id ∧ t'.cls? = t.cls?
  | .leaf i m ty v, n, t', n', h => by
    simp only [matching, Except.ok.injEq, Prod.mk.injEq] at h
    obtain ⟨rfl, rfl⟩ := h
    exact ⟨.refl _ _ _, rfl, rfl⟩
  | .grp i c ty l, n, t', n', h => by
    rw [matching] at h
    split at h
    · cases h
    · rename_i l1 n1 h1
      simp only [Except.ok.injEq, Prod.mk.injEq] at h
      obtain ⟨rfl, rfl⟩ := h
      have := matchLoop_grown p l [] [] n l1 n1 h1
      exact ⟨this.inside _ _ _ _, rfl, rfl⟩
theorem matchLoop_grown (p : Pair) : ∀ (r : List Tok) (opens : List Nat) (done : List Tok) (n : Nat)
    (l' : List Tok) (n' : Nat), matchLoop p r opens done n = .ok (l', n') →
    Grown (some p.cls) (done ++ r) l' n n'
  | [], opens, done, n, l', n', h => by
    simp only [matchLoop, Except.ok.injEq, Prod.mk.injEq] at h
    obtain ⟨rfl, rfl⟩ := h
    rw [List.append_nil]
    exact .refl _ _ _
  | t :: r, opens, done, n, l', n', h => by
    have e : done ++ t :: r = done ++ [t] ++ r := by simp
    rw [matchLoop] at h
    split at h
    · rw [e]; exact matchLoop_grown p r _ _ _ _ _ h
    · split at h
      · split at h
        · cases h
        · rename_i t1 n1 h1
          have a := ((matching_grown p t n t1 n1 h1).1).replace done r
          have b := matchLoop_grown p r _ _ _ _ _ h
          rw [List.append_assoc, List.singleton_append] at b
          exact a.trans b
      · split at h
        · rw [e]; exact matchLoop_grown p r _ _ _ _ _ h
        · split at h
          · split at h
            · cases h
            · rename_i o1 d1 n1 h1
              have a := (closeAt_grown h1).around [] r
              simp only [List.nil_append] at a
              rw [e]
              exact a.trans (matchLoop_grown p r _ _ _ _ _ h)
          · rw [e]; exact matchLoop_grown p r _ _ _ _ _ h
end

end EulerDB.Group
