/-
`_group` (grouping.py 423-455) keeps the tokens and comes to an end: the passes in which the tokens
joined are next to each other (all but that of assignments).
-/
import Verif.Group.Every

namespace EulerDB.Group

open EulerDB.Lex

/-- The number of groups that are not of the class. -/
def weight (c : Cls) (l : List Tok) : Nat :=
  (headsAll l).countP fun x => x.2.isSome && x.2 != some c

theorem Grown.weight {c : Cls} {l l' : List Tok} {n n' : Nat} (h : Grown (some c) l l' n n') :
    weight c l' = weight c l := by
  obtain ⟨a, ha, _, hc⟩ := h.heads
  unfold Group.weight
  rw [ha.countP_eq, List.countP_append]
  have : a.countP (fun x => x.2.isSome && x.2 != some c) = 0 := by
    rw [List.countP_eq_zero]
    intro x hx
    have h1 := hc x hx
    rw [if_neg (by simp)] at h1
    simp [h1]
  omega

theorem tokAt_wf {w : List Nat} {l : List Tok} {u : Tok} (h : tokAt w l = some u) {n : Nat} (hl : Wf l n) :
    Wf [u] n :=
  setAt_ind (motive := fun a _ => Wf a n → Wf [u] n) (t := u) (new := u)
    (fun _ _ hw => hw.one (List.mem_append_right _ (List.mem_cons_self ..)))
    (fun _ i d ty ks _ _ ih hw =>
      ih (hw.one (t := .grp i d ty ks) (List.mem_append_right _ (List.mem_cons_self ..))).child) w l h hl

theorem tokAt_weight (c : Cls) {w : List Nat} {l : List Tok} {u : Tok} (h : tokAt w l = some u) :
    weight c [u] ≤ weight c l :=
  setAt_ind (motive := fun a _ => weight c [u] ≤ weight c a) (t := u) (new := u)
    (fun pre post => by
      unfold weight
      rw [headsAll_append, headsAll, headsAll, headsAll, List.append_nil, List.countP_append, List.countP_append]
      omega)
    (fun pre i d ty ks _ post ih => by
      unfold weight at *
      rw [headsAll_append, List.countP_append,
        show headsAll (Tok.grp i d ty ks :: post) = (i, some d) :: (headsAll ks ++ headsAll post) from rfl,
        List.countP_cons, List.countP_append]
      omega) w l h

theorem isInst_of_cls {t u : Tok} (h : t.cls? = u.cls?) (c : Cls) : t.isInst c = u.isInst c := by
  cases t <;> cases u <;> simp_all [Tok.cls?, Tok.isInst]

theorem isGroup_of_cls {t u : Tok} (h : t.cls? = u.cls?) : t.isGroup = u.isGroup := by
  cases t <;> cases u <;> simp_all [Tok.cls?, Tok.isGroup]

/-- The call for a token below: it ends and makes the token grow. -/
def RecOk (p : Pass) (f : Nat) (rec : Tok → Nat → Except PyErr (Tok × Nat)) : Prop :=
  ∀ (now : Tok) (n : Nat), now.isGroup = true → now.isInst p.cls = false → Wf [now] n →
    weight p.cls [now] ≤ f → Every Sound now → ∃ now' n', rec now n = .ok (now', n') ∧
      Grown (some p.cls) [now] [now'] n n' ∧ now'.id = now.id ∧ now'.cls? = now.cls? ∧ Every Sound now'

/-- The tokens a pass joins follow each other: from the token before or the token itself, to the
token itself or the next. -/
def Orderly (p : Pass) : Prop :=
  ∀ (l : List Tok) (pi ti : Nat) (ni : Option Nat) (t : Tok), l[ti]? = some t →
    p.validNext (atIdx l ni) = true → (∀ j, ni = some j → j < l.length) →
    ∃ l' a e, p.post l pi ti ni = .ok (l', a, some e) ∧ (a = pi ∨ a = ti) ∧ (e = ti ∨ ni = some e) ∧
      (l' = l ∨ (l' = l.set ti (setType Operator t) ∧ ∀ u, p.fits u = true → among u [Operator, Wildcard] = true))

theorem findFrom_spec {p : Tok → Bool} {l : List Tok} {start j : Nat} (h : findFrom p l start = some j) :
    start ≤ j ∧ ∃ t, l[j]? = some t ∧ p t = true ∧ ∀ k u, start ≤ k → k < j → l[k]? = some u → p u = false := by
  unfold findFrom at h
  split at h
  · cases h
  · rename_i k hk
    cases h
    rw [List.findIdx?_eq_some_iff_getElem] at hk
    obtain ⟨hlt, hp, hb⟩ := hk
    rw [List.length_drop] at hlt
    refine ⟨Nat.le_add_right _ _, l[start + k], List.getElem?_eq_getElem (by omega), ?_, ?_⟩
    · rw [List.getElem_drop] at hp; exact hp
    · intro m u hm hmk hu
      have := hb (m - start) (by omega)
      rw [List.getElem_drop] at this
      obtain ⟨hl, e⟩ := List.getElem?_eq_some_iff.1 hu
      have e2 : start + (m - start) = m := by omega
      simp only [e2] at this
      rw [e] at this
      simpa using this

theorem findFrom_none {p : Tok → Bool} {l : List Tok} {start : Nat} (h : findFrom p l start = none) :
    ∀ k u, start ≤ k → l[k]? = some u → p u = false := by
  unfold findFrom at h
  split at h
  · rename_i hn
    rw [List.findIdx?_eq_none_iff] at hn
    intro k u hk hu
    have : u ∈ l.drop start := by
      rw [List.mem_iff_getElem?]
      exact ⟨k - start, by rw [List.getElem?_drop]; rw [show start + (k - start) = k by omega]; exact hu⟩
    simpa using hn u this
  · cases h

/-- What the loop keeps: the tokens `r` not yet looked at are the end of the list, but for the first
`m` of them, which are in the group made last, at the index `b - 1`. -/
structure Inv (r : List Tok) (idx : Nat) (s : Run) : Prop where
  wf : Wf s.toks s.next
  sound : EveryAll Sound s.toks
  place : ∃ m b : Nat, m ≤ r.length ∧ b ≤ s.toks.length ∧ s.toks.drop b = r.drop m ∧
    (idx : Int) + m = b + s.offset ∧
    (∀ pi pid, s.prev = some (pi, pid) → pi < b ∧ ∃ c, (pid, c) ∈ headsAll s.toks) ∧
    (0 < m → 0 < b ∧ (∀ x ∈ r.take (m - 1), x.isWhitespace = true) ∧
      ∃ g nt, s.toks[b - 1]? = some g ∧ r[m - 1]? = some nt ∧ (nt.id, nt.cls?) ∈ heads g)

/-- The state in which the token `t` is looked at: it is at the index `k`, or in the group there. -/
structure At (t : Tok) (r : List Tok) (idx k : Nat) (s : Run) : Prop where
  wf : Wf s.toks s.next
  sound : EveryAll Sound s.toks
  index : (idx : Int) = k + s.offset
  rest : s.toks.drop (k + 1) = r
  here : ∃ g, s.toks[k]? = some g ∧ (t.id, t.cls?) ∈ heads g
  prev : ∀ pi pid, s.prev = some (pi, pid) → pi ≤ k ∧ ∃ c, (pid, c) ∈ headsAll s.toks

theorem split_at {l : List Tok} {k : Nat} {g : Tok} (h : l[k]? = some g) :
    l = l.take k ++ g :: l.drop (k + 1) := by
  obtain ⟨hk, e⟩ := List.getElem?_eq_some_iff.1 h
  conv => lhs; rw [← List.take_append_drop k l, List.drop_eq_getElem_cons hk, e]

theorem leavesAll_single (t : Tok) : leavesAll [t] = leaves t := by simp [leavesAll]

/-- `tlist[tidx].ttype = T.Operator` for an operator or a group. -/
theorem setType_grown {t : Tok} (h : t.isGroup = true ∨ among t [Operator, Wildcard] = true) (c : Option Cls) (n : Nat) :
    Grown c [t] [setType Operator t] n n := by
  refine ⟨Nat.le_refl _, ?_, [], ?_, by simp, by simp⟩
  · cases t with
    | leaf i m ty v =>
      simp only [leavesAll, leaves, setType, List.append_nil]
      refine .cons ⟨rfl, rfl, rfl, ?_⟩ .nil
      rcases h with h | h
      · simp [Tok.isGroup] at h
      · simp only [among, Tok.ttype?, List.contains_cons, List.contains_nil, Bool.or_false, Bool.or_eq_true,
          beq_iff_eq] at h
        exact .inr ⟨h, rfl⟩
    | grp i d ty l => simpa [leavesAll, leaves, setType] using leavesAll_refl l
  · cases t <;> simp [headsAll, heads, setType]

theorem setType_head (t : Tok) : (setType Operator t).id = t.id ∧ (setType Operator t).cls? = t.cls? := by
  cases t <;> exact ⟨rfl, rfl⟩

theorem setType_heads (t : Tok) : heads (setType Operator t) = heads t := by
  cases t <;> simp [heads, setType]

/-- Lines 445-455 for a token in place. -/
theorem visit_at {p : Pass} (hnr : NoRemark p.cls) (ho : Orderly p) {t : Tok} {r : List Tok} {idx k : Nat} {s : Run}
    (h : At t r idx k s) : ∃ s', visit p s t.id k = .ok s' ∧ Grown (some p.cls) s.toks s'.toks s.next s'.next ∧
      Inv r (idx + 1) s' := by
  obtain ⟨g, hg, hmem⟩ := h.here
  have hk : k < s.toks.length := (List.getElem?_eq_some_iff.1 hg).1
  have hsplit := split_at hg
  have hwf' : Wf (s.toks.take k ++ g :: s.toks.drop (k + 1)) s.next := hsplit ▸ h.wf
  have hmem' : (t.id, t.cls?) ∈ headsAll s.toks := by
    rw [hsplit, headsAll_append, headsAll]
    exact List.mem_append_right _ (List.mem_append_left _ hmem)
  -- the state when nothing is joined
  have hstay : Inv r (idx + 1) { s with prev := some (k, t.id) } := by
    refine ⟨h.wf, h.sound, 0, k + 1, Nat.zero_le _, hk, by simpa using h.rest, ?_, ?_, by simp⟩
    · have := h.index
      simp only
      omega
    · intro pi pid e
      simp only [Option.some.injEq, Prod.mk.injEq] at e
      obtain ⟨rfl, rfl⟩ := e
      exact ⟨Nat.lt_succ_self _, _, hmem'⟩
  obtain ⟨w, u, hd, hw, hid, hc, hut, hself, _⟩ := deref_part hwf' hmem
  rw [← hsplit] at hd
  unfold visit
  rw [hd]
  simp only
  by_cases hf : p.fits u = true
  swap
  · rw [if_neg hf]
    exact ⟨_, rfl, .refl _ _ _, hstay⟩
  rw [if_pos hf]
  cases hp : s.prev with
  | none => exact ⟨_, rfl, .refl _ _ _, hstay⟩
  | some q =>
    obtain ⟨pi, pid⟩ := q
    obtain ⟨hpk, c, hpm⟩ := h.prev pi pid hp
    obtain ⟨w2, u2, hd2, _, _, _⟩ := deref_ok hpm
    simp only [hd2]
    by_cases hv : (p.validPrev u2 && p.validNext (atIdx s.toks (tokenNext s.toks k))) = true
    swap
    · rw [if_neg hv]
      exact ⟨_, rfl, .refl _ _ _, hstay⟩
    rw [if_pos hv]
    have hvn : p.validNext (atIdx s.toks (tokenNext s.toks k)) = true := by
      rw [Bool.and_eq_true] at hv; exact hv.2
    have hnext : ∀ j, tokenNext s.toks k = some j → k < j ∧ j < s.toks.length ∧
        ∀ i x, k < i → i < j → s.toks[i]? = some x → x.isWhitespace = true := by
      intro j hj
      obtain ⟨h1, x, h2, _, h4⟩ := findFrom_spec hj
      refine ⟨h1, (List.getElem?_eq_some_iff.1 h2).1, ?_⟩
      intro i y hi hij hy
      have := h4 i y hi hij hy
      simpa using this
    obtain ⟨l', a, e, hpost, ha, he, hl'⟩ := ho s.toks pi k (tokenNext s.toks k) g hg hvn
      (fun j hj => (hnext j hj).2.1)
    rw [hpost]
    simp only
    have hak : a ≤ k := by rcases ha with rfl | rfl <;> omega
    have hke : k ≤ e ∧ e < s.toks.length := by
      rcases he with rfl | he
      · exact ⟨Nat.le_refl _, hk⟩
      · exact ⟨Nat.le_of_lt (hnext e he).1, (hnext e he).2.1⟩
    -- the list after `post`
    have hgrow0 : Grown (some p.cls) s.toks l' s.next s.next := by
      rcases hl' with rfl | ⟨rfl, hop⟩
      · exact .refl _ _ _
      · have hgt : g.isGroup = true ∨ among g [Operator, Wildcard] = true := by
          cases g with
          | leaf i m ty v =>
            refine .inr ?_
            have hh : (t.id, t.cls?) ∈ [(i, (none : Option Cls))] := hmem
            have hti : t.id = i := by
              have := List.mem_singleton.1 hh
              exact (Prod.mk.inj this).1
            have : u = .leaf i m ty v := hself hti.symm
            rw [this] at hf
            exact hop _ hf
          | grp => exact .inl rfl
        have e1 : s.toks.set k (setType Operator g) = s.toks.take k ++ setType Operator g :: s.toks.drop (k + 1) := by
          rw [List.set_eq_take_append_cons_drop, if_pos hk]
        rw [e1]
        conv => arg 2; rw [hsplit]
        exact (setType_grown hgt _ _).replace _ _
    have hsound0 : EveryAll Sound l' := by
      rcases hl' with rfl | ⟨rfl, _⟩
      · exact h.sound
      · have e1 : s.toks.set k (setType Operator g) = s.toks.take k ++ setType Operator g :: s.toks.drop (k + 1) := by
          rw [List.set_eq_take_append_cons_drop, if_pos hk]
        have hgs := (everyAll_iff _).1 h.sound g (List.mem_of_getElem? hg)
        rw [e1, everyAll_append]
        refine ⟨every_take h.sound _, ?_, every_drop h.sound _⟩
        cases g with
        | leaf => trivial
        | grp => exact ⟨⟨.inr rfl, hgs.1.2⟩, hgs.2⟩
    have hlen : l'.length = s.toks.length := by
      rcases hl' with rfl | ⟨rfl, _⟩
      · rfl
      · rw [List.length_set]
    have hdrop : ∀ j, k < j → l'.drop j = s.toks.drop j := by
      intro j hj
      rcases hl' with rfl | ⟨rfl, _⟩
      · rfl
      · rw [List.drop_set_of_lt hj]
    have hget : ∀ j, k < j → l'[j]? = s.toks[j]? := by
      intro j hj
      rcases hl' with rfl | ⟨rfl, _⟩
      · rfl
      · rw [List.getElem?_set_ne (by omega)]
    unfold unite
    simp only
    have hgt : ∃ l2 g2 n2, groupTokens l' p.cls a (e + 1) p.extend s.next = .ok (l2, g2, n2) := by
      unfold groupTokens
      have : l'[a]? = some l'[a] := List.getElem?_eq_getElem (by omega)
      rw [this]
      cases l'[a] with
      | leaf => exact ⟨_, _, _, rfl⟩
      | grp =>
        simp only
        split
        · exact ⟨_, _, _, rfl⟩
        · exact ⟨_, _, _, rfl⟩
    obtain ⟨l2, g2, n2, hgr⟩ := hgt
    rw [hgr]
    simp only
    have hgrow := hgrow0.trans (groupTokens_grown hgr)
    refine ⟨_, rfl, hgrow, ?_⟩
    have hshape : l2 = l'.take a ++ g2 :: l'.drop (e + 1) := by
      rcases groupTokens_cases hgr with ⟨_, _, _, _, e2⟩ | ⟨_, _, _, _, _, _, _, _, _, _, _, e2⟩
      · rw [e2, Nat.max_eq_right (by omega)]
      · rw [e2, Nat.max_eq_right (by omega)]
    have hin : ∀ x, k < e → l'[e]? = some x → ∀ y ∈ heads x, y ∈ heads g2 := by
      intro x hke' hx y hy
      rcases groupTokens_cases hgr with ⟨_, _, e2, _, _⟩ | ⟨i, d, ty, ks, _, _, _, _, _, e2, _, _⟩
      · rw [e2, heads]
        refine List.mem_cons_of_mem _ (mem_headsAll (t := x) ?_ hy)
        unfold slice
        rw [List.mem_iff_getElem?]
        exact ⟨e - a, by rw [List.getElem?_drop, show a + (e - a) = e by omega, List.getElem?_take,
          if_pos (Nat.lt_succ_self e), hx]⟩
      · rw [e2, heads, headsAll_append]
        refine List.mem_cons_of_mem _ (List.mem_append_right _ (mem_headsAll (t := x) ?_ hy))
        unfold slice
        rw [List.mem_iff_getElem?]
        exact ⟨e - (a + 1), by rw [List.getElem?_drop, show a + 1 + (e - (a + 1)) = e by omega, List.getElem?_take,
          if_pos (Nat.lt_succ_self e), hx]⟩
    have hl2len : (l'.take a).length = a := by rw [List.length_take]; omega
    refine ⟨hgrow.wf h.wf, groupTokens_sound hgr hsound0 hnr (.inl (by omega)), e - k, a + 1, ?_, ?_, ?_, ?_, ?_, ?_⟩
    · rw [← h.rest, List.length_drop]; omega
    · simp only [hshape, List.length_append, List.length_cons, hl2len]; omega
    · simp only [hshape]
      rw [List.drop_append, hl2len, List.drop_eq_nil_of_le (by omega), List.nil_append,
        show a + 1 - a = 1 by omega, List.drop_one, List.tail_cons, hdrop _ (by omega), ← h.rest, List.drop_drop]
      congr 1
      omega
    · have := h.index
      simp only
      omega
    · intro pi' pid' hpp
      simp only [Option.some.injEq, Prod.mk.injEq] at hpp
      obtain ⟨rfl, rfl⟩ := hpp
      refine ⟨Nat.lt_succ_self _, g2.cls?, ?_⟩
      simp only [hshape, headsAll_append, headsAll]
      exact List.mem_append_right _ (List.mem_append_left _ (heads_self g2))
    · intro hm
      have hek : k < e := by omega
      have hj : tokenNext s.toks k = some e := by
        rcases he with rfl | he
        · omega
        · exact he
      refine ⟨Nat.succ_pos _, ?_, g2, s.toks[e], ?_, ?_, ?_⟩
      · intro x hx
        rw [← h.rest] at hx
        obtain ⟨i, hi⟩ := List.mem_iff_getElem?.1 hx
        rw [List.getElem?_take] at hi
        split at hi
        · rw [List.getElem?_drop] at hi
          exact (hnext e hj).2.2 _ x (by omega) (by omega) hi
        · cases hi
      · simp only [hshape, Nat.add_sub_cancel]
        rw [List.getElem?_append_right (by omega), hl2len, Nat.sub_self]
        rfl
      · rw [← h.rest, List.getElem?_drop, show k + 1 + (e - k - 1) = e by omega]
        exact List.getElem?_eq_getElem hke.2
      · exact hin _ hek (by rw [hget e hek]; exact List.getElem?_eq_getElem hke.2) _ (heads_self _)

theorem passLoop_at {p : Pass} (hnr : NoRemark p.cls) (ho : Orderly p) {f : Nat} {rec : Tok → Nat → Except PyErr (Tok × Nat)}
    (hrec : RecOk p f rec) : ∀ (r : List Tok) (idx : Nat) (s : Run), Inv r idx s → weight p.cls s.toks ≤ f →
    ∃ s', passLoop p rec r idx s = .ok s' ∧ Grown (some p.cls) s.toks s'.toks s.next s'.next ∧
      EveryAll Sound s'.toks
  | [], idx, s, h, _ => ⟨s, rfl, .refl _ _ _, h.sound⟩
  | t :: r, idx, s, h, hf => by
    obtain ⟨m, b, hm, hb, hdrop, hidx, hprev, hcatch⟩ := h.place
    rw [passLoop]
    -- tokens that were taken into the group before they are looked at
    have hskip : 2 ≤ m → t.isWhitespace = true ∧ Inv r (idx + 1) s := by
      intro h2
      obtain ⟨hb0, hws, g, nt, hg, hnt, hmem⟩ := hcatch (by omega)
      obtain ⟨m', rfl⟩ : ∃ m', m = m' + 2 := ⟨m - 2, by omega⟩
      refine ⟨hws t (by simp), h.wf, h.sound, m' + 1, b, ?_, hb, ?_, ?_, hprev, ?_⟩
      · simpa using hm
      · rw [hdrop]; rfl
      · push_cast at hidx ⊢; omega
      · intro _
        refine ⟨hb0, ?_, g, nt, hg, ?_, hmem⟩
        · intro x hx
          exact hws x (by simp only [Nat.add_sub_cancel] at hx; simp; exact .inr hx)
        · simpa using hnt
    by_cases h2 : 2 ≤ m
    · obtain ⟨hw, hi⟩ := hskip h2
      have ih := passLoop_at hnr ho hrec r (idx + 1) s hi hf
      simp only [hw, if_true, ite_self]
      exact ih
    have hnn : ¬ ((idx : Int) - s.offset < 0) := by
      rcases Nat.lt_or_ge 0 m with h0 | h0
      · have := (hcatch h0).1
        omega
      · omega
    rw [if_neg hnn]
    by_cases hw : t.isWhitespace = true
    · rw [if_pos hw]
      -- white space in its place
      rcases Nat.lt_or_ge 0 m with h0 | h0
      · obtain ⟨hb0, hws, g, nt, hg, hnt, hmem⟩ := hcatch h0
        have hm1 : m = 1 := by omega
        subst hm1
        refine passLoop_at hnr ho hrec r (idx + 1) s ⟨h.wf, h.sound, 0, b, Nat.zero_le _, hb, ?_, ?_, hprev, by simp⟩ hf
        · rw [hdrop]; rfl
        · push_cast at hidx ⊢; omega
      · have hm0 : m = 0 := by omega
        subst hm0
        have hbl : b < s.toks.length := by
          have := congrArg List.length hdrop
          simp only [List.length_drop, List.length_cons] at this
          omega
        refine passLoop_at hnr ho hrec r (idx + 1) s ⟨h.wf, h.sound, 0, b + 1, Nat.zero_le _, hbl, ?_, ?_, ?_, by simp⟩ hf
        · rw [← List.drop_drop, hdrop]; rfl
        · push_cast at hidx ⊢; omega
        · intro pi pid hp
          obtain ⟨h1, h3⟩ := hprev pi pid hp
          exact ⟨by omega, h3⟩
    rw [if_neg hw]
    -- the token is at `k`, or in the group at `k`
    have hat : ∃ k : Nat, ((idx : Int) - s.offset).toNat = k ∧ At t r idx k s := by
      rcases Nat.lt_or_ge 0 m with h0 | h0
      · obtain ⟨hb0, hws, g, nt, hg, hnt, hmem⟩ := hcatch h0
        have hm1 : m = 1 := by omega
        subst hm1
        have hnt' : t = nt := by simpa using hnt
        subst hnt'
        refine ⟨b - 1, by omega, h.wf, h.sound, by omega, ?_, ⟨g, hg, hmem⟩, ?_⟩
        · rw [show b - 1 + 1 = b by omega, hdrop]; rfl
        · intro pi pid hp
          obtain ⟨h1, h3⟩ := hprev pi pid hp
          exact ⟨by omega, h3⟩
      · have hm0 : m = 0 := by omega
        subst hm0
        have hdrop' : s.toks.drop b = t :: r := hdrop
        refine ⟨b, by omega, h.wf, h.sound, by omega, ?_, ⟨t, ?_, heads_self t⟩, ?_⟩
        · rw [← List.drop_drop, hdrop']; rfl
        · have := List.getElem?_drop (xs := s.toks) (i := b) (j := 0)
          rw [hdrop'] at this
          simpa using this.symm
        · intro pi pid hp
          obtain ⟨h1, h3⟩ := hprev pi pid hp
          exact ⟨by omega, h3⟩
    obtain ⟨k, hk, hat⟩ := hat
    simp only [hk]
    -- the tokens below the token
    have hdeep : ∃ s1, descend p rec s t = .ok s1 ∧ Grown (some p.cls) s.toks s1.toks s.next s1.next ∧
        At t r idx k s1 := by
      unfold descend
      split
      swap
      · exact ⟨s, rfl, .refl _ _ _, hat⟩
      rename_i hgo
      simp only [Bool.and_eq_true, Bool.not_eq_true'] at hgo
      obtain ⟨g, hg, hmem⟩ := hat.here
      have hsplit := split_at hg
      have hwf' : Wf (s.toks.take k ++ g :: s.toks.drop (k + 1)) s.next := hsplit ▸ h.wf
      obtain ⟨w, u, hd, htok, hid, hc, hut, hself, hset⟩ := deref_part hwf' hmem
      rw [← hsplit] at hd htok hset
      obtain ⟨now', n', hr, hgr, hi1, hi2, hsn⟩ := hrec u s.next
        (by rw [isGroup_of_cls hc]; exact hgo.1.2) (by rw [isInst_of_cls hc]; exact hgo.2)
        (tokAt_wf htok h.wf) (Nat.le_trans (tokAt_weight p.cls htok) hf) (tokAt_every htok h.sound)
      obtain ⟨g', hs', hgg, hg1, hg2⟩ := hset hgr hi1 hi2
      rw [hd]
      simp only [hr]
      have hgrow : Grown (some p.cls) s.toks (setAt now' w s.toks) s.next n' := setAt_grown hgr htok
      have hlenk : (s.toks.take k).length = k := by
        rw [List.length_take]
        have := (List.getElem?_eq_some_iff.1 hg).1
        omega
      refine ⟨_, rfl, hgrow, hgrow.wf h.wf, setAt_sound hsn hgr htok h.sound, hat.index, ?_, ⟨g', ?_, ?_⟩, ?_⟩
      · simp only [hs']
        rw [List.drop_append, hlenk, List.drop_eq_nil_of_le (by omega), List.nil_append,
          show k + 1 - k = 1 by omega]
        exact hat.rest
      · simp only [hs']
        rw [List.getElem?_append_right (by omega), hlenk, Nat.sub_self]
        rfl
      · have : (t.id, t.cls?) ∈ headsAll [g'] := hgg.mem (by simpa [headsAll] using hmem)
        simpa [headsAll] using this
      · intro pi pid hp
        obtain ⟨h1, c, h3⟩ := hat.prev pi pid hp
        exact ⟨h1, c, hgrow.mem h3⟩
    obtain ⟨s1, hs1, hg1, hat1⟩ := hdeep
    rw [hs1]
    simp only
    obtain ⟨s2, hs2, hg2, hi2⟩ := visit_at hnr ho hat1
    rw [hs2]
    simp only
    obtain ⟨s3, hs3, hg3, hso⟩ := passLoop_at hnr ho hrec r (idx + 1) s2 hi2
      (by rw [(hg1.trans hg2).weight]; exact hf)
    exact ⟨s3, hs3, (hg1.trans hg2).trans hg3, hso⟩

/-- The pass ends and makes the token grow, with fuel for every group below that is not of its class. -/
theorem pass_ok {p : Pass} (hc : p.cls ≠ .comment) (ho : Orderly p) (hr : ∀ b, Orderly { p with recurse := b }) :
    ∀ (fuel : Nat) (t : Tok) (n : Nat), t.isInst p.cls = false → Wf [t] n → weight p.cls [t] < fuel →
    Every Sound t → ∃ t' n', pass p fuel t n = .ok (t', n') ∧ Grown (some p.cls) [t] [t'] n n' ∧ t'.id = t.id ∧
      t'.cls? = t.cls? ∧ Every Sound t' := by
  intro fuel
  induction fuel generalizing p with
  | zero => intro t n _ _ h _; omega
  | succ fuel ih =>
    intro t n hi hw hf hs0
    cases t with
    | leaf i m ty v => exact ⟨_, _, rfl, .refl _ _ _, rfl, rfl, trivial⟩
    | grp i c ty l =>
      have hwt : weight p.cls [.grp i c ty l] = weight p.cls l + 1 ∨ p.cls = .tokenList := by
        by_cases hc : p.cls = .tokenList
        · exact .inr hc
        · left
          have hne : c ≠ p.cls := by
            intro e
            simp [Tok.isInst, e] at hi
          unfold weight
          simp [headsAll, heads, hne]
      have hct : p.cls ≠ .tokenList := by
        intro h
        simp [Tok.isInst, h] at hi
      have hwl : weight p.cls l < fuel := by
        rcases hwt with h | h
        · omega
        · simp [Tok.isInst, h] at hi
      have hrec : RecOk p (weight p.cls l) (pass { p with recurse := true } fuel) := by
        intro now n hg hni hwf hwn hsn
        exact ih (p := { p with recurse := true }) hc (hr true) (fun b => hr b) now n hni hwf
          (by show weight p.cls [now] < fuel; omega) hsn
      have hinv : Inv l 0 ⟨l, 0, none, n⟩ :=
        ⟨hw.child, hs0.2, 0, 0, Nat.zero_le _, Nat.zero_le _, rfl, rfl, by simp, by simp⟩
      obtain ⟨s, hs, hg, hso⟩ := passLoop_at ⟨hc, hct⟩ ho hrec l 0 _ hinv (Nat.le_refl _)
      rw [pass, hs]
      exact ⟨_, _, rfl, hg.inside _ _ _ _, rfl, rfl, ⟨hs0.1.1, hs0.1.2.1.imp hg.ne id, hg.remark hs0.1.2.2⟩, hso⟩

end EulerDB.Group
