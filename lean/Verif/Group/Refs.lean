/-
References: the place of the token with an identity, and what a change at a place does.
-/
import Verif.Group.Keeps

namespace EulerDB.Group

open EulerDB.Lex

/-- No identity twice, and all below the next free one. -/
structure Wf (l : List Tok) (n : Nat) : Prop where
  nodup : ((headsAll l).map Prod.fst).Nodup
  lt : ∀ x ∈ headsAll l, x.1 < n

theorem Grown.wf {c : Option Cls} {l l' : List Tok} {n n' : Nat} (h : Grown c l l' n n') (w : Wf l n) :
    Wf l' n' := by
  obtain ⟨a, ha, hb, _⟩ := h.heads
  constructor
  · have e := ha.map Prod.fst
    rw [e.nodup_iff, List.map_append, hb, List.nodup_append]
    refine ⟨w.nodup, List.nodup_range', ?_⟩
    intro x hx y hy hxy
    subst hxy
    obtain ⟨z, hz, rfl⟩ := List.mem_map.1 hx
    have := w.lt z hz
    rw [List.mem_range'_1] at hy
    omega
  · intro x hx
    rcases List.mem_append.1 (ha.mem_iff.1 hx) with hx | hx
    · exact Nat.lt_of_lt_of_le (w.lt x hx) h.le
    · have : x.1 ∈ a.map Prod.fst := List.mem_map_of_mem hx
      rw [hb, List.mem_range'_1] at this
      have := h.le
      omega

theorem Grown.mem {c : Option Cls} {l l' : List Tok} {n n' : Nat} (h : Grown c l l' n n')
    {x : Nat × Option Cls} (hx : x ∈ headsAll l) : x ∈ headsAll l' := by
  obtain ⟨a, ha, _, _⟩ := h.heads
  exact ha.mem_iff.2 (List.mem_append_left _ hx)

theorem heads_self (t : Tok) : (t.id, t.cls?) ∈ heads t := by
  cases t <;> simp [heads, Tok.id, Tok.cls?]

theorem mem_headsAll {t : Tok} {l : List Tok} (h : t ∈ l) {x : Nat × Option Cls} (hx : x ∈ heads t) :
    x ∈ headsAll l := by
  obtain ⟨a, b, rfl⟩ := List.append_of_mem h
  rw [headsAll_append, headsAll]
  exact List.mem_append_right _ (List.mem_append_left _ hx)

theorem exists_of_headsAll {x : Nat × Option Cls} : ∀ {l : List Tok}, x ∈ headsAll l → ∃ t ∈ l, x ∈ heads t
  | [], h => by simp [headsAll] at h
  | t :: r, h => by
    rw [headsAll] at h
    rcases List.mem_append.1 h with h | h
    · exact ⟨t, List.mem_cons_self .., h⟩
    · obtain ⟨u, hu, hx⟩ := exists_of_headsAll h
      exact ⟨u, List.mem_cons_of_mem _ hu, hx⟩

theorem Wf.left {a b : List Tok} {n : Nat} (h : Wf (a ++ b) n) : Wf a n := by
  have e := h.nodup
  rw [headsAll_append, List.map_append] at e
  exact ⟨(List.nodup_append.1 e).1, fun x hx => h.lt x (by rw [headsAll_append]; exact List.mem_append_left _ hx)⟩

theorem Wf.right {a b : List Tok} {n : Nat} (h : Wf (a ++ b) n) : Wf b n := by
  have e := h.nodup
  rw [headsAll_append, List.map_append] at e
  exact ⟨(List.nodup_append.1 e).2.1, fun x hx => h.lt x (by rw [headsAll_append]; exact List.mem_append_right _ hx)⟩

theorem Wf.disjoint {a b : List Tok} {n : Nat} (h : Wf (a ++ b) n) {x y : Nat × Option Cls}
    (hx : x ∈ headsAll a) (hy : y ∈ headsAll b) : x.1 ≠ y.1 := by
  have e := h.nodup
  rw [headsAll_append, List.map_append] at e
  exact (List.nodup_append.1 e).2.2 _ (List.mem_map_of_mem hx) _ (List.mem_map_of_mem hy)

theorem Wf.child {i : Nat} {c : Cls} {ty : Option TType} {ks : List Tok} {n : Nat}
    (h : Wf [.grp i c ty ks] n) : Wf ks n := by
  have e := h.nodup
  simp only [headsAll, heads, List.append_nil, List.map_cons, List.nodup_cons] at e
  exact ⟨e.2, fun x hx => h.lt x (by simp [headsAll, heads, hx])⟩

theorem Wf.one {l : List Tok} {n : Nat} (h : Wf l n) {t : Tok} (ht : t ∈ l) : Wf [t] n := by
  obtain ⟨a, b, rfl⟩ := List.append_of_mem ht
  have : Wf ([t] ++ b) n := h.right
  exact this.left

/-- Equal identities, equal classes. -/
theorem Wf.cls {l : List Tok} {n : Nat} (h : Wf l n) {i : Nat} {c d : Option Cls} (hc : (i, c) ∈ headsAll l)
    (hd : (i, d) ∈ headsAll l) : c = d := by
  have e := h.nodup
  clear h
  generalize headsAll l = hs at *
  induction hs with
  | nil => cases hc
  | cons x r ih =>
    rw [List.map_cons, List.nodup_cons] at e
    rcases List.mem_cons.1 hc with rfl | hc'
    · rcases List.mem_cons.1 hd with hd | hd
      · exact (Prod.mk.inj hd).2.symm
      · exact absurd (List.mem_map_of_mem (f := Prod.fst) hd) e.1
    · rcases List.mem_cons.1 hd with rfl | hd
      · exact absurd (List.mem_map_of_mem (f := Prod.fst) hc') e.1
      · exact ih hc' hd e.2

/-! ### The place of a token -/

/-- A change at a place changes one token of the list, or the tokens below one. -/
theorem setAt_ind {motive : List Tok → List Tok → Prop} {t new : Tok}
    (here : ∀ pre post, motive (pre ++ t :: post) (pre ++ new :: post))
    (deep : ∀ pre i c ty ks ks' post, motive ks ks' →
      motive (pre ++ .grp i c ty ks :: post) (pre ++ .grp i c ty ks' :: post)) :
    ∀ (w : List Nat) (l : List Tok), tokAt w l = some t → motive l (setAt new w l)
  | [], l, h => by simp [tokAt] at h
  | [k], l, h => by
    have h' : l[k]? = some t := h
    obtain ⟨hk, e⟩ := List.getElem?_eq_some_iff.1 h'
    have e1 : l = l.take k ++ t :: l.drop (k + 1) := by
      conv => lhs; rw [← List.take_append_drop k l, List.drop_eq_getElem_cons hk, e]
    have e2 : setAt new [k] l = l.take k ++ new :: l.drop (k + 1) := by
      show l.set k new = _
      rw [List.set_eq_take_append_cons_drop, if_pos hk]
    rw [e2]
    conv => arg 1; rw [e1]
    exact here _ _
  | k :: k2 :: w, l, h => by
    cases hk : l[k]? with
    | none => simp [tokAt, hk] at h
    | some g =>
      obtain ⟨hlt, e⟩ := List.getElem?_eq_some_iff.1 hk
      have h' : tokAt (k2 :: w) g.toks = some t := by simpa [tokAt, hk] using h
      cases g with
      | leaf => cases w <;> simp [Tok.toks, tokAt] at h'
      | grp i c ty ks =>
        have ih := setAt_ind here deep (k2 :: w) ks h'
        have e1 : l = l.take k ++ .grp i c ty ks :: l.drop (k + 1) := by
          conv => lhs; rw [← List.take_append_drop k l, List.drop_eq_getElem_cons hlt, e]
        have e2 : setAt new (k :: k2 :: w) l =
            l.take k ++ .grp i c ty (setAt new (k2 :: w) ks) :: l.drop (k + 1) := by
          simp only [setAt, hk]
          rw [List.set_eq_take_append_cons_drop, if_pos hlt]
        rw [e2]
        conv => arg 1; rw [e1]
        exact deep _ _ _ _ _ _ _ ih

/-- A token that grows at its place makes the list grow. -/
theorem setAt_grown {c : Option Cls} {t new : Tok} {n n' : Nat} (h : Grown c [t] [new] n n') {w : List Nat}
    {l : List Tok} (hw : tokAt w l = some t) : Grown c l (setAt new w l) n n' :=
  setAt_ind (motive := fun a b => Grown c a b n n') (fun pre post => h.replace pre post)
    (fun pre i d ty _ _ post ih => (ih.inside i d ty ty).replace pre post) w l hw

mutual
theorem findTok_none {i : Nat} : ∀ {t : Tok}, findTok i t = none → ∀ c, (i, c) ∉ heads t
  | .leaf j _ _ _, h, c => by
    simp only [findTok] at h
    split at h
    · cases h
    · rename_i hj
      simp only [heads, List.mem_singleton, Prod.mk.injEq, not_and]
      intro e
      exact absurd e.symm hj
  | .grp j d _ l, h, c => by
    simp only [findTok] at h
    split at h
    · cases h
    · rename_i hj
      simp only [heads, List.mem_cons, Prod.mk.injEq, not_or, not_and]
      exact ⟨fun e => absurd e.symm hj, findAll_none h c⟩
theorem findAll_none {i : Nat} : ∀ {l : List Tok} {k : Nat}, findAll i l k = none → ∀ c, (i, c) ∉ headsAll l
  | [], _, _, c => by simp [headsAll]
  | t :: r, k, h, c => by
    simp only [findAll] at h
    split at h
    · cases h
    · rename_i h1
      rw [headsAll, List.mem_append, not_or]
      exact ⟨findTok_none h1 c, findAll_none h c⟩
end

mutual
/-- The place found is that of a token with the identity. -/
theorem findTok_some {i : Nat} : ∀ {t : Tok} {w : List Nat}, findTok i t = some w →
    (w = [] ∧ t.id = i) ∨ (w ≠ [] ∧ t.isGroup = true ∧ ∃ u, tokAt w t.toks = some u ∧ u.id = i ∧
      (u.id, u.cls?) ∈ headsAll t.toks)
  | .leaf j _ _ _, w, h => by
    simp only [findTok] at h
    split at h
    · cases h; exact .inl ⟨rfl, by assumption⟩
    · cases h
  | .grp j d _ l, w, h => by
    simp only [findTok] at h
    split at h
    · cases h; exact .inl ⟨rfl, by assumption⟩
    · obtain ⟨m, w', u, rfl, hu, hid, hm⟩ := findAll_some h
      refine .inr ⟨by simp, rfl, u, ?_, hid, hm⟩
      rw [Nat.zero_add]; exact hu
theorem findAll_some {i : Nat} : ∀ {l : List Tok} {k : Nat} {w : List Nat}, findAll i l k = some w →
    ∃ m w' u, w = (k + m) :: w' ∧ tokAt (m :: w') l = some u ∧ u.id = i ∧ (u.id, u.cls?) ∈ headsAll l
  | [], _, w, h => by simp [findAll] at h
  | t :: r, k, w, h => by
    simp only [findAll] at h
    split at h
    · rename_i w1 h1
      cases h
      rcases findTok_some h1 with ⟨rfl, hid⟩ | ⟨hne, hg, u, hu, hid, hm⟩
      · exact ⟨0, [], t, rfl, rfl, hid, by rw [headsAll]; exact List.mem_append_left _ (heads_self t)⟩
      · refine ⟨0, w1, u, rfl, ?_, hid, ?_⟩
        · cases w1 with
          | nil => exact absurd rfl hne
          | cons a b => simpa [tokAt] using hu
        · rw [headsAll]
          cases t with
          | leaf => simp [Tok.isGroup] at hg
          | grp => exact List.mem_append_left _ (List.mem_cons_of_mem _ hm)
    · obtain ⟨m, w', u, rfl, hu, hid, hm⟩ := findAll_some h
      refine ⟨m + 1, w', u, by congr 1; omega, ?_, hid, by rw [headsAll]; exact List.mem_append_right _ hm⟩
      cases w' with
      | nil => simpa [tokAt] using hu
      | cons a b => simpa [tokAt] using hu
end

/-- A reference to a token of the list can be followed. -/
theorem deref_ok {l : List Tok} {i : Nat} {c : Option Cls} (h : (i, c) ∈ headsAll l) :
    ∃ w t, deref l i = .ok (w, t) ∧ tokAt w l = some t ∧ t.id = i ∧ (t.id, t.cls?) ∈ headsAll l := by
  unfold deref
  cases hf : findAll i l 0 with
  | none => exact absurd h (findAll_none hf c)
  | some w =>
    obtain ⟨m, w', u, rfl, hu, hid, hm⟩ := findAll_some hf
    rw [Nat.zero_add] at *
    simp only [hu]
    exact ⟨_, _, rfl, hu, hid, hm⟩

theorem deref_spec {l : List Tok} {i : Nat} {w : List Nat} {t : Tok} (h : deref l i = .ok (w, t)) :
    tokAt w l = some t := by
  unfold deref at h
  split at h
  · cases h
  · split at h
    · cases h
    · rename_i hu
      simp only [Except.ok.injEq, Prod.mk.injEq] at h
      obtain ⟨rfl, rfl⟩ := h
      exact hu

/-- Where the token that has the identity is in the list: in the part it belongs to. -/
theorem findAll_part {i : Nat} {c : Option Cls} : ∀ {pre : List Tok} {t : Tok} {post : List Tok} {k : Nat},
    (∀ c, (i, c) ∉ headsAll pre) → (i, c) ∈ heads t →
    ∃ w, findTok i t = some w ∧ findAll i (pre ++ t :: post) k = some ((k + pre.length) :: w)
  | [], t, post, k, hp, ht => by
    cases hf : findTok i t with
    | none => exact absurd ht (findTok_none hf c)
    | some w => exact ⟨w, rfl, by simp [findAll, hf]⟩
  | u :: pre, t, post, k, hp, ht => by
    have hu : findTok i u = none := by
      cases hf : findTok i u with
      | none => rfl
      | some w =>
        exfalso
        have : ∃ d, (i, d) ∈ heads u := by
          rcases findTok_some hf with ⟨_, hid⟩ | ⟨_, hg, x, _, hid, hm⟩
          · exact ⟨_, hid ▸ heads_self u⟩
          · cases u with
            | leaf => simp [Tok.isGroup] at hg
            | grp => exact ⟨_, hid ▸ List.mem_cons_of_mem _ hm⟩
        obtain ⟨d, hd⟩ := this
        exact hp d (by rw [headsAll]; exact List.mem_append_left _ hd)
    obtain ⟨w, h1, h2⟩ := findAll_part (pre := pre) (t := t) (post := post) (k := k + 1)
      (fun c hc => hp c (by rw [headsAll]; exact List.mem_append_right _ hc)) ht
    refine ⟨w, h1, ?_⟩
    rw [List.cons_append, findAll, hu, h2]
    simp only [List.length_cons, Option.some.injEq, List.cons.injEq, and_true]
    omega

theorem Wf.before {pre : List Tok} {t : Tok} {post : List Tok} {n : Nat} (h : Wf (pre ++ t :: post) n)
    {i : Nat} {c : Option Cls} (hi : (i, c) ∈ heads t) : ∀ d, (i, d) ∉ headsAll pre := by
  intro d hd
  refine h.disjoint hd (y := (i, c)) ?_ rfl
  rw [headsAll]
  exact List.mem_append_left _ hi

/-- Following a reference to a token of the part `t`, and changing the token there, changes
that part only. -/
theorem deref_part {pre : List Tok} {t : Tok} {post : List Tok} {n : Nat} (h : Wf (pre ++ t :: post) n)
    {i : Nat} {c : Option Cls} (hi : (i, c) ∈ heads t) :
    ∃ w u, deref (pre ++ t :: post) i = .ok (w, u) ∧ tokAt w (pre ++ t :: post) = some u ∧ u.id = i ∧
      u.cls? = c ∧ (u.id, u.cls?) ∈ heads t ∧
      (t.id = i → u = t) ∧
      ∀ {d : Option Cls} {new : Tok} {n n' : Nat}, Grown d [u] [new] n n' → new.id = u.id → new.cls? = u.cls? →
        ∃ t', setAt new w (pre ++ t :: post) = pre ++ t' :: post ∧ Grown d [t] [t'] n n' ∧
          t'.id = t.id ∧ t'.cls? = t.cls? := by
  obtain ⟨w, h1, h2⟩ := findAll_part (post := post) (k := 0) (h.before hi) hi
  have hm : (i, c) ∈ headsAll (pre ++ t :: post) := by
    rw [headsAll_append, headsAll]
    exact List.mem_append_right _ (List.mem_append_left _ hi)
  obtain ⟨w0, u, hd, hw, hid, hmu⟩ := deref_ok hm
  have hw0 : w0 = pre.length :: w := by
    unfold deref at hd
    rw [h2] at hd
    simp only [Nat.zero_add] at hd
    split at hd
    · cases hd
    · simp only [Except.ok.injEq, Prod.mk.injEq] at hd
      exact hd.1.symm
  subst hw0
  have hget : (pre ++ t :: post)[pre.length]? = some t := by simp
  have hc : u.cls? = c := h.cls (i := i) (hid ▸ hmu) hm
  have hut : (u.id, u.cls?) ∈ heads t := by rw [hid, hc]; exact hi
  refine ⟨_, u, hd, hw, hid, hc, hut, ?_, ?_⟩
  · intro ht
    have : w = [] := by
      cases t with
      | leaf j m ty v =>
        have : j = i := ht
        simp only [findTok, if_pos this, Option.some.injEq] at h1
        exact h1.symm
      | grp j d ty l =>
        have : j = i := ht
        simp only [findTok, if_pos this, Option.some.injEq] at h1
        exact h1.symm
    subst this
    have : tokAt [pre.length] (pre ++ t :: post) = some t := hget
    rw [this] at hw
    exact (Option.some.inj hw).symm
  · intro d new n1 n2 hg hi1 hi2
    cases w with
    | nil =>
      have e : tokAt [pre.length] (pre ++ t :: post) = some t := hget
      rw [e] at hw
      cases hw
      refine ⟨new, ?_, hg, hi1, hi2⟩
      show (pre ++ t :: post).set pre.length new = _
      simp
    | cons k w =>
      cases t with
      | leaf j m ty v => simp only [findTok] at h1; split at h1 <;> cases h1
      | grp j e ty ks =>
        have hw' : tokAt (k :: w) ks = some u := by simpa [tokAt, hget, Tok.toks] using hw
        refine ⟨.grp j e ty (setAt new (k :: w) ks), ?_, (setAt_grown hg hw').inside _ _ _ _, rfl, rfl⟩
        simp only [setAt, hget]
        simp

end EulerDB.Group
