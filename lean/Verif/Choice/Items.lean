/-
The table of first characters: what its lines are.
-/
import Mathlib.Data.List.Induction
import Mathlib.Data.List.Basic
import Verif.Choice.Model

namespace EulerDB.Choice

open EulerDB

variable {E R : Type}

/-- `expecting` of parsers that name themselves: a dictionary from their keys to themselves. -/
def expectingOf (keys : E → List Key) (o : E) : List (Key × List E) := (keys o).map fun k => (k, [o])

/-! ### Reading `itemsOf` -/

/-- The keys in the order in which they are first met. -/
def order (ps : List (Key × List E)) : List Key :=
  ps.foldl (fun d x => if x.1 ∈ d then d else d ++ [x.1]) []

def valueOf (ps : List (Key × List E)) (k : Key) : List E := ps.flatMap fun x => if x.1 = k then x.2 else []

theorem order_snoc (ps : List (Key × List E)) (x : Key × List E) :
    order (ps ++ [x]) = if x.1 ∈ order ps then order ps else order ps ++ [x.1] := by
  rw [order, List.foldl_append]
  rfl

theorem mem_order {ps : List (Key × List E)} {k : Key} : k ∈ order ps ↔ ∃ x ∈ ps, x.1 = k := by
  induction ps using List.reverseRecOn with
  | nil => simp [order]
  | append_singleton ps x ih =>
    rw [order_snoc]
    split
    · rename_i h
      rw [ih]
      constructor
      · rintro ⟨y, hy, e⟩
        exact ⟨y, by simp [hy], e⟩
      · rintro ⟨y, hy, e⟩
        rcases List.mem_append.1 hy with hy | hy
        · exact ⟨y, hy, e⟩
        · simp only [List.mem_singleton] at hy
          subst hy
          rw [e] at h
          exact ih.1 h
    · rw [List.mem_append, ih]
      simp only [List.mem_singleton, List.mem_append]
      constructor
      · rintro (⟨y, hy, e⟩ | e)
        · exact ⟨y, Or.inl hy, e⟩
        · exact ⟨x, Or.inr rfl, e.symm⟩
      · rintro ⟨y, hy | hy, e⟩
        · exact Or.inl ⟨y, hy, e⟩
        · subst hy; exact Or.inr e.symm

theorem order_nodup (ps : List (Key × List E)) : (order ps).Nodup := by
  induction ps using List.reverseRecOn with
  | nil => simp [order]
  | append_singleton ps x ih =>
    rw [order_snoc]
    split
    · exact ih
    · rename_i h
      rw [List.nodup_append]
      refine ⟨ih, by simp, ?_⟩
      intro a ha b hb
      simp only [List.mem_singleton] at hb
      subst hb
      intro e
      exact h (e ▸ ha)

theorem order_append (ps qs : List (Key × List E)) : ∃ r, order (ps ++ qs) = order ps ++ r := by
  induction qs using List.reverseRecOn with
  | nil => exact ⟨[], by simp⟩
  | append_singleton qs x ih =>
    obtain ⟨r, hr⟩ := ih
    rw [← List.append_assoc, order_snoc]
    split
    · exact ⟨r, hr⟩
    · exact ⟨r ++ [x.1], by rw [hr, List.append_assoc]⟩

theorem valueOf_snoc (ps : List (Key × List E)) (x : Key × List E) (k : Key) :
    valueOf (ps ++ [x]) k = valueOf ps k ++ if x.1 = k then x.2 else [] := by
  simp [valueOf, List.flatMap_append]

theorem valueOf_none {ps : List (Key × List E)} {k : Key} (h : k ∉ order ps) : valueOf ps k = [] := by
  unfold valueOf
  rw [List.flatMap_eq_nil_iff]
  intro x hx
  rw [if_neg]
  intro e
  exact h (mem_order.2 ⟨x, hx, e⟩)

theorem foldl_extend (ps : List (Key × List E)) :
    ps.foldl (fun d x => extend d x.1 x.2) [] = (order ps).map fun k => (k, valueOf ps k) := by
  induction ps using List.reverseRecOn with
  | nil => rfl
  | append_singleton ps x ih =>
    rw [List.foldl_append, ih, order_snoc]
    simp only [List.foldl_cons, List.foldl_nil, extend]
    have ha : ((order ps).map fun k => (k, valueOf ps k)).any (fun y => y.1 == x.1) = decide (x.1 ∈ order ps) := by
      by_cases h : x.1 ∈ order ps
      · simp only [h, decide_true]
        rw [List.any_eq_true]
        exact ⟨_, List.mem_map.2 ⟨x.1, h, rfl⟩, by simp⟩
      · simp only [h, decide_false]
        rw [List.any_eq_false]
        intro y hy
        obtain ⟨k, hk, rfl⟩ := List.mem_map.1 hy
        simp only [beq_iff_eq]
        intro e
        exact h (e ▸ hk)
    rw [ha]
    by_cases h : x.1 ∈ order ps
    · simp only [h, decide_true, if_true, List.map_map]
      apply List.map_congr_left
      intro k _
      simp only [Function.comp, valueOf_snoc, beq_iff_eq]
      by_cases e : k = x.1
      · simp [e]
      · have e' : ¬ x.1 = k := fun h => e h.symm
        simp [e, e']
    · simp only [h, decide_false, if_false, Bool.false_eq_true, List.map_append, List.map_cons, List.map_nil]
      congr 1
      · apply List.map_congr_left
        intro k hk
        have e' : ¬ x.1 = k := fun e => h (e ▸ hk)
        simp [valueOf_snoc, e']
      · rw [valueOf_snoc, valueOf_none h]
        simp

section Keys

variable (keys : E → List Key)

/-- The lines of the expressions, one after the other. -/
def linesOf (exprs : List E) : List (Key × List E) := (exprs.map (expectingOf keys)).flatten

theorem itemsOf_eq (exprs : List E) :
    itemsOf (exprs.map (expectingOf keys)) = (order (linesOf keys exprs)).map fun k => (k, valueOf (linesOf keys exprs) k) :=
  foldl_extend _

theorem linesOf_append (a b : List E) : linesOf keys (a ++ b) = linesOf keys a ++ linesOf keys b := by
  simp [linesOf]

theorem linesOf_cons (a : E) (b : List E) : linesOf keys (a :: b) = expectingOf keys a ++ linesOf keys b := by
  simp [linesOf]

theorem mem_linesOf {exprs : List E} {k : Key} : k ∈ order (linesOf keys exprs) ↔ ∃ o ∈ exprs, k ∈ keys o := by
  rw [mem_order]
  constructor
  · rintro ⟨x, hx, rfl⟩
    simp only [linesOf, List.mem_flatten, List.mem_map] at hx
    obtain ⟨_, ⟨o, ho, rfl⟩, hx⟩ := hx
    obtain ⟨k, hk, rfl⟩ := List.mem_map.1 hx
    exact ⟨o, ho, hk⟩
  · rintro ⟨o, ho, hk⟩
    refine ⟨(k, [o]), ?_, rfl⟩
    simp only [linesOf, List.mem_flatten, List.mem_map]
    exact ⟨_, ⟨o, ho, rfl⟩, List.mem_map.2 ⟨k, hk, rfl⟩⟩

theorem valueOf_append (a b : List (Key × List E)) (k : Key) : valueOf (a ++ b) k = valueOf a k ++ valueOf b k := by
  simp [valueOf]

theorem valueOf_expecting {o : E} (h : (keys o).Nodup) (k : Key) :
    valueOf (expectingOf keys o) k = if k ∈ keys o then [o] else [] := by
  unfold expectingOf valueOf
  generalize keys o = ks at h
  induction ks with
  | nil => simp
  | cons j js ih =>
    obtain ⟨hj, hn⟩ := List.nodup_cons.1 h
    rw [List.map_cons, List.flatMap_cons, ih hn]
    by_cases e : j = k
    · subst e
      simp [hj]
    · have e' : ¬ k = j := fun h => e h.symm
      simp [e, e']

theorem valueOf_lines {exprs : List E} (h : ∀ o ∈ exprs, (keys o).Nodup) (k : Key) :
    valueOf (linesOf keys exprs) k = exprs.filter fun o => decide (k ∈ keys o) := by
  induction exprs with
  | nil => rfl
  | cons o r ih =>
    rw [linesOf_cons, valueOf_append, ih fun o ho => h o (by simp [ho]), valueOf_expecting keys (h o (by simp))]
    by_cases e : k ∈ keys o <;> simp [e]

end Keys

/-! ### Reading `compact` -/

theorem isPrefix_iff {a b : Key} : a.isPrefixOf b = true ↔ a <+: b := List.isPrefixOf_iff_prefix

theorem shortest_spec (items : List (Key × List E)) (k : Key) :
    shortest items k <+: k ∧
      (shortest items k = k ∨ ∃ x ∈ items, x.2 ≠ [] ∧ x.1 = shortest items k) ∧
      ∀ x ∈ items, x.2 ≠ [] → x.1 <+: shortest items k → x.1 = shortest items k := by
  unfold shortest
  induction items generalizing k with
  | nil => exact ⟨List.prefix_rfl, Or.inl rfl, by simp⟩
  | cons y r ih =>
    rw [List.foldl_cons]
    by_cases h : y.2 ≠ [] ∧ y.1 <+: k
    · have hc : (!y.2.isEmpty && y.1.isPrefixOf k) = true := by
        simp only [Bool.and_eq_true, Bool.not_eq_true', isPrefix_iff]
        exact ⟨by simpa using h.1, h.2⟩
      rw [if_pos hc]
      obtain ⟨h1, h2, h3⟩ := ih y.1
      refine ⟨h1.trans h.2, ?_, ?_⟩
      · rcases h2 with h2 | ⟨x, hx, hn, e⟩
        · exact Or.inr ⟨y, by simp, h.1, h2.symm⟩
        · exact Or.inr ⟨x, by simp [hx], hn, e⟩
      · intro x hx hn hp
        rcases List.mem_cons.1 hx with rfl | hx
        · exact hp.eq_of_length_le h1.length_le
        · exact h3 x hx hn hp
    · have hc : ¬ (!y.2.isEmpty && y.1.isPrefixOf k) = true := by
        simp only [Bool.and_eq_true, Bool.not_eq_true', isPrefix_iff]
        rintro ⟨a, b⟩
        exact h ⟨by simpa using a, b⟩
      rw [if_neg hc]
      obtain ⟨h1, h2, h3⟩ := ih k
      refine ⟨h1, ?_, ?_⟩
      · rcases h2 with h2 | ⟨x, hx, hn, e⟩
        · exact Or.inl h2
        · exact Or.inr ⟨x, by simp [hx], hn, e⟩
      · intro x hx hn hp
        rcases List.mem_cons.1 hx with rfl | hx
        · exact absurd ⟨hn, hp.trans h1⟩ h
        · exact h3 x hx hn hp

/-- The lines whose keys begin with one of the keys `M` are empty. -/
def clearedBy (M : List Key) (items : List (Key × List E)) : List (Key × List E) :=
  items.map fun x => if ∃ m ∈ M, m <+: x.1 then (x.1, []) else x

theorem mem_clearedBy {M : List Key} {items : List (Key × List E)} {x : Key × List E} (hx : x ∈ clearedBy M items) (hn : x.2 ≠ []) :
    x ∈ items ∧ ¬ ∃ m ∈ M, m <+: x.1 := by
  obtain ⟨y, hy, rfl⟩ := List.mem_map.1 hx
  by_cases h : ∃ m ∈ M, m <+: y.1
  · rw [if_pos h] at hn
    exact absurd rfl hn
  · rw [if_neg h]
    exact ⟨hy, h⟩

theorem cleared_clearedBy (M : List Key) (items : List (Key × List E)) (m : Key) :
    cleared (clearedBy M items) m = clearedBy (m :: M) items := by
  unfold cleared clearedBy
  rw [List.map_map]
  apply List.map_congr_left
  intro x _
  simp only [Function.comp, isPrefix_iff, List.mem_cons, exists_eq_or_imp]
  by_cases h : ∃ m ∈ M, m <+: x.1 <;> by_cases h' : m <+: x.1 <;> simp [h, h']

/-- The keys of the table that begin with no other. -/
def Minimal (items : List (Key × List E)) (m : Key) : Prop :=
  (∃ x ∈ items, x.1 = m) ∧ ∀ x ∈ items, x.1 <+: m → x.1 = m

theorem Minimal.eq {items : List (Key × List E)} {m m' k : Key} (h : Minimal items m) (h' : Minimal items m') (hp : m <+: k) (hp' : m' <+: k) :
    m = m' := by
  obtain ⟨⟨x, hx, rfl⟩, h2⟩ := h
  obtain ⟨⟨y, hy, rfl⟩, h2'⟩ := h'
  rcases List.prefix_or_prefix_of_prefix hp hp' with e | e
  · exact h2' x hx e
  · exact (h2 y hy e).symm

theorem compactFrom_spec (items : List (Key × List E)) (hne : ∀ x ∈ items, x.2 ≠ []) (ks : List Key) (hk : ∀ k ∈ ks, ∃ x ∈ items, x.1 = k)
    (M : List Key) (hM : ∀ m ∈ M, Minimal items m) :
    (∀ y ∈ compactFrom ks (clearedBy M items), Minimal items y.1 ∧ y.1 ∉ M ∧ y.2 = taken items y.1) ∧
      ((compactFrom ks (clearedBy M items)).map Prod.fst).Nodup ∧
      ∀ k ∈ ks, ∃ m, m <+: k ∧ (m ∈ M ∨ m ∈ (compactFrom ks (clearedBy M items)).map Prod.fst) := by
  induction ks generalizing M with
  | nil => simp [compactFrom]
  | cons k ks ih =>
    have hks : ∀ k ∈ ks, ∃ x ∈ items, x.1 = k := fun j hj => hk j (by simp [hj])
    obtain ⟨s1, s2, s3⟩ := shortest_spec (clearedBy M items) k
    generalize hm : shortest (clearedBy M items) k = m at s1 s2 s3
    rw [compactFrom]
    simp only [hm]
    by_cases hc : ∃ m0 ∈ M, m0 <+: k
    · -- nothing is left of this key
      obtain ⟨m0, hm0, hp0⟩ := hc
      have hmk : m0 <+: m := by
        rcases s2 with e | ⟨x, hx, hn, e⟩
        · rw [e]; exact hp0
        · obtain ⟨hx', hno⟩ := mem_clearedBy hx hn
          exfalso
          have hxk : x.1 <+: k := e ▸ s1
          rcases List.prefix_or_prefix_of_prefix hp0 hxk with h | h
          · exact hno ⟨m0, hm0, h⟩
          · have := (hM m0 hm0).2 x hx' h
            exact hno ⟨m0, hm0, this ▸ List.prefix_rfl⟩
      have ht : taken (clearedBy M items) m = [] := by
        unfold taken
        rw [List.flatMap_eq_nil_iff]
        intro x hx
        by_cases hp : m <+: x.1
        · rw [if_pos (isPrefix_iff.2 hp)]
          by_contra hn
          exact (mem_clearedBy hx hn).2 ⟨m0, hm0, hmk.trans hp⟩
        · rw [if_neg (by rw [isPrefix_iff]; exact hp)]
      have hcl : cleared (clearedBy M items) m = clearedBy M items := by
        rw [cleared_clearedBy]
        unfold clearedBy
        apply List.map_congr_left
        intro x _
        by_cases h : ∃ m ∈ M, m <+: x.1
        · have h' : ∃ j ∈ m :: M, j <+: x.1 := by
            obtain ⟨j, hj, hp⟩ := h
            exact ⟨j, by simp [hj], hp⟩
          rw [if_pos h, if_pos h']
        · have h' : ¬ ∃ j ∈ m :: M, j <+: x.1 := by
            rintro ⟨j, hj, hp⟩
            rcases List.mem_cons.1 hj with rfl | hj
            · exact h ⟨m0, hm0, hmk.trans hp⟩
            · exact h ⟨j, hj, hp⟩
          rw [if_neg h, if_neg h']
      rw [ht, hcl]
      simp only [List.isEmpty_nil, if_true]
      obtain ⟨i1, i2, i3⟩ := ih hks M hM
      refine ⟨i1, i2, ?_⟩
      intro j hj
      rcases List.mem_cons.1 hj with rfl | hj
      · exact ⟨m0, hp0, Or.inl hm0⟩
      · exact i3 j hj
    · -- the line of the shortest key
      have hun : ∀ x ∈ items, x.1 <+: k → x ∈ clearedBy M items := by
        intro x hx hp
        refine List.mem_map.2 ⟨x, hx, ?_⟩
        rw [if_neg]
        rintro ⟨j, hj, hpj⟩
        exact hc ⟨j, hj, hpj.trans hp⟩
      have hmin : Minimal items m := by
        constructor
        · rcases s2 with e | ⟨x, hx, hn, e⟩
          · rw [e]; exact hk k (by simp)
          · exact ⟨x, (mem_clearedBy hx hn).1, e⟩
        · intro x hx hp
          exact s3 x (hun x hx (hp.trans s1)) (hne x hx) hp
      have hnM : m ∉ M := fun h => hc ⟨m, h, s1⟩
      have ht : taken (clearedBy M items) m = taken items m := by
        unfold taken clearedBy
        rw [List.flatMap_map]
        refine List.flatMap_congr ?_
        intro x hx
        by_cases hp : m <+: x.1
        · have h : ¬ ∃ m ∈ M, m <+: x.1 := by
            rintro ⟨j, hj, hpj⟩
            exact hnM ((hmin.eq (hM j hj) hp hpj) ▸ hj)
          rw [if_neg h]
        · by_cases h : ∃ m ∈ M, m <+: x.1
          · rw [if_pos h]
            have : ¬ m.isPrefixOf x.1 = true := by rw [isPrefix_iff]; exact hp
            simp [this]
          · rw [if_neg h]
      have hte : (taken items m).isEmpty = false := by
        obtain ⟨x, hx, e⟩ := hmin.1
        rw [← Bool.not_eq_true, List.isEmpty_iff]
        unfold taken
        rw [List.flatMap_eq_nil_iff]
        intro h
        have := h x hx
        rw [if_pos (by rw [isPrefix_iff, e]; exact List.prefix_rfl)] at this
        exact hne x hx this
      rw [ht, hte, cleared_clearedBy]
      simp only [Bool.false_eq_true, if_false]
      have hM' : ∀ j ∈ m :: M, Minimal items j := by
        intro j hj
        rcases List.mem_cons.1 hj with rfl | hj
        · exact hmin
        · exact hM j hj
      obtain ⟨i1, i2, i3⟩ := ih hks (m :: M) hM'
      refine ⟨?_, ?_, ?_⟩
      · intro y hy
        rcases List.mem_cons.1 hy with rfl | hy
        · exact ⟨hmin, hnM, rfl⟩
        · obtain ⟨a, b, c⟩ := i1 y hy
          exact ⟨a, fun h => b (by simp [h]), c⟩
      · rw [List.map_cons, List.nodup_cons]
        refine ⟨?_, i2⟩
        intro h
        obtain ⟨y, hy, e⟩ := List.mem_map.1 h
        exact (i1 y hy).2.1 (by simp [e])
      · intro j hj
        rcases List.mem_cons.1 hj with rfl | hj
        · exact ⟨m, s1, Or.inr (by simp)⟩
        · obtain ⟨i, hp, h⟩ := i3 j hj
          refine ⟨i, hp, ?_⟩
          rcases h with h | h
          · rcases List.mem_cons.1 h with rfl | h
            · exact Or.inr (by simp)
            · exact Or.inl h
          · exact Or.inr (by simp only [List.map_cons, List.mem_cons]; exact Or.inr h)

/-- The lines of the compact table: one for each key that begins with no other, with the parsers of all the keys that begin with it. -/
theorem compact_spec (items : List (Key × List E)) (hne : ∀ x ∈ items, x.2 ≠ []) :
    (∀ y ∈ compact items, Minimal items y.1 ∧ y.2 = taken items y.1) ∧ ((compact items).map Prod.fst).Nodup ∧
      ∀ x ∈ items, ∃ y ∈ compact items, y.1 <+: x.1 := by
  have h0 : clearedBy [] items = items := by
    unfold clearedBy
    simp
  obtain ⟨i1, i2, i3⟩ := compactFrom_spec items hne (items.map Prod.fst) (fun k hk => by
    obtain ⟨x, hx, e⟩ := List.mem_map.1 hk
    exact ⟨x, hx, e⟩) [] (by simp)
  rw [h0] at i1 i2 i3
  refine ⟨fun y hy => ⟨(i1 y hy).1, (i1 y hy).2.2⟩, i2, ?_⟩
  intro x hx
  obtain ⟨m, hp, h⟩ := i3 x.1 (List.mem_map.2 ⟨x, hx, rfl⟩)
  rcases h with h | h
  · cases h
  · obtain ⟨y, hy, e⟩ := List.mem_map.1 h
    exact ⟨y, hy, e ▸ hp⟩

end EulerDB.Choice
