/-
The table of first characters: which line a text finds.
-/
import Mathlib.Data.List.Nodup
import Verif.Choice.Items

namespace EulerDB.Choice

open EulerDB

variable {E R : Type}

/-- A character that the table can hold: it is lower case, and its capital comes back to it. -/
def FitChar (cs : Casing) (c : Char) : Prop := cs.lc c = [c] ∧ ∃ u, cs.uc c = [u] ∧ cs.lc u = [c]

/-- A key of such characters. -/
def Fit (cs : Casing) (k : Key) : Prop := ∀ c ∈ k, FitChar cs c

theorem Fit.of_prefix {cs : Casing} {j k : Key} (h : Fit cs k) (hp : j <+: k) : Fit cs j :=
  fun c hc => h c (hp.subset hc)

theorem Fit.low_length {cs : Casing} {k : Key} (h : Fit cs k) : (cs.low k).length = k.length ∧ (cs.up k).length = k.length := by
  induction k with
  | nil => exact ⟨rfl, rfl⟩
  | cons c k ih =>
    obtain ⟨h1, u, h2, _⟩ := h c (by simp)
    obtain ⟨i1, i2⟩ := ih fun d hd => h d (by simp [hd])
    simp only [Casing.low, Casing.up] at i1 i2 ⊢
    simp [h1, h2, i1, i2]

theorem pattern_length {cs : Casing} {k : Key} (h : Fit cs k) : (pattern cs k).length = k.length := by
  obtain ⟨i1, i2⟩ := h.low_length
  simp [pattern, i1, i2]

theorem pattern_append {cs : Casing} {j : Key} (h : Fit cs j) (r : Key) : pattern cs (j ++ r) = pattern cs j ++ pattern cs r := by
  obtain ⟨i1, i2⟩ := h.low_length
  unfold pattern Casing.low Casing.up at *
  rw [List.flatMap_append, List.flatMap_append, List.zip_append (by rw [i1, i2])]

theorem matches_append {p q : List (Char × Char)} {t : List Char} (h : matches' (p ++ q) t = true) : matches' p t = true := by
  induction p generalizing t with
  | nil => rfl
  | cons x p ih =>
    cases t with
    | nil => exact h
    | cons c t =>
      simp only [List.cons_append, matches', Bool.and_eq_true] at h ⊢
      exact ⟨h.1, ih h.2⟩

theorem matches_prefix {cs : Casing} {j k : Key} {t : List Char} (h : Fit cs k) (hp : j <+: k) (hm : matches' (pattern cs k) t = true) :
    matches' (pattern cs j) t = true := by
  obtain ⟨r, rfl⟩ := hp
  rw [pattern_append (h.of_prefix (List.prefix_append j r))] at hm
  exact matches_append hm

theorem low_take {cs : Casing} {k : Key} {t : List Char} (h : Fit cs k) (hm : matches' (pattern cs k) t = true) : cs.low (t.take k.length) = k := by
  induction k generalizing t with
  | nil => simp [Casing.low]
  | cons c k ih =>
    obtain ⟨h1, u, h2, h3⟩ := h c (by simp)
    have hk : Fit cs k := fun d hd => h d (by simp [hd])
    have hp : pattern cs (c :: k) = (c, u) :: pattern cs k := by
      simp [pattern, Casing.low, Casing.up, h1, h2]
    rw [hp] at hm
    cases t with
    | nil => exact absurd hm (by simp [matches'])
    | cons d t =>
      simp only [matches', Bool.and_eq_true, Bool.or_eq_true, beq_iff_eq] at hm
      have hd : cs.lc d = [c] := by
        rcases hm.1 with e | e
        · rw [e, h1]
        · rw [e, h3]
      have := ih hk hm.2
      simp only [Casing.low] at this
      simp [Casing.low, hd, this]

/-- Two keys of the table that match the same text: one begins with the other. -/
theorem comparable {cs : Casing} {j k : Key} {t : List Char} (hj : Fit cs j) (hk : Fit cs k) (mj : matches' (pattern cs j) t = true)
    (mk : matches' (pattern cs k) t = true) : j <+: k ∨ k <+: j := by
  have key : ∀ {j k : Key}, cs.low (t.take j.length) = j → cs.low (t.take k.length) = k → j.length ≤ k.length → j <+: k := by
    intro j k ej ek hl
    have : t.take j.length <+: t.take k.length := List.take_prefix_take_left hl
    obtain ⟨r, hr⟩ := this
    refine ⟨cs.low r, ?_⟩
    conv => rhs; rw [← ek]
    rw [← hr]
    simp only [Casing.low] at ej ⊢
    rw [List.flatMap_append, ej]
  rcases Nat.le_total j.length k.length with h | h
  · exact Or.inl (key (low_take hj mj) (low_take hk mk) h)
  · exact Or.inr (key (low_take hk mk) (low_take hj mj) h)

/-! ### Keys cut short -/

theorem distinct_comm (a b : Key) : distinct a b = distinct b a := by
  induction a generalizing b with
  | nil => cases b <;> rfl
  | cons x a ih =>
    cases b with
    | nil => rfl
    | cons y b =>
      simp only [distinct]
      by_cases h : x = y
      · subst h; simp [ih]
      · rw [if_neg h, if_neg (fun e => h e.symm)]

theorem one_le_distinct (a b : Key) : 1 ≤ distinct a b := by
  unfold distinct
  split
  · split <;> omega
  · exact Nat.le_refl 1

/-- The shortened keys are still apart. -/
theorem distinct_spec {a b : Key} (h1 : ¬ a <+: b) (h2 : ¬ b <+: a) {n n' : Nat} (hn : distinct a b ≤ n) (hn' : distinct a b ≤ n') :
    ¬ a.take n <+: b.take n' := by
  induction a generalizing b n n' with
  | nil => exact absurd (List.nil_prefix) h1
  | cons x a ih =>
    cases b with
    | nil => exact absurd (List.nil_prefix) h2
    | cons y b =>
      have o := one_le_distinct (x :: a) (y :: b)
      obtain ⟨m, rfl⟩ : ∃ m, n = m + 1 := ⟨n - 1, by omega⟩
      obtain ⟨m', rfl⟩ : ∃ m, n' = m + 1 := ⟨n' - 1, by omega⟩
      rw [List.take_succ_cons, List.take_succ_cons, List.cons_prefix_cons]
      rintro ⟨rfl, hp⟩
      simp only [distinct, if_true] at hn hn'
      refine ih (fun h => h1 ?_) (fun h => h2 ?_) (by omega) (by omega) hp
      · exact List.cons_prefix_cons.2 ⟨rfl, h⟩
      · exact List.cons_prefix_cons.2 ⟨rfl, h⟩

theorem maxOf_foldl (l : List Nat) (m : Nat) :
    ∃ n, l.foldl (fun m n => some (match m with | none => n | some m => max m n)) (some m) = some n ∧ (n = m ∨ n ∈ l) ∧ m ≤ n ∧ ∀ x ∈ l, x ≤ n := by
  induction l generalizing m with
  | nil => exact ⟨m, rfl, Or.inl rfl, Nat.le_refl m, by simp⟩
  | cons y l ih =>
    obtain ⟨n, e, h1, h2, h3⟩ := ih (max m y)
    refine ⟨n, e, ?_, by omega, ?_⟩
    · rcases h1 with h1 | h1
      · by_cases h : m ≤ y
        · right; rw [h1, Nat.max_eq_right h]; simp
        · left; rw [h1, Nat.max_eq_left (by omega)]
      · right; simp [h1]
    · intro x hx
      rcases List.mem_cons.1 hx with rfl | hx
      · omega
      · exact h3 x hx

theorem maxOf_cons (y : Nat) (l : List Nat) : ∃ n, maxOf (y :: l) = some n ∧ n ∈ y :: l ∧ ∀ x ∈ y :: l, x ≤ n := by
  obtain ⟨n, e, h1, h2, h3⟩ := maxOf_foldl l y
  refine ⟨n, e, by rw [List.mem_cons]; exact h1, ?_⟩
  intro x hx
  rcases List.mem_cons.1 hx with rfl | hx
  · exact h2
  · exact h3 x hx

theorem maxOf_some {l : List Nat} {n : Nat} (h : maxOf l = some n) : n ∈ l ∧ ∀ x ∈ l, x ≤ n := by
  cases l with
  | nil => cases h
  | cons y l =>
    obtain ⟨n', e, h1, h2⟩ := maxOf_cons y l
    rw [h] at e
    cases e
    exact ⟨h1, h2⟩

/-- Only the members count. -/
theorem maxOf_congr {l l' : List Nat} (h : ∀ n, n ∈ l ↔ n ∈ l') : maxOf l = maxOf l' := by
  cases l with
  | nil =>
    cases l' with
    | nil => rfl
    | cons y l' => exact absurd ((h y).2 (by simp)) (by simp)
  | cons y l =>
    cases l' with
    | nil => exact absurd ((h y).1 (by simp)) (by simp)
    | cons y' l' =>
      obtain ⟨n, e, h1, h2⟩ := maxOf_cons y l
      obtain ⟨n', e', h1', h2'⟩ := maxOf_cons y' l'
      rw [e, e']
      have a := h2 n' ((h n').2 h1')
      have b := h2' n ((h n).1 h1)
      rw [Nat.le_antisymm b a]

theorem mapM_except {α β ε : Type} {g : α → Except ε β} : ∀ {l : List α} {r : List β}, l.mapM g = .ok r →
    (∀ a ∈ l, ∃ b ∈ r, g a = .ok b) ∧ ∀ b ∈ r, ∃ a ∈ l, g a = .ok b
  | [], r, h => by
    cases h
    simp
  | a :: l, r, h => by
    rw [List.mapM_cons] at h
    cases ha : g a with
    | error e => rw [ha] at h; cases h
    | ok b =>
      rw [ha] at h
      cases hl : l.mapM g with
      | error e => rw [hl] at h; cases h
      | ok r' =>
        rw [hl] at h
        cases h
        obtain ⟨i1, i2⟩ := mapM_except hl
        constructor
        · intro x hx
          rcases List.mem_cons.1 hx with rfl | hx
          · exact ⟨b, by simp, ha⟩
          · obtain ⟨y, hy, e⟩ := i1 x hx
            exact ⟨y, by simp [hy], e⟩
        · intro y hy
          rcases List.mem_cons.1 hy with rfl | hy
          · exact ⟨a, by simp, ha⟩
          · obtain ⟨x, hx, e⟩ := i2 y hy
            exact ⟨x, by simp [hx], e⟩

theorem mem_insertKey {x y : Key × List E} {l : List (Key × List E)} : y ∈ insertKey x l ↔ y = x ∨ y ∈ l := by
  induction l with
  | nil => simp [insertKey]
  | cons z l ih =>
    rw [insertKey]
    split
    · simp
    · rw [List.mem_cons, ih, List.mem_cons]
      exact ⟨fun h => by rcases h with h | h | h <;> simp [h], fun h => by rcases h with h | h | h <;> simp [h]⟩

theorem mem_sortKeys {y : Key × List E} {l : List (Key × List E)} : y ∈ sortKeys l ↔ y ∈ l := by
  unfold sortKeys
  induction l with
  | nil => rfl
  | cons x l ih => rw [List.foldr_cons, mem_insertKey, ih, List.mem_cons]

/-- How far the key of a line is kept. -/
def cutAt (c : List (Key × List E)) (k : Key) : Nat :=
  (maxOf ((c.filter fun y => y.1 != k).map fun y => distinct k y.1)).getD 0

theorem shorter_spec {c f : List (Key × List E)} (h : shorter c = .ok f) :
    (∀ x ∈ c, (x.1.take (cutAt c x.1), x.2) ∈ f) ∧ (∀ z ∈ f, ∃ x ∈ c, z = (x.1.take (cutAt c x.1), x.2)) ∧
      ∀ x ∈ c, 1 ≤ cutAt c x.1 ∧ ∀ y ∈ c, y.1 ≠ x.1 → distinct x.1 y.1 ≤ cutAt c x.1 := by
  obtain ⟨h1, h2⟩ := mapM_except h
  have hg : ∀ (x : Key × List E) (z : Key × List E),
      (match maxOf ((c.filter fun y => y.1 != x.1).map fun y => distinct x.1 y.1) with
        | none => Except.error PyErr.valueError
        | some n => Except.ok (x.1.take n, x.2)) = Except.ok z →
      z = (x.1.take (cutAt c x.1), x.2) ∧ 1 ≤ cutAt c x.1 ∧ ∀ y ∈ c, y.1 ≠ x.1 → distinct x.1 y.1 ≤ cutAt c x.1 := by
    intro x z e
    unfold cutAt
    cases hm : maxOf ((c.filter fun y => y.1 != x.1).map fun y => distinct x.1 y.1) with
    | none => rw [hm] at e; cases e
    | some n =>
      rw [hm] at e
      obtain ⟨m1, m2⟩ := maxOf_some hm
      refine ⟨by cases e; rfl, ?_, ?_⟩
      · obtain ⟨y, _, e⟩ := List.mem_map.1 m1
        simp only [Option.getD_some, ← e]
        exact one_le_distinct _ _
      · intro y hy hne
        exact m2 _ (List.mem_map.2 ⟨y, List.mem_filter.2 ⟨hy, by simpa using hne⟩, rfl⟩)
  refine ⟨?_, ?_, ?_⟩
  · intro x hx
    obtain ⟨z, hz, e⟩ := h1 x (mem_sortKeys.2 hx)
    rw [← (hg x z e).1]
    exact hz
  · intro z hz
    obtain ⟨x, hx, e⟩ := h2 z hz
    exact ⟨x, mem_sortKeys.1 hx, (hg x z e).1⟩
  · intro x hx
    obtain ⟨z, hz, e⟩ := h1 x (mem_sortKeys.2 hx)
    exact (hg x z e).2

theorem table_shorter {maps : List (List (Key × List E))} {f : List (Key × List E)} (h : table maps = .ok f) :
    shorter (compact (itemsOf maps)) = .ok f := by
  unfold table at h
  simp only at h
  split at h
  · cases h
  · split at h
    · cases h
    · split at h
      · cases h
      · split at h
        · cases h
        · exact h

/-- **The line that a text finds**: none, if no key matches; otherwise the line of the parsers that a matching key belongs to. -/
theorem shortList_spec {cs : Casing} {items f : List (Key × List E)} {t : List Char} (hne : ∀ x ∈ items, x.2 ≠ [])
    (hfit : ∀ x ∈ items, x.1 ≠ [] ∧ Fit cs x.1) (h : shorter (compact items) = .ok f) :
    ∃ es, shortList cs f t = .ok es ∧
      ((es = [] ∧ ∀ x ∈ items, matches' (pattern cs x.1) t = false) ∨
        ∃ m, Minimal items m ∧ es = taken items m ∧ ∀ x ∈ items, matches' (pattern cs x.1) t = true → m <+: x.1) := by
  obtain ⟨c1, c2, c3⟩ := compact_spec items hne
  obtain ⟨s1, s2, s3⟩ := shorter_spec h
  generalize hC : compact items = c at *
  have cfit : ∀ x ∈ c, Fit cs x.1 := by
    intro x hx
    obtain ⟨⟨y, hy, e⟩, _⟩ := (c1 x hx).1
    exact e ▸ (hfit y hy).2
  -- two lines of the table whose cut keys both match are the same
  have huniq : ∀ x ∈ c, ∀ y ∈ c, matches' (pattern cs (x.1.take (cutAt c x.1))) t = true →
      matches' (pattern cs (y.1.take (cutAt c y.1))) t = true → x = y := by
    intro x hx y hy mx my
    by_contra hxy
    have hk : x.1 ≠ y.1 := fun e => hxy (List.inj_on_of_nodup_map c2 hx hy e)
    have nxy : ¬ x.1 <+: y.1 := by
      intro hp
      obtain ⟨⟨z, hz, e⟩, _⟩ := (c1 x hx).1
      exact hk (e ▸ (c1 y hy).1.2 z hz (e.symm ▸ hp))
    have nyx : ¬ y.1 <+: x.1 := by
      intro hp
      obtain ⟨⟨z, hz, e⟩, _⟩ := (c1 y hy).1
      exact hk (e ▸ (c1 x hx).1.2 z hz (e.symm ▸ hp)).symm
    have dx := (s3 x hx).2 y hy (Ne.symm hk)
    have dy := (s3 y hy).2 x hx hk
    rcases comparable ((cfit x hx).of_prefix (List.take_prefix _ _)) ((cfit y hy).of_prefix (List.take_prefix _ _)) mx my with hp | hp
    · exact distinct_spec nxy nyx dx (by rw [distinct_comm]; exact dy) hp
    · exact distinct_spec nyx nxy dy (by rw [distinct_comm]; exact dx) hp
  have hgroup : ∀ x ∈ items, matches' (pattern cs x.1) t = true →
      ∃ y ∈ c, y.1 <+: x.1 ∧ matches' (pattern cs (y.1.take (cutAt c y.1))) t = true := by
    intro x hx mx
    obtain ⟨y, hy, hp⟩ := c3 x hx
    exact ⟨y, hy, hp, matches_prefix (hfit x hx).2 ((List.take_prefix _ _).trans hp) mx⟩
  unfold shortList found
  cases hf : f.find? fun x => matches' (pattern cs x.1) t with
  | none =>
    refine ⟨[], rfl, Or.inl ⟨rfl, ?_⟩⟩
    intro x hx
    by_contra hm
    rw [Bool.not_eq_false] at hm
    obtain ⟨y, hy, _, my⟩ := hgroup x hx hm
    rw [List.find?_eq_none] at hf
    exact hf _ (s1 y hy) my
  | some z =>
    have hz := List.mem_of_find?_eq_some hf
    have mz : matches' (pattern cs z.1) t = true := by
      have := List.find?_some hf
      exact this
    obtain ⟨x, hx, rfl⟩ := s2 z hz
    have fz := (cfit x hx).of_prefix (List.take_prefix (cutAt c x.1) x.1)
    simp only at mz
    simp only [Option.map_some]
    rw [pattern_length fz, low_take fz mz]
    have he : entry f (x.1.take (cutAt c x.1)) = some x.2 := by
      unfold entry
      cases hr : f.reverse.find? fun y => y.1 == x.1.take (cutAt c x.1) with
      | none =>
        rw [List.find?_eq_none] at hr
        exact absurd (by simp) (hr _ (List.mem_reverse.2 hz))
      | some w =>
        have hw := List.mem_reverse.1 (List.mem_of_find?_eq_some hr)
        have ew : (w.1 == x.1.take (cutAt c x.1)) = true := by
          have := List.find?_some hr
          exact this
        obtain ⟨y, hy, rfl⟩ := s2 w hw
        simp only [beq_iff_eq] at ew
        have := huniq x hx y hy mz (by rw [ew]; exact mz)
        subst this
        rfl
    rw [he]
    refine ⟨x.2, rfl, Or.inr ⟨x.1, (c1 x hx).1, (c1 x hx).2, ?_⟩⟩
    intro y hy my
    obtain ⟨w, hw, hp, mw⟩ := hgroup y hy my
    rw [huniq x hx w hw mz mw]
    exact hp

end EulerDB.Choice
