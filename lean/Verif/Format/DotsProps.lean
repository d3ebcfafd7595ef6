/-
C46: dotted names split and join back.

Both directions hold for all names without the two control characters the code
borrows as marks; with them, and for an empty first name, names are changed.
-/
import Verif.Format.Dots

namespace EulerDB.Format

open EulerDB.Text

/-! ### The replacements -/

/-- No backslash is followed by a dot. -/
def NoPair : List Char → Prop
  | [] => True
  | [_] => True
  | c :: d :: t => ¬ (c = '\\' ∧ d = '.') ∧ NoPair (d :: t)

theorem fold_head (x : Char) (hx : x ≠ '.') (c : Char) (t : List Char) :
    ∃ d u, fold x (c :: t) = d :: u ∧ (d = '.' → c = '.') := by
  cases t with
  | nil => exact ⟨c, [], rfl, id⟩
  | cons d t =>
    unfold fold
    split
    · exact ⟨x, _, rfl, fun h => absurd h hx⟩
    · exact ⟨c, _, rfl, id⟩

theorem noPair_cons {c d : Char} {t : List Char} (h : ¬ (c = '\\' ∧ d = '.')) (ht : NoPair (d :: t)) :
    NoPair (c :: d :: t) := ⟨h, ht⟩

theorem noPair_of_ne {c : Char} {t : List Char} (hc : c ≠ '\\') (ht : NoPair t) : NoPair (c :: t) := by
  cases t with
  | nil => trivial
  | cons d t => exact ⟨fun h => hc h.1, ht⟩

theorem noPair_fold (x : Char) (h1 : x ≠ '.') (h2 : x ≠ '\\') : ∀ s, NoPair (fold x s)
  | [] => trivial
  | [_] => trivial
  | c :: d :: t => by
    unfold fold
    split
    · exact noPair_of_ne h2 (noPair_fold x h1 h2 t)
    · rename_i h
      have ih := noPair_fold x h1 h2 (d :: t)
      obtain ⟨e, u, he, hd⟩ := fold_head x h1 d t
      rw [he] at ih ⊢
      exact noPair_cons (fun hh => h ⟨hh.1, hd hh.2⟩) ih

theorem fold_noPair (x : Char) : ∀ s, NoPair s → fold x s = s
  | [], _ => rfl
  | [_], _ => rfl
  | c :: d :: t, h => by
    unfold fold
    rw [if_neg h.1, fold_noPair x (d :: t) h.2]

theorem unfold_fold (x : Char) : ∀ s, x ∉ s → unfold' x (fold x s) = s
  | [], _ => rfl
  | [c], h => by
    simp only [List.mem_singleton] at h
    simp [fold, unfold', Ne.symm h]
  | c :: d :: t, h => by
    simp only [List.mem_cons, not_or] at h
    unfold fold
    split
    · rename_i hc
      simp [unfold', unfold_fold x t h.2.2, hc.1, hc.2]
    · have := unfold_fold x (d :: t) (by simp [h.2.1, h.2.2])
      simp [unfold', Ne.symm h.1, this]

theorem unfold_id (x : Char) : ∀ s, x ∉ s → unfold' x s = s
  | [], _ => rfl
  | c :: t, h => by
    simp only [List.mem_cons, not_or] at h
    simp [unfold', Ne.symm h.1, unfold_id x t h.2]

/-- The first character of an unfolded text is a dot only where the text had one. -/
theorem unfold_head (x : Char) (c : Char) (t : List Char) :
    ∃ d u, unfold' x (c :: t) = d :: u ∧ (d = '.' → c = '.') := by
  unfold unfold'
  split
  · exact ⟨'\\', _, rfl, fun h => absurd h (by decide)⟩
  · exact ⟨c, _, rfl, id⟩

theorem fold_unfold (x : Char) (h1 : x ≠ '\\') : ∀ s, NoPair s → fold x (unfold' x s) = s
  | [], _ => rfl
  | c :: t, h => by
    have ht : NoPair t := by
      cases t with
      | nil => trivial
      | cons d t => exact h.2
    have ih := fold_unfold x h1 t ht
    unfold unfold'
    split
    · rename_i hc
      simp [fold, ih, hc]
    · rename_i hc
      cases t with
      | nil => rfl
      | cons d t =>
        obtain ⟨e, u, he, hd⟩ := unfold_head x d t
        rw [he] at ih ⊢
        unfold fold
        rw [if_neg (fun hh => h.1 ⟨hh.1, hd hh.2⟩), ih]

theorem swap_swap (x y : Char) (s : List Char) (h : y ∉ s) : swap y x (swap x y s) = s := by
  induction s with
  | nil => rfl
  | cons c t ih =>
    simp only [List.mem_cons, not_or] at h
    have hi := ih h.2
    unfold swap at hi ⊢
    simp only [List.map_cons, hi]
    congr 1
    by_cases hc : c = x
    · simp [hc]
    · simp [hc, Ne.symm h.1]

theorem not_mem_swap (x y : Char) (hxy : x ≠ y) (s : List Char) : x ∉ swap x y s := by
  unfold swap
  intro h
  obtain ⟨c, _, hc⟩ := List.mem_map.1 h
  split at hc
  · exact hxy hc.symm
  · rename_i h2; exact h2 hc

theorem mem_swap {x y z : Char} {s : List Char} (h : z ∈ swap x y s) : z = y ∨ z ∈ s := by
  unfold swap at h
  obtain ⟨c, hc, he⟩ := List.mem_map.1 h
  split at he
  · exact Or.inl he.symm
  · exact Or.inr (he ▸ hc)

theorem mem_join {sep c : Char} : ∀ {ws : List (List Char)}, c ∈ join sep ws → c = sep ∨ ∃ w ∈ ws, c ∈ w
  | [], h => by simp [join] at h
  | [w], h => Or.inr ⟨w, by simp, by simpa [join] using h⟩
  | w :: v :: ws, h => by
    simp only [join, List.mem_append, List.mem_cons] at h
    rcases h with h | h | h
    · exact Or.inr ⟨w, by simp, h⟩
    · exact Or.inl h
    · rcases mem_join h with h | ⟨u, hu, hc⟩
      · exact Or.inl h
      · exact Or.inr ⟨u, by simp [List.mem_cons.1 hu], hc⟩

/-! ### Joining then splitting -/

/-- A name without the control characters used as marks. -/
def Clean (n : List Char) : Prop := markA ∉ n ∧ markB ∉ n

theorem parts_joinNames (names : List (List Char)) (hne : names ≠ []) (hc : ∀ n ∈ names, Clean n) :
    parts (joinNames names) = names := by
  have hb : markB ∉ join '.' (names.map (swap '.' markA)) := by
    intro h
    rcases mem_join h with h | ⟨w, hw, hcw⟩
    · exact absurd h (by decide)
    · obtain ⟨n, hn, rfl⟩ := List.mem_map.1 hw
      rcases mem_swap hcw with h | h
      · exact absurd h (by decide)
      · exact (hc n hn).2 h
  unfold parts joinNames
  rw [fold_unfold markA (by decide) _ (noPair_fold markB (by decide) (by decide) _),
    unfold_fold markB _ hb, split_join _ (by simpa using hne), List.map_map]
  · have : ∀ n ∈ names, (swap markA '.' ∘ swap '.' markA) n = n := fun n hn =>
      swap_swap '.' markA n (hc n hn).1
    rw [List.map_congr_left this, List.map_id']
  · intro w hw
    obtain ⟨n, _, rfl⟩ := List.mem_map.1 hw
    exact not_mem_swap '.' markA (by decide) n

theorem swap_ne_nil {x y : Char} {s : List Char} (h : s ≠ []) : swap x y s ≠ [] := by
  unfold swap; simpa using h

/-- The text of names whose first is not empty begins with no dot. -/
theorem joinNames_head (n : List Char) (ns : List (List Char)) (h : n ≠ []) :
    ∃ c t, joinNames (n :: ns) = c :: t ∧ c ≠ '.' := by
  obtain ⟨c, n', rfl⟩ := List.exists_cons_of_ne_nil h
  obtain ⟨d, hd, hdot⟩ : ∃ d, swap '.' markA (c :: n') = d :: swap '.' markA n' ∧ d ≠ '.' := by
    refine ⟨if c = '.' then markA else c, rfl, ?_⟩
    split
    · decide
    · assumption
  have hj : ∃ u, join '.' (((c :: n') :: ns).map (swap '.' markA)) = d :: u := by
    simp only [List.map_cons, hd]
    cases ns with
    | nil => exact ⟨_, rfl⟩
    | cons m ms => exact ⟨_, rfl⟩
  obtain ⟨u, hu⟩ := hj
  obtain ⟨e, v, he, hev⟩ := fold_head markB (by decide) d u
  obtain ⟨f, w, hf, hfv⟩ := unfold_head markA e v
  refine ⟨f, w, ?_, fun h => hdot (hev (hfv h))⟩
  unfold joinNames
  rw [hu, he, hf]

theorem split_clean_no_dot {s : List Char} (h1 : '.' ∉ s) (h2 : markB ∉ s) (h3 : markA ∉ s) :
    parts s = [s] := by
  have hp : ∀ t : List Char, '.' ∉ t → NoPair t := by
    intro t
    induction t with
    | nil => intro _; trivial
    | cons c t ih =>
      intro h
      simp only [List.mem_cons, not_or] at h
      cases t with
      | nil => trivial
      | cons d t =>
        exact ⟨fun hh => h.2 (by simp [hh.2]), ih h.2⟩
  unfold parts
  rw [fold_noPair _ _ (hp s h1), unfold_id _ _ h2, split_word _ h1]
  simp only [List.map_cons, List.map_nil, swap]
  congr 1
  conv => rhs; rw [← List.map_id s]
  refine List.map_congr_left fun c hc => ?_
  have : c ≠ markA := fun h => h3 (h ▸ hc)
  simp [this]

/-- Splitting a joined path gives the path: for every number of names, whatever dots
and backslashes they contain, as long as the first one is not empty. -/
theorem C46_split_join_partial (n : List Char) (ns : List (List Char)) (hn : n ≠ [])
    (hc : ∀ m ∈ n :: ns, Clean m) : splitField (joinField ⟨0, n :: ns⟩) = ⟨0, n :: ns⟩ := by
  obtain ⟨c, t, he, hdot⟩ := joinNames_head n ns hn
  have hj : joinField ⟨0, n :: ns⟩ = joinNames (n :: ns) := by
    simp [joinField, he]
  have hp := parts_joinNames (n :: ns) (by simp) hc
  rw [hj]
  unfold splitField
  have h1 : joinNames (n :: ns) ≠ ['.'] := by
    rw [he]; intro h; exact hdot (List.cons.inj h).1
  have h2 : ['.', '.'].isPrefixOf (joinNames (n :: ns)) = false := by
    rw [he]; simp [List.isPrefixOf, Ne.symm hdot]
  rw [if_neg h1, h2]
  split
  · simp [hp]
  · rename_i hno
    simp only [not_or] at hno
    -- without a dot or mark in the text, it is the only name
    have hA : markA ∉ joinNames (n :: ns) := by
      unfold joinNames
      generalize fold markB _ = w
      induction w with
      | nil => simp [unfold']
      | cons c w ih =>
        unfold unfold'
        split
        · simp only [List.mem_cons, not_or]; exact ⟨by decide, by decide, ih⟩
        · rename_i hcx; simp only [List.mem_cons, not_or]; exact ⟨Ne.symm hcx, ih⟩
    rw [split_clean_no_dot hno.1 hno.2 hA] at hp
    rw [hp]

example : ∃ n ns, n ≠ [] ∧ (∀ m ∈ n :: ns, Clean m) ∧
    joinField ⟨0, n :: ns⟩ = ['a', '\\', '.', 'b', '.', 'c'] :=
  ⟨['a', '.', 'b'], [['c']], by decide, by
    intro m hm
    simp only [List.mem_cons, List.not_mem_nil, or_false] at hm
    rcases hm with rfl | rfl <;> (unfold Clean; decide), by decide⟩

/-! ### Splitting then joining -/

theorem joinNames_parts (s : List Char) (ha : markA ∉ s) (hb : markB ∉ s) : joinNames (parts s) = s := by
  have hbf : ∀ t : List Char, markB ∉ t → markB ∉ fold markA t := by
    intro t
    induction t using fold.induct with
    | case1 => intro h; exact h
    | case2 c => intro h; simpa [fold] using h
    | case3 c d t hcd ih =>
      intro h
      simp only [List.mem_cons, not_or] at h
      unfold fold
      rw [if_pos hcd]
      simp only [List.mem_cons, not_or]
      exact ⟨by decide, ih h.2.2⟩
    | case4 c d t hcd ih =>
      intro h
      simp only [List.mem_cons, not_or] at h
      unfold fold
      rw [if_neg hcd]
      simp only [List.mem_cons, not_or]
      exact ⟨h.1, ih (by simp [h.2.1, h.2.2])⟩
  unfold joinNames parts
  rw [unfold_id markB _ (hbf s hb), List.map_map]
  have hm : ∀ w ∈ split '.' (fold markA s), (swap '.' markA ∘ swap markA '.') w = w := fun w hw =>
    swap_swap markA '.' w (split_parts _ w hw)
  rw [List.map_congr_left hm, List.map_id', join_split,
    fold_noPair markB _ (noPair_fold markA (by decide) (by decide) _), unfold_fold markA _ ha]

theorem parts_ne_nil (s : List Char) : parts s ≠ [] := by
  unfold parts; simp [split_ne_nil]

/-- Joining a split name gives the name: for every non-empty text without the two
control characters, including those with leading dots (parent steps). -/
theorem C46_join_split_partial (s : List Char) (hs : s ≠ []) (hc : Clean s) :
    joinField (splitField s) = s := by
  unfold splitField
  by_cases h1 : s = ['.']
  · rw [if_pos h1, h1]; decide
  rw [if_neg h1]
  by_cases h2 : '.' ∈ s ∨ markB ∈ s
  · rw [if_pos h2]
    by_cases h3 : ['.', '.'].isPrefixOf s = true
    · rw [if_pos h3]
      simp only
      have hdw : ∀ u : List Char, u = List.replicate (u.length - (u.dropWhile (· == '.')).length) '.' ++ u.dropWhile (· == '.') := by
        intro u
        induction u with
        | nil => rfl
        | cons c u ih =>
          by_cases hcd : c = '.'
          · subst hcd
            have hle : (u.dropWhile (· == '.')).length ≤ u.length := (List.dropWhile_suffix _).length_le
            simp only [List.dropWhile_cons, beq_self_eq_true, if_true, List.length_cons]
            rw [Nat.succ_sub hle, List.replicate_succ, List.cons_append, ← ih]
          · simp [hcd]
      have hw := hdw s
      have hr : Clean (s.dropWhile (· == '.')) :=
        ⟨fun h => hc.1 ((List.dropWhile_suffix _).mem h), fun h => hc.2 ((List.dropWhile_suffix _).mem h)⟩
      obtain ⟨u, rfl⟩ : ∃ u, s = '.' :: '.' :: u := by
        match s, h3 with
        | [], h => simp [List.isPrefixOf] at h
        | [c], h => simp [List.isPrefixOf] at h
        | c :: d :: u, h => simp [List.isPrefixOf] at h; exact ⟨u, by rw [← h.1, ← h.2]⟩
      have hlen : 2 ≤ ('.' :: '.' :: u).length - (('.' :: '.' :: u).dropWhile (· == '.')).length := by
        have : (('.' :: '.' :: u).dropWhile (· == '.')).length ≤ u.length := by
          simpa [List.dropWhile_cons] using (List.dropWhile_suffix (l := u) (· == '.')).length_le
        simp only [List.length_cons]
        omega
      generalize hk : ('.' :: '.' :: u).length - (('.' :: '.' :: u).dropWhile (· == '.')).length = k at hw hlen
      unfold joinField
      rw [if_neg (by simp only; omega), if_neg (parts_ne_nil _)]
      simp only
      rw [joinNames_parts _ hr.1 hr.2]
      conv => rhs; rw [hw]
      have : k = k - 1 + 1 := by omega
      conv => rhs; rw [this, List.replicate_succ]
    · rw [if_neg h3]
      unfold joinField
      simp only [if_true]
      rw [joinNames_parts s hc.1 hc.2, if_neg hs]
  · rw [if_neg h2]
    simp only [not_or] at h2
    have := joinNames_parts s hc.1 hc.2
    rw [split_clean_no_dot h2.1 h2.2 hc.1] at this
    unfold joinField
    simp only [if_true]
    rw [this, if_neg hs]

example : ∃ s : List Char, s ≠ [] ∧ Clean s ∧ (splitField s).names = [['t'], ['a', '.', 'b']] :=
  ⟨['t', '.', 'a', '\\', '.', 'b'], by decide, by unfold Clean; decide, by decide⟩

/-- Different names without the control characters stay different paths. -/
theorem C46_split_injective_partial (s t : List Char) (hs : s ≠ []) (ht : t ≠ []) (h1 : Clean s)
    (h2 : Clean t) (h : splitField s = splitField t) : s = t := by
  rw [← C46_join_split_partial s hs h1, ← C46_join_split_partial t ht h2, h]

/-! ### Where it fails -/

/-- A name with the control character BEL comes back with a dot in its place, so it
cannot be told from the name with the dot. -/
theorem C46_fails_bell : ∃ n : List Char, n ≠ [] ∧ splitField (joinField ⟨0, [n]⟩) ≠ ⟨0, [n]⟩ ∧
    ∃ m, m ≠ n ∧ joinField ⟨0, [m]⟩ = joinField ⟨0, [n]⟩ :=
  ⟨['a', markA, 'b'], by decide, by decide, ['a', '.', 'b'], by decide, by decide⟩

/-- A name with the control character BS is split in two. -/
theorem C46_fails_backspace : ∃ n : List Char, n ≠ [] ∧
    splitField (joinField ⟨0, [n]⟩) = ⟨0, [['a', '\\'], ['b']]⟩ :=
  ⟨['a', markB, 'b'], by decide, by decide⟩

/-- An empty first name is lost or becomes a parent step. -/
theorem C46_fails_empty :
    splitField (joinField ⟨0, [[]]⟩) = ⟨0, []⟩ ∧
    splitField (joinField ⟨0, [[], [], ['a']]⟩) = ⟨1, [['a']]⟩ := by decide

end EulerDB.Format
