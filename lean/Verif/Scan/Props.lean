/-
C105: all matches are found, once and in order, and the text can be put together again from them.
-/
import Verif.Scan.Model

namespace EulerDB.Scan

/-- White space is passed forwards, and from every place in it to the same end. -/
structure Cfg.White (c : Cfg) : Prop where
  le : ∀ q, q ≤ c.ws q
  same : ∀ a q, a ≤ q → q ≤ c.ws a → c.ws q = c.ws a

/-- A match does not end before it begins. -/
def Cfg.Forward (c : Cfg) : Prop := ∀ p t, c.parse p = some t → p ≤ t

/-- The matches follow each other from a place. -/
def Chain : Nat → List (Nat × Nat) → Prop
  | _, [] => True
  | last, x :: r => last ≤ x.1 ∧ x.1 ≤ x.2 ∧ Chain x.2 r

theorem next_gt (o : Bool) (t e : Nat) : e < (if o = true ∨ t ≤ e then e + 1 else t) := by
  split
  · omega
  · rename_i h
    have : ¬ t ≤ e := fun x => h (.inr x)
    omega

/-- The search ends. -/
theorem C105_ends (c : Cfg) (hw : c.White) (o : Bool) : ∀ fuel m e, c.len < fuel + e → ∃ l, scan c o (fuel + 1) m e = .ok l := by
  intro fuel
  induction fuel with
  | zero =>
    intro m e h
    rw [scan, if_neg (by omega)]
    exact ⟨_, rfl⟩
  | succ fuel ih =>
    intro m e h
    rw [scan]
    by_cases h1 : e ≤ c.len ∧ 0 < m
    · rw [if_pos h1]
      cases c.parse (c.ws e) with
      | none =>
        have := hw.le e
        exact ih _ _ (by omega)
      | some t =>
        have := next_gt o t e
        obtain ⟨l, hl⟩ := ih (m - 1) (if o = true ∨ t ≤ e then e + 1 else t) (by omega)
        simp only [hl]
        exact ⟨_, rfl⟩
    · rw [if_neg h1]; exact ⟨_, rfl⟩

/-- The cases of a search. -/
theorem scan_cases {c : Cfg} {o : Bool} {fuel m e : Nat} {l : List (Nat × Nat)} (h : scan c o (fuel + 1) m e = .ok l) :
    (¬ (e ≤ c.len ∧ 0 < m) ∧ l = []) ∨
    ((e ≤ c.len ∧ 0 < m) ∧ c.parse (c.ws e) = none ∧ scan c o fuel m (c.ws e + 1) = .ok l) ∨
    ((e ≤ c.len ∧ 0 < m) ∧ ∃ t r, c.parse (c.ws e) = some t ∧ l = (c.ws e, t) :: r ∧
      scan c o fuel (m - 1) (if o = true ∨ t ≤ e then e + 1 else t) = .ok r) := by
  rw [scan] at h
  by_cases h1 : e ≤ c.len ∧ 0 < m
  · rw [if_pos h1] at h
    cases hp : c.parse (c.ws e) with
    | none => rw [hp] at h; exact .inr (.inl ⟨h1, rfl, h⟩)
    | some t =>
      rw [hp] at h
      simp only at h
      cases hs : scan c o fuel (m - 1) (if o = true ∨ t ≤ e then e + 1 else t) with
      | error x => rw [hs] at h; simp at h
      | ok r =>
        rw [hs] at h
        simp only [Except.ok.injEq] at h
        exact .inr (.inr ⟨h1, t, r, rfl, h.symm, hs⟩)
  · rw [if_neg h1] at h
    simp only [Except.ok.injEq] at h
    exact .inl ⟨h1, h.symm⟩

/-- No more matches are given than asked for, and each is one. -/
theorem C105_matches (c : Cfg) (o : Bool) : ∀ fuel m e l, scan c o fuel m e = .ok l →
    l.length ≤ m ∧ ∀ x ∈ l, c.parse x.1 = some x.2 := by
  intro fuel
  induction fuel with
  | zero => intro m e l h; simp [scan] at h
  | succ fuel ih =>
    intro m e l h
    rcases scan_cases h with ⟨-, rfl⟩ | ⟨-, -, h2⟩ | ⟨h1, t, r, h2, rfl, h3⟩
    · simp
    · exact ih _ _ _ h2
    · obtain ⟨a, b⟩ := ih _ _ _ h3
      refine ⟨by simp only [List.length_cons]; omega, fun x hx => ?_⟩
      rcases List.mem_cons.mp hx with rfl | hx
      · exact h2
      · exact b x hx

/-- Matches that may not overlap follow each other. -/
theorem C105_chain (c : Cfg) (hw : c.White) (hf : c.Forward) : ∀ fuel m e l, scan c false fuel m e = .ok l →
    ∀ last, last ≤ e → Chain last l := by
  intro fuel
  induction fuel with
  | zero => intro m e l h; simp [scan] at h
  | succ fuel ih =>
    intro m e l h last hl
    have hle := hw.le e
    rcases scan_cases h with ⟨-, rfl⟩ | ⟨-, -, h2⟩ | ⟨h1, t, r, h2, rfl, h3⟩
    · trivial
    · exact ih _ _ _ h2 last (by omega)
    · refine ⟨by simp only; omega, hf _ _ h2, ih _ _ _ h3 t ?_⟩
      split <;> simp_all <;> omega

/-- A place with a match is the beginning of one that is given or lies before the end of one, unless as many were given as
asked for. -/
theorem C105_complete (c : Cfg) (hw : c.White) : ∀ fuel m e l, scan c false fuel m e = .ok l → l.length < m →
    ∀ q, e ≤ q → q ≤ c.len → c.parse (c.ws q) ≠ none → ∃ x ∈ l, x.1 ≤ c.ws q ∧ (c.ws q = x.1 ∨ q < x.2) := by
  intro fuel
  induction fuel with
  | zero => intro m e l h; simp [scan] at h
  | succ fuel ih =>
    intro m e l h hm q h1 h2 h3
    rcases scan_cases h with ⟨h4, rfl⟩ | ⟨-, h4, h5⟩ | ⟨-, t, r, h4, rfl, h5⟩
    · exact absurd ⟨by omega, by omega⟩ h4
    · refine ih _ _ _ h5 hm q ?_ h2 h3
      by_contra hc
      rw [hw.same e q h1 (by omega)] at h3
      exact h3 h4
    · by_cases hq : q ≤ c.ws e
      · have := hw.same e q h1 hq
        exact ⟨_, List.mem_cons_self, by simp only; omega, .inl (by simpa using this)⟩
      · by_cases hq' : q < t
        · have := hw.le q
          exact ⟨_, List.mem_cons_self, by simp only; omega, .inr hq'⟩
        · have hle := hw.le e
          obtain ⟨x, hx, hy⟩ := ih _ _ _ h5 (by simp only [List.length_cons] at hm; omega) q (by split <;> omega) h2 h3
          exact ⟨x, List.mem_cons_of_mem _ hx, hy⟩

theorem chain_le : ∀ (l : List (Nat × Nat)) (last : Nat), Chain last l → ∀ x ∈ l, last ≤ x.1
  | [], _, _, x, hx => by simp at hx
  | y :: r, last, h, x, hx => by
    obtain ⟨h1, h2, h3⟩ := h
    rcases List.mem_cons.mp hx with rfl | hx
    · exact h1
    · have := chain_le r _ h3 x hx; omega

/-- Matches that are not empty are given once. -/
theorem C105_once_partial (c : Cfg) (hw : c.White) (hf : ∀ p t, c.parse p = some t → p < t) (fuel m e : Nat)
    (l : List (Nat × Nat)) (h : scan c false fuel m e = .ok l) : l.Pairwise (fun a b => a.1 < b.1) := by
  have hc := C105_chain c hw (fun p t x => Nat.le_of_lt (hf p t x)) fuel m e l h e (Nat.le_refl _)
  have hm := (C105_matches c false fuel m e l h).2
  clear h
  induction l generalizing e with
  | nil => exact .nil
  | cons x r ih =>
    obtain ⟨h1, h2, h3⟩ := hc
    refine .cons (fun y hy => ?_) (ih _ h3 fun y hy => hm y (List.mem_cons_of_mem _ hy))
    have := chain_le r _ h3 y hy
    have := hf _ _ (hm x List.mem_cons_self)
    omega

/-- An empty match after white space is given twice. -/
theorem C105_fails_twice (c : Cfg) (hw : c.White) (fuel m e : Nat) (l : List (Nat × Nat)) (h1 : e < c.ws e)
    (h2 : c.ws e ≤ c.len) (h3 : c.parse (c.ws e) = some (c.ws e)) (h : scan c false (fuel + 2) (m + 2) e = .ok l) :
    ∃ r, l = (c.ws e, c.ws e) :: (c.ws e, c.ws e) :: r := by
  have fx : c.ws (c.ws e) = c.ws e := hw.same e _ (hw.le e) (Nat.le_refl _)
  rcases scan_cases h with ⟨h4, -⟩ | ⟨-, h4, -⟩ | ⟨-, t, r, h4, rfl, h5⟩
  · exact absurd ⟨by omega, by omega⟩ h4
  · rw [h3] at h4; simp at h4
  · rw [h3] at h4
    obtain rfl := Option.some.inj h4
    rw [if_neg (by simp; omega)] at h5
    rcases scan_cases h5 with ⟨h6, -⟩ | ⟨-, h6, -⟩ | ⟨-, t, r', h6, rfl, h7⟩
    · exact absurd ⟨by omega, by omega⟩ h6
    · rw [fx, h3] at h6; simp at h6
    · rw [fx, h3] at h6
      obtain rfl := Option.some.inj h6
      exact ⟨r', by rw [fx]⟩

/-- With `overlap` each match after white space is given twice, empty or not. -/
theorem C105_fails_overlap (c : Cfg) (hw : c.White) (fuel m e t : Nat) (l : List (Nat × Nat)) (h1 : e < c.ws e)
    (h2 : e < c.len) (h3 : c.parse (c.ws e) = some t) (h : scan c true (fuel + 2) (m + 2) e = .ok l) :
    ∃ r, l = (c.ws e, t) :: (c.ws e, t) :: r := by
  have fx : c.ws (e + 1) = c.ws e := hw.same e _ (by omega) (by omega)
  rcases scan_cases h with ⟨h4, -⟩ | ⟨-, h4, -⟩ | ⟨-, t', r, h4, rfl, h5⟩
  · exact absurd ⟨by omega, by omega⟩ h4
  · rw [h3] at h4; simp at h4
  · rw [h3] at h4
    obtain rfl := Option.some.inj h4
    rw [if_pos (.inl rfl)] at h5
    rcases scan_cases h5 with ⟨h6, -⟩ | ⟨-, h6, -⟩ | ⟨-, t', r', h6, rfl, h7⟩
    · exact absurd ⟨by omega, by omega⟩ h6
    · rw [fx, h3] at h6; simp at h6
    · rw [fx, h3] at h6
      obtain rfl := Option.some.inj h6
      exact ⟨r', by rw [fx]⟩

theorem slice_drop (text : List Char) (a b : Nat) (h : a ≤ b) : slice text a b ++ text.drop b = text.drop a := by
  have e : text.drop b = (text.drop a).drop (b - a) := by rw [List.drop_drop]; congr 1; omega
  rw [slice, e, List.take_append_drop]

theorem rebuild_chain (text : List Char) : ∀ (l : List (Nat × Nat)) (last : Nat), Chain last l →
    rebuild text (fun x => slice text x.1 x.2) last l = text.drop last
  | [], _, _ => rfl
  | x :: r, last, h => by
    obtain ⟨h1, h2, h3⟩ := h
    rw [rebuild, rebuild_chain text r _ h3, List.append_assoc, slice_drop text _ _ h2, slice_drop text _ _ h1]

/-- If every match is replaced by its own text, the text is the same. -/
theorem C105_transform (c : Cfg) (hw : c.White) (hf : c.Forward) (text : List Char) (fuel m : Nat) (l : List (Nat × Nat))
    (h : scan c false fuel m 0 = .ok l) : rebuild text (fun x => slice text x.1 x.2) 0 l = text := by
  rw [rebuild_chain text l 0 (C105_chain c hw hf _ _ _ _ h 0 (Nat.le_refl _)), List.drop_zero]

theorem split_flatten (text : List Char) (f : Nat × Nat → List Char) : ∀ (l : List (Nat × Nat)) (last : Nat),
    (split text (fun x => some (f x)) last l).flatten = rebuild text f last l
  | [], _ => by simp [split, rebuild]
  | x :: r, last => by
    simp only [split, rebuild, Option.toList_some, List.flatten_cons, List.cons_append, List.nil_append, split_flatten text f r,
      List.append_assoc]

/-- The parts of a split with its separators are the text. -/
theorem C105_split (c : Cfg) (hw : c.White) (hf : c.Forward) (text : List Char) (fuel m : Nat) (l : List (Nat × Nat))
    (h : scan c false fuel m 0 = .ok l) :
    (split text (fun x => some (slice text x.1 x.2)) 0 l).flatten = text := by
  rw [split_flatten, C105_transform c hw hf text fuel m l h]

/-- There is one part more than there are separators. -/
theorem C105_split_parts (text : List Char) : ∀ (l : List (Nat × Nat)) (last : Nat),
    (split text (fun _ => none) last l).length = l.length + 1
  | [], _ => rfl
  | x :: r, last => by simp [split, C105_split_parts text r]

/-- A blank, then an empty match at 1 and none else. -/
def empty : Cfg where
  len := 1
  ws q := if q = 0 then 1 else q
  parse p := if p = 1 then some 1 else none

example : empty.White := ⟨fun q => by simp only [empty]; split <;> omega,
  fun a q h1 h2 => by simp only [empty] at h2 ⊢; split at h2 <;> split <;> omega⟩
example : scan empty false 4 9 0 = .ok [(1, 1), (1, 1)] := by rfl

/-- A comma at 2 of four characters, a blank at 1. -/
def comma : Cfg where
  len := 4
  ws q := if q = 1 then 2 else q
  parse p := if p = 2 then some 3 else none

example : comma.White := ⟨fun q => by simp only [comma]; split <;> omega,
  fun a q h1 h2 => by simp only [comma] at h2 ⊢; split at h2 <;> split <;> omega⟩
example : ∀ p t, comma.parse p = some t → p < t := by
  intro p t h
  simp only [comma] at h
  split at h
  · simp only [Option.some.injEq] at h; omega
  · simp at h
example : scan comma false 7 9 0 = .ok [(2, 3)] := by rfl
example : scan comma true 7 9 0 = .ok [(2, 3), (2, 3)] := by rfl
example : split "a ,b".toList (fun _ => none) 0 [(2, 3)] = ["a ".toList, "b".toList] := by decide

end EulerDB.Scan
