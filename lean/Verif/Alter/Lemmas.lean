/-
What the backtracking matcher accepts: `run` finds a match exactly when there is one (`M`).
-/
import Verif.Alter.Model

namespace EulerDB.Alter

open EulerDB EulerDB.Clause

/-- The character before the position reached after `u`. -/
def after (prev : Option Char) (u : List Char) : Option Char := match u.getLast? with | some c => some c | none => prev

@[simp] theorem after_nil (p : Option Char) : after p [] = p := rfl

theorem after_append (p : Option Char) (u v : List Char) : after p (u ++ v) = after (after p u) v := by
  unfold after
  cases h : v.getLast? with
  | none =>
    have : v = [] := by simpa using h
    subst this; simp
  | some c => simp [List.getLast?_append, h]

theorem after_cons (p : Option Char) (c : Char) (u : List Char) : after p (c :: u) = after (some c) u := after_append p [c] u

section
variable (uni : Char → Bool)

/-- A way to match the expression at the beginning of the text, with the captured texts: which one `re.match` takes is left open. -/
def M : List Pat → Option Char → List Char → List (List Char) → Prop
  | [], _, _, caps => caps = []
  | .ws :: ps, prev, s, caps => ∃ u r, s = u ++ r ∧ (∀ c ∈ u, isWs c = true) ∧ M ps (after prev u) r caps
  | .kw w :: ps, prev, s, caps => ∃ u r, s = u ++ r ∧ u.map Char.toLower = w ∧ M ps (after prev u) r caps
  | .name :: ps, prev, s, caps => ∃ u r caps', s = u ++ r ∧ (∀ c ∈ u, isWord uni c = true) ∧ caps = u :: caps' ∧ M ps (after prev u) r caps'
  | .table :: ps, prev, s, caps => ∃ u r caps', (∀ c ∈ u, isWord uni c = true) ∧ caps = u :: caps' ∧
      ((s = '`' :: u ++ '`' :: r ∧ M ps (some '`') r caps') ∨ (boundary uni prev s = true ∧ s = u ++ r ∧ M ps (after prev u) r caps'))
  | .ch c :: ps, _, s, caps => ∃ r, s = c :: r ∧ M ps (some c) r caps
  | .fin :: ps, prev, s, caps => atEnd s = true ∧ M ps prev s caps

variable {α : Type}

theorem star_some (p : Char → Bool) (k : List Char → Option Char → List Char → Option α) (r : α) :
    ∀ (s : List Char) (acc : List Char) (prev : Option Char), star p k acc prev s = some r →
      ∃ u t, s = u ++ t ∧ (∀ c ∈ u, p c = true) ∧ k (acc ++ u) (after prev u) t = some r
  | [], acc, prev, h => ⟨[], [], rfl, by simp, by simpa [star] using h⟩
  | c :: t, acc, prev, h => by
    unfold star at h
    by_cases hp : p c = true
    · rw [if_pos hp] at h
      cases hs : star p k (acc ++ [c]) (some c) t with
      | some r' =>
        rw [hs] at h
        obtain rfl : r' = r := by simpa using h
        obtain ⟨u, t', rfl, hu, hk⟩ := star_some p k r' t _ _ hs
        refine ⟨c :: u, t', rfl, ?_, ?_⟩
        · intro d hd
          rcases List.mem_cons.1 hd with rfl | hd
          · exact hp
          · exact hu d hd
        · rw [after_cons]; simpa using hk
      | none =>
        rw [hs] at h
        exact ⟨[], c :: t, rfl, by simp, by simpa using h⟩
    · rw [if_neg hp] at h
      exact ⟨[], c :: t, rfl, by simp, by simpa using h⟩

theorem star_isSome (p : Char → Bool) (k : List Char → Option Char → List Char → Option α) :
    ∀ (u t : List Char) (acc : List Char) (prev : Option Char), (∀ c ∈ u, p c = true) → (k (acc ++ u) (after prev u) t).isSome = true →
      (star p k acc prev (u ++ t)).isSome = true
  | [], [], acc, prev, _, h => by simpa [star] using h
  | [], c :: t, acc, prev, _, h => by
    simp only [List.append_nil, after_nil] at h
    simp only [List.nil_append]
    unfold star
    by_cases hp : p c = true
    · rw [if_pos hp]
      cases hs : star p k (acc ++ [c]) (some c) t with
      | some r => rfl
      | none => exact h
    · rw [if_neg hp]; exact h
  | c :: u, t, acc, prev, hu, h => by
    have hc := hu c (by simp)
    have ih := star_isSome p k u t (acc ++ [c]) (some c) (fun d hd => hu d (by simp [hd])) (by
      rw [after_cons] at h; simpa using h)
    simp only [List.cons_append]
    unfold star
    rw [if_pos hc]
    cases hs : star p k (acc ++ [c]) (some c) (u ++ t) with
    | some r => rfl
    | none => rw [hs] at ih; simp at ih

theorem word_some (k : Option Char → List Char → Option α) (r : α) : ∀ (w : List Char) (prev : Option Char) (s : List Char),
    word k w prev s = some r ↔ ∃ u t, s = u ++ t ∧ u.map Char.toLower = w ∧ k (after prev u) t = some r
  | [], prev, s => by
    constructor
    · intro h; exact ⟨[], s, rfl, rfl, by simpa [word] using h⟩
    · rintro ⟨u, t, rfl, hu, hk⟩
      obtain rfl : u = [] := by simpa using hu
      simpa [word] using hk
  | w :: ws, prev, [] => by
    constructor
    · intro h; simp [word] at h
    · rintro ⟨u, t, hs, hu, hk⟩
      obtain ⟨rfl, rfl⟩ : u = [] ∧ t = [] := by simpa using hs.symm
      simp at hu
  | w :: ws, prev, c :: t => by
    unfold word
    constructor
    · intro h
      by_cases hc : c.toLower = w
      · rw [if_pos hc] at h
        obtain ⟨u, t', rfl, hu, hk⟩ := (word_some k r ws (some c) t).1 h
        exact ⟨c :: u, t', rfl, by simp [hc, hu], by rw [after_cons]; exact hk⟩
      · rw [if_neg hc] at h; simp at h
    · rintro ⟨u, t', hs, hu, hk⟩
      cases u with
      | nil => simp at hu
      | cons d u =>
        simp only [List.cons_append, List.cons.injEq] at hs
        simp only [List.map_cons, List.cons.injEq] at hu
        obtain ⟨rfl, rfl⟩ := hs
        rw [if_pos hu.1]
        exact (word_some k r ws (some c) _).2 ⟨u, t', rfl, hu.2, by rw [after_cons] at hk; exact hk⟩

/-- What `run` finds is a match. -/
theorem M_of_run : ∀ (ps : List Pat) (prev : Option Char) (s : List Char) (caps : List (List Char)), run uni ps prev s = some caps → M uni ps prev s caps
  | [], _, _, caps, h => by simp [run] at h; simp [M, h]
  | .ws :: ps, prev, s, caps, h => by
    simp only [run, step] at h
    obtain ⟨u, t, rfl, hu, hk⟩ := star_some _ _ _ _ _ _ h
    exact ⟨u, t, rfl, hu, M_of_run ps _ _ _ hk⟩
  | .kw w :: ps, prev, s, caps, h => by
    simp only [run, step] at h
    obtain ⟨u, t, rfl, hu, hk⟩ := (word_some _ _ _ _ _).1 h
    exact ⟨u, t, rfl, hu, M_of_run ps _ _ _ hk⟩
  | .name :: ps, prev, s, caps, h => by
    simp only [run, step] at h
    obtain ⟨u, t, rfl, hu, hk⟩ := star_some _ _ _ _ _ _ h
    obtain ⟨caps', hk', rfl⟩ := Option.map_eq_some_iff.1 hk
    exact ⟨u, t, caps', rfl, hu, by simp, M_of_run ps _ _ _ hk'⟩
  | .table :: ps, prev, s, caps, h => by
    simp only [run, step] at h
    split at h
    · next r hq =>
      obtain rfl : r = caps := by simpa using h
      cases s with
      | nil => simp at hq
      | cons c t =>
        simp only at hq
        by_cases hc : c = '`'
        · rw [if_pos hc] at hq
          obtain ⟨u, t', rfl, hu, hk⟩ := star_some _ _ _ _ _ _ hq
          cases t' with
          | nil => simp [closing] at hk
          | cons d v =>
            simp only [closing] at hk
            by_cases hd : d = '`'
            · rw [if_pos hd] at hk
              obtain ⟨caps', hk', rfl⟩ := Option.map_eq_some_iff.1 hk
              subst hc hd
              exact ⟨u, v, caps', hu, by simp, .inl ⟨rfl, M_of_run ps _ _ _ hk'⟩⟩
            · rw [if_neg hd] at hk; simp at hk
        · rw [if_neg hc] at hq; simp at hq
    · by_cases hb : boundary uni prev s = true
      · rw [if_pos hb] at h
        obtain ⟨u, t, rfl, hu, hk⟩ := star_some _ _ _ _ _ _ h
        obtain ⟨caps', hk', rfl⟩ := Option.map_eq_some_iff.1 hk
        exact ⟨u, t, caps', hu, by simp, .inr ⟨hb, rfl, M_of_run ps _ _ _ hk'⟩⟩
      · rw [if_neg hb] at h; simp at h
  | .ch c :: ps, prev, s, caps, h => by
    cases s with
    | nil => simp [run, step] at h
    | cons d t =>
      simp only [run, step] at h
      by_cases hd : d = c
      · rw [if_pos hd] at h; subst hd
        exact ⟨t, rfl, M_of_run ps _ _ _ h⟩
      · rw [if_neg hd] at h; simp at h
  | .fin :: ps, prev, s, caps, h => by
    simp only [run, step] at h
    by_cases he : atEnd s = true
    · rw [if_pos he] at h; exact ⟨he, M_of_run ps _ _ _ h⟩
    · rw [if_neg he] at h; simp at h

/-- If there is a match, `run` finds one. -/
theorem run_isSome : ∀ (ps : List Pat) (prev : Option Char) (s : List Char) (caps : List (List Char)), M uni ps prev s caps → (run uni ps prev s).isSome = true
  | [], _, _, _, _ => rfl
  | .ws :: ps, prev, s, caps, h => by
    obtain ⟨u, r, rfl, hu, hm⟩ := h
    exact star_isSome _ _ _ _ _ _ hu (run_isSome ps _ _ _ hm)
  | .kw w :: ps, prev, s, caps, h => by
    obtain ⟨u, r, rfl, hu, hm⟩ := h
    obtain ⟨c, hc⟩ := Option.isSome_iff_exists.1 (run_isSome ps _ _ _ hm)
    have := (word_some (run uni ps) c w prev (u ++ r)).2 ⟨u, r, rfl, hu, hc⟩
    simp [run, step, this]
  | .name :: ps, prev, s, caps, h => by
    obtain ⟨u, r, caps', rfl, hu, rfl, hm⟩ := h
    exact star_isSome _ _ _ _ _ _ hu (by simpa using run_isSome ps _ _ _ hm)
  | .table :: ps, prev, s, caps, h => by
    obtain ⟨u, r, caps', hu, rfl, h⟩ := h
    simp only [run, step]
    split
    · rfl
    · next hq =>
      rcases h with ⟨rfl, hm⟩ | ⟨hb, rfl, hm⟩
      · exfalso
        simp only [List.cons_append, if_pos] at hq
        have := star_isSome (isWord uni) (closing (run uni ps)) u ('`' :: r) [] (some '`') hu
          (by simpa [closing] using run_isSome ps _ _ _ hm)
        rw [hq] at this
        simp at this
      · rw [if_pos hb]
        exact star_isSome _ _ _ _ _ _ hu (by simpa using run_isSome ps _ _ _ hm)
  | .ch c :: ps, prev, s, caps, h => by
    obtain ⟨r, rfl, hm⟩ := h
    simpa [run, step] using run_isSome ps _ _ _ hm
  | .fin :: ps, prev, s, caps, h => by
    simp only [run, step, if_pos h.1]
    exact run_isSome ps _ _ _ h.2

theorem run_eq_none_iff (ps : List Pat) (prev : Option Char) (s : List Char) : run uni ps prev s = none ↔ ∀ caps, ¬ M uni ps prev s caps := by
  constructor
  · intro h caps hm
    have := run_isSome uni ps prev s caps hm
    rw [h] at this; simp at this
  · intro h
    cases hr : run uni ps prev s with
    | none => rfl
    | some caps => exact absurd (M_of_run uni ps prev s caps hr) (h caps)

theorem run_eq_some {ps : List Pat} {prev : Option Char} {s : List Char} {caps : List (List Char)} (h : M uni ps prev s caps)
    (hu : ∀ caps', M uni ps prev s caps' → caps' = caps) : run uni ps prev s = some caps := by
  cases hr : run uni ps prev s with
  | none => exact absurd h ((run_eq_none_iff uni ps prev s).1 hr caps)
  | some caps' => rw [hu caps' (M_of_run uni ps prev s caps' hr)]

end

end EulerDB.Alter
