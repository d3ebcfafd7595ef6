/-
C104: looking back matches exactly if the expression matches a text that ends at the place, no longer than allowed.
-/
import Verif.Behind.Model

namespace EulerDB.Behind

theorem search_iff (c : Cfg) (start p : Nat) : ∀ n off, n + off ≤ start + 1 → (search c start n off = some p ↔
    ∃ k, off ≤ k ∧ k < off + n ∧ p = start - k ∧ c.good start p = true ∧
      ∀ j, off ≤ j → j < k → c.good start (start - j) = false) := by
  intro n
  induction n with
  | zero =>
    intro off _
    simp only [search, reduceCtorEq, false_iff]
    rintro ⟨k, h1, h2, -⟩
    omega
  | succ n ih =>
    intro off h
    rw [search]
    by_cases hg : c.good start (start - off) = true
    · rw [if_pos hg]
      constructor
      · intro hp
        obtain rfl := Option.some.inj hp
        exact ⟨off, Nat.le_refl _, by omega, rfl, hg, fun j a b => by omega⟩
      · rintro ⟨k, h1, h2, rfl, h4, h5⟩
        by_cases hk : k = off
        · rw [hk]
        · rw [h5 off (Nat.le_refl _) (by omega)] at hg
          simp at hg
    · rw [if_neg hg, ih (off + 1) (by omega)]
      constructor
      · rintro ⟨k, h1, h2, rfl, h4, h5⟩
        refine ⟨k, by omega, by omega, rfl, h4, fun j a b => ?_⟩
        by_cases hj : j = off
        · rw [hj]; simpa using hg
        · exact h5 j (by omega) b
      · rintro ⟨k, h1, h2, rfl, h4, h5⟩
        have hk : k ≠ off := by rintro rfl; exact hg h4
        exact ⟨k, by omega, by omega, rfl, h4, fun j a b => h5 j (by omega) b⟩

/-- Looking back does not move, and what is found begins at or before the place. -/
theorem C104_stays (c : Cfg) (r : Option Nat) (k : Kind) (start p e : Nat) (h : behind c r k start = some (p, e)) :
    e = start ∧ p + c.min ≤ start := by
  cases k with
  | exact =>
    simp only [behind] at h
    by_cases h1 : start < c.min
    · rw [if_pos h1] at h; simp at h
    · rw [if_neg h1] at h
      cases h2 : c.parse c.len (start - c.min) with
      | none => rw [h2] at h; simp at h
      | some x =>
        rw [h2] at h
        simp only [Option.some.injEq, Prod.mk.injEq] at h
        omega
  | window =>
    simp only [behind, Option.map_eq_some_iff, Prod.mk.injEq] at h
    obtain ⟨q, hq, rfl, rfl⟩ := h
    by_cases hm : c.min ≤ start + 1
    · obtain ⟨k, h1, h2, rfl, -⟩ := (search_iff c start q _ _ (by omega)).mp hq
      exact ⟨rfl, by omega⟩
    · rw [show start + 1 - c.min = 0 by omega, search] at hq
      simp at hq

/-- An expression whose matches have one length is found exactly if it ends at the place. -/
theorem C104_exact_partial (c : Cfg) (h : ∀ p e, c.parse c.len p = some e → e = p + c.min) (r : Option Nat) (start p : Nat) :
    behind c r .exact start = some (p, start) ↔ c.parse c.len p = some start := by
  simp only [behind]
  constructor
  · intro hb
    by_cases h1 : start < c.min
    · rw [if_pos h1] at hb; simp at hb
    · rw [if_neg h1] at hb
      cases h2 : c.parse c.len (start - c.min) with
      | none => rw [h2] at hb; simp at hb
      | some x =>
        rw [h2] at hb
        simp only [Option.some.injEq, Prod.mk.injEq, and_true] at hb
        have := h _ _ h2
        rw [← hb, h2, this]
        congr 1
        omega
  · intro hp
    have := h _ _ hp
    rw [if_neg (by omega), show start - c.min = p by omega, hp]

/-- Otherwise the nearest place from which the expression and the end of the text are read is found. -/
theorem C104_window_iff (c : Cfg) (r : Option Nat) (start p : Nat) : behind c r .window start = some (p, start) ↔
    p + c.min ≤ start ∧ c.good start p = true ∧ ∀ q, p < q → q + c.min ≤ start → c.good start q = false := by
  simp only [behind, Option.map_eq_some_iff, Prod.mk.injEq, and_true, exists_eq_right]
  by_cases hm : c.min ≤ start
  · rw [search_iff c start p _ _ (by omega)]
    constructor
    · rintro ⟨k, h1, h2, rfl, h4, h5⟩
      refine ⟨by omega, h4, fun q a b => ?_⟩
      have := h5 (start - q) (by omega) (by omega)
      rwa [show start - (start - q) = q by omega] at this
    · rintro ⟨h1, h2, h3⟩
      refine ⟨start - p, by omega, by omega, by omega, h2, fun j a b => h3 _ (by omega) (by omega)⟩
  · rw [show start + 1 - c.min = 0 by omega, search]
    constructor
    · intro h; simp at h
    · rintro ⟨h, -⟩; omega

theorem window_some (c : Cfg) (r : Option Nat) (start p : Nat) (h1 : p + c.min ≤ start) (h2 : c.good start p = true) :
    ∃ q, p ≤ q ∧ behind c r .window start = some (q, start) := by
  suffices h : ∀ n p, start - p ≤ n → p + c.min ≤ start → c.good start p = true →
      ∃ q, p ≤ q ∧ behind c r .window start = some (q, start) from h _ p (Nat.le_refl _) h1 h2
  intro n
  induction n with
  | zero =>
    intro p hn a b
    exact ⟨p, Nat.le_refl _, (C104_window_iff c r start p).mpr ⟨a, b, fun q _ _ => by omega⟩⟩
  | succ n ih =>
    intro p hn a b
    by_cases hx : ∃ q, p < q ∧ q + c.min ≤ start ∧ c.good start q = true
    · obtain ⟨q, x1, x2, x3⟩ := hx
      obtain ⟨t, y1, y2⟩ := ih q (by omega) x2 x3
      exact ⟨t, by omega, y2⟩
    · refine ⟨p, Nat.le_refl _, (C104_window_iff c r start p).mpr ⟨a, b, fun q x y => ?_⟩⟩
      by_contra hc
      exact hx ⟨q, x, y, by simpa using hc⟩

/-- A text that ends at the place is found, whatever its length. -/
theorem C104_found (c : Cfg) (hg : ∀ l q, q ≤ c.gap l q) (r : Option Nat) (start p : Nat) (h1 : p + c.min ≤ start)
    (h2 : c.parse start p = some start) : ∃ q, p ≤ q ∧ behind c r .window start = some (q, start) := by
  refine window_some c r start p h1 ?_
  have := hg start start
  have hi : start ≤ c.index start p start := by rw [Cfg.index]; split <;> omega
  simp [Cfg.good, h2, hi]

/-- Where white space and line breaks are not passed, what is found ends at the place. -/
theorem C104_sound_partial (c : Cfg) (hg : ∀ l q, c.gap l q = q) (hb : ∀ l q, c.breaks l q = false)
    (hp : ∀ l p e, c.parse l p = some e → p ≤ e ∧ e ≤ l) (r : Option Nat) (start p : Nat)
    (h : behind c r .window start = some (p, start)) : c.parse start p = some start := by
  obtain ⟨h1, h2, -⟩ := (C104_window_iff c r start p).mp h
  rw [Cfg.good] at h2
  cases hx : c.parse start p with
  | none => rw [hx] at h2; simp at h2
  | some e =>
    rw [hx] at h2
    have := hp _ _ _ hx
    simp only [hb, Bool.or_false, decide_eq_true_eq, Cfg.index, hg] at h2
    congr 1
    split at h2 <;> omega

/-- White space between the expression and the place does not keep it from being found. -/
theorem C104_fails_blank (c : Cfg) (r : Option Nat) (start p e : Nat) (h1 : p + c.min ≤ start) (h2 : c.parse start p = some e)
    (h3 : p < e) (h4 : c.gap start e = start) : ∃ q, p ≤ q ∧ behind c r .window start = some (q, start) := by
  refine window_some c r start p h1 ?_
  simp [Cfg.good, h2, Cfg.index, h3, h4]

/-- The expression is the letter at 0; a blank follows. -/
def blank : Cfg where
  len := 2
  parse _ p := if p = 0 then some 1 else none
  gap l _ := l
  breaks _ _ := false
  min := 1

example : behind blank none .window 2 = some (0, 2) ∧ ∀ p, blank.parse 2 p ≠ some 2 :=
  ⟨by decide, fun p => by simp only [blank]; split <;> simp⟩
example : blank.parse 2 0 = some 1 ∧ blank.gap 2 1 = 2 := by decide

/-- The argument `retreat` is not used. -/
theorem C104_fails_retreat (c : Cfg) (r : Nat) (k : Kind) (start : Nat) : behind c (some r) k start = behind c none k start := rfl

/-- The expression is the whole text. -/
def whole : Cfg where
  len := 0
  parse l p := if p = 0 then some l else none
  gap _ q := q
  breaks _ _ := false
  min := 1

/-- For every `retreat` something is found that begins further back. -/
theorem C104_fails_retreat_far (r : Nat) : behind whole (some r) .window (r + 1) = some (0, r + 1) := by
  rw [C104_window_iff]
  refine ⟨by simp [whole], by simp [whole, Cfg.good, Cfg.index], fun q a b => ?_⟩
  have : q ≠ 0 := by omega
  simp [whole, Cfg.good, this]

/-- There is a regular expression of it only for an expression of one length. -/
theorem C104_fails_regex (k : Kind) (r : List Char) : (∃ x, regex k r = .ok x) ↔ k = .exact := by
  cases k <;> simp [regex]

/-- The expression is two letters. -/
def pair : Cfg where
  len := 5
  parse l p := if p = 1 ∧ 3 ≤ l then some 3 else none
  gap _ q := q
  breaks _ _ := false
  min := 2

example : ∀ p e, pair.parse pair.len p = some e → e = p + pair.min := by
  intro p e h
  simp only [pair] at h ⊢
  split at h
  · simp only [Option.some.injEq] at h; omega
  · simp at h
example : behind pair none .exact 3 = some (1, 3) := by decide
example : behind pair none .window 3 = some (1, 3) := by decide
example : ∀ l p e, pair.parse l p = some e → p ≤ e ∧ e ≤ l := by
  intro l p e h
  simp only [pair] at h
  split at h
  · simp only [Option.some.injEq] at h; omega
  · simp at h

end EulerDB.Behind
