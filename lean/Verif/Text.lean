import Verif.Py

/-!
# Decimal numbers and splitting of strings

`str(n)`, `int(s)`, `s.split(c)` and `c.join(l)` as the code uses them.
-/

namespace EulerDB.Text

open EulerDB

/-- `str(n)` for a non-negative integer. -/
def natStr (n : Nat) : List Char := Nat.toDigits 10 n

/-- `str(z)`. -/
def intStr (z : Int) : List Char := if z < 0 then '-' :: natStr z.natAbs else natStr z.natAbs

/-- `int(s)` on unsigned decimal digits.  Python also accepts a sign, surrounding blanks and single underscores between digits; those never
occur in the strings the code passes here and are rejected by the model. -/
def parseNat (s : List Char) : Except PyErr Nat :=
  if s ≠ [] ∧ s.all Char.isDigit then .ok (Nat.ofDigitChars 10 s 0) else .error .valueError

/-- `int(s)` with an optional minus sign. -/
def parseInt (s : List Char) : Except PyErr Int :=
  match s with
  | '-' :: r =>
    match parseNat r with
    | .error e => .error e
    | .ok n => .ok (-(n : Int))
  | s =>
    match parseNat s with
    | .error e => .error e
    | .ok n => .ok (n : Int)

/-- `s.split(sep)` for a one-character separator. -/
def split (sep : Char) : List Char → List (List Char)
  | [] => [[]]
  | c :: r =>
    if c = sep then [] :: split sep r
    else
      match split sep r with
      | [] => [[c]]
      | w :: ws => (c :: w) :: ws

/-- `sep.join(l)`. -/
def join (sep : Char) : List (List Char) → List Char
  | [] => []
  | [w] => w
  | w :: ws => w ++ sep :: join sep ws

/-! ### Lemmas -/

theorem natStr_ne_nil (n : Nat) : natStr n ≠ [] := Nat.toDigits_ne_nil

theorem natStr_digit {n : Nat} {c : Char} (h : c ∈ natStr n) : c.isDigit = true :=
  Nat.isDigit_of_mem_toDigits (by decide) (by decide) h

theorem parseNat_natStr (n : Nat) : parseNat (natStr n) = .ok n := by
  unfold parseNat
  rw [if_pos ⟨natStr_ne_nil n, List.all_eq_true.2 fun c hc => natStr_digit hc⟩]
  unfold natStr
  rw [Nat.ofDigitChars_ten_toDigits]

theorem natStr_inj {a b : Nat} (h : natStr a = natStr b) : a = b := by
  have := parseNat_natStr a
  rw [h, parseNat_natStr b] at this
  injection this with this
  exact this.symm

theorem natStr_head (n : Nat) : ∃ c r, natStr n = c :: r ∧ c.isDigit = true := by
  cases h : natStr n with
  | nil => exact absurd h (natStr_ne_nil n)
  | cons c r => exact ⟨c, r, rfl, natStr_digit (by rw [h]; simp)⟩

theorem parseInt_intStr (z : Int) : parseInt (intStr z) = .ok z := by
  unfold intStr
  split
  · unfold parseInt
    simp only [parseNat_natStr]
    congr 1; omega
  · obtain ⟨c, r, h, hd⟩ := natStr_head z.natAbs
    have hc : c ≠ '-' := by rintro rfl; revert hd; decide
    have hp := parseNat_natStr z.natAbs
    rw [h] at hp ⊢
    unfold parseInt
    split
    · rename_i heq; injection heq with h1 _; exact absurd h1 hc
    · rw [hp]; simp only; congr 1; omega

theorem intStr_inj {a b : Int} (h : intStr a = intStr b) : a = b := by
  have := parseInt_intStr a
  rw [h, parseInt_intStr b] at this
  injection this with this
  exact this.symm

theorem intStr_chars {z : Int} {c : Char} (h : c ∈ intStr z) : c = '-' ∨ c.isDigit = true := by
  unfold intStr at h
  split at h
  · rcases List.mem_cons.1 h with h | h
    · exact Or.inl h
    · exact Or.inr (natStr_digit h)
  · exact Or.inr (natStr_digit h)

theorem split_ne_nil (sep : Char) : ∀ p, split sep p ≠ []
  | [] => by simp [split]
  | c :: r => by
    unfold split
    split
    · simp
    · split <;> simp

theorem split_word {sep : Char} (w : List Char) (h : sep ∉ w) : split sep w = [w] := by
  induction w with
  | nil => rfl
  | cons c w ih =>
    simp only [List.mem_cons, not_or] at h
    unfold split
    rw [if_neg (fun e => h.1 e.symm), ih h.2]

theorem split_append {sep : Char} (w p : List Char) (h : sep ∉ w) : split sep (w ++ sep :: p) = w :: split sep p := by
  induction w with
  | nil => simp [split]
  | cons c w ih =>
    simp only [List.mem_cons, not_or] at h
    rw [List.cons_append]
    conv_lhs => unfold split
    rw [if_neg (fun e => h.1 e.symm), ih h.2]

/-- Splitting undoes joining when no part contains the separator. -/
theorem split_join {sep : Char} : ∀ (ws : List (List Char)), ws ≠ [] → (∀ w ∈ ws, sep ∉ w) → split sep (join sep ws) = ws
  | [], h, _ => absurd rfl h
  | [w], _, h => by
    unfold join
    exact split_word w (h w (by simp))
  | w :: a :: b, _, h => by
    unfold join
    rw [split_append _ _ (h w (by simp)), split_join (a :: b) (by simp) (fun v hv => h v (by simp [hv]))]

/-- Joining undoes splitting. -/
theorem join_split {sep : Char} : ∀ s : List Char, join sep (split sep s) = s
  | [] => rfl
  | c :: r => by
    have ih := join_split (sep := sep) r
    unfold split
    split
    · rename_i h
      subst h
      cases hs : split c r with
      | nil => exact absurd hs (split_ne_nil _ _)
      | cons w ws => rw [hs] at ih; simp [join, ih]
    · cases hs : split sep r with
      | nil => exact absurd hs (split_ne_nil _ _)
      | cons w ws =>
        rw [hs] at ih
        simp only
        cases ws with
        | nil => simp only [join] at ih ⊢; rw [ih]
        | cons v vs => simp only [join] at ih ⊢; rw [List.cons_append, ih]

theorem split_parts {sep : Char} : ∀ (p : List Char), ∀ w ∈ split sep p, sep ∉ w
  | [], w, hw => by
    simp only [split, List.mem_singleton] at hw
    subst hw; simp
  | d :: r, w, hw => by
    have ih := split_parts (sep := sep) r
    unfold split at hw
    split at hw
    · rcases List.mem_cons.1 hw with rfl | hw
      · simp
      · exact ih w hw
    · rename_i hd
      split at hw
      · simp only [List.mem_singleton] at hw
        subst hw
        simp only [List.mem_singleton]
        exact fun e => hd e.symm
      · rename_i v vs hv
        rcases List.mem_cons.1 hw with rfl | hw
        · simp only [List.mem_cons, not_or]
          exact ⟨fun e => hd e.symm, ih v (by rw [hv]; simp)⟩
        · exact ih w (by rw [hv]; simp [hw])

theorem not_mem_natStr {c : Char} (h : c.isDigit = false) (n : Nat) : c ∉ natStr n := by
  intro hc
  rw [natStr_digit hc] at h; cases h

end EulerDB.Text
