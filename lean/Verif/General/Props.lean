/-
C79: the generalised form of a statement tells nothing of the values in it: it has no digit in it, and statements that differ only
in their numbers and in their literals have the same generalised form.
-/
import Verif.General.Model

namespace EulerDB.General

open EulerDB

/-! ### Digits and quotes -/

section
variable {p : Char → Bool}

theorem countP_suffix {r s : List Char} (h : ∃ t, s = t ++ r) : r.countP p ≤ s.countP p := by
  obtain ⟨t, rfl⟩ := h
  rw [List.countP_append]; omega

theorem subst_countP {at' : List Char → Option (List Char × List Char)}
    (h : ∀ s new r, at' s = some (new, r) → new.countP p + r.countP p ≤ s.countP p) :
    ∀ (n : Nat) (s : List Char), (subst at' n s).countP p ≤ s.countP p
  | 0, s => Nat.le_refl _
  | _ + 1, [] => Nat.le_refl _
  | n + 1, c :: s => by
    rw [subst]
    cases e : at' (c :: s) with
    | none =>
      dsimp only
      have := subst_countP h n s
      rw [List.countP_cons, List.countP_cons]; omega
    | some x =>
      obtain ⟨new, r⟩ := x
      dsimp only
      have := subst_countP h n r
      have := h _ _ _ e
      rw [List.countP_append]; omega

theorem afterI_rest {eqi : Char → Char → Bool} : ∀ {w s r : List Char}, afterI eqi w s = some r → s = s.take w.length ++ r
  | [], s, r, h => by
    obtain rfl : s = r := by simpa [afterI] using h
    simp
  | d :: w, [], r, h => by simp [afterI] at h
  | d :: w, c :: s, r, h => by
    rw [afterI] at h
    split at h
    · have := afterI_rest h
      simp only [List.length_cons, List.take_succ_cons, List.cons_append]
      rw [← this]
    · cases h

theorem dropWhile_suffix (q : Char → Bool) (s : List Char) : ∃ t, s = t ++ s.dropWhile q := ⟨s.takeWhile q, (List.takeWhile_append_dropWhile).symm⟩

theorem suffix_trans {a b c : List Char} (h : ∃ t, a = t ++ b) (h' : ∃ t, b = t ++ c) : ∃ t, a = t ++ c := by
  obtain ⟨t, rfl⟩ := h
  obtain ⟨u, rfl⟩ := h'
  exact ⟨t ++ u, by simp⟩

theorem drop_tail {q : Char → Bool} {s t : List Char} {c : Char} (h : s.dropWhile q = c :: t) : ∃ u, s = u ++ t := by
  have := dropWhile_suffix q s
  rw [h] at this
  exact suffix_trans this ⟨[c], rfl⟩

theorem listAt_suffix {sp : Char → Bool} {s u : List Char} (h : listAt sp s = some u) : ∃ t, s = t ++ u := by
  unfold listAt at h
  split at h
  · rename_i r hr
    split at h
    · rename_i e1 e2
      split at h
      · rename_i e3 e4
        obtain rfl := Option.some.inj h
        have h1 := dropWhile_suffix sp s
        rw [hr] at h1
        refine suffix_trans h1 (suffix_trans ⟨['('], rfl⟩ ?_)
        have h2 := dropWhile_suffix (fun c => c != ',') r
        rw [e2] at h2
        refine suffix_trans h2 (suffix_trans ⟨[_], rfl⟩ ?_)
        exact drop_tail e4
      · cases h
    · cases h
  · cases h

theorem wordList_countP {E : Env} {w s new r : List Char} (hp : ∀ c ∈ " (XYZ)".toList, p c = false) (h : wordListAt E w s = some (new, r)) :
    new.countP p + r.countP p ≤ s.countP p := by
  unfold wordListAt at h
  cases s with
  | nil => cases h
  | cons c s =>
    dsimp only at h
    split at h
    · rename_i hc
      subst hc
      cases e : afterI E.eqi w s with
      | none => rw [e] at h; cases h
      | some r0 =>
        rw [e] at h
        simp only [Option.map_eq_some_iff, Prod.mk.injEq] at h
        obtain ⟨u, h1, rfl, rfl⟩ := h
        have h2 := countP_suffix (p := p) (listAt_suffix h1)
        have h3 := afterI_rest e
        have h4 : s.countP p = (s.take w.length).countP p + r0.countP p := by
          conv_lhs => rw [h3]
          rw [List.countP_append]
        have h5 : (" (XYZ)".toList).countP p = 0 := by
          rw [List.countP_eq_zero]; intro c hc; simp [hp c hc]
        rw [List.countP_cons, List.countP_cons, List.countP_append, h5, h4]
        omega
    · cases h

theorem in_countP {E : Env} {s new r : List Char} (hp : ∀ c ∈ " (XYZ)".toList, p c = false) (h : inAt E s = some (new, r)) :
    new.countP p + r.countP p ≤ s.countP p := by
  unfold inAt at h
  split at h
  · rename_i x e
    rw [Option.some.inj h] at e
    exact wordList_countP hp e
  · exact wordList_countP hp h

theorem stripped_countP (off : Char → Bool) (s : List Char) : (stripped off s).countP p ≤ s.countP p := by
  unfold stripped
  rw [List.countP_reverse]
  refine Nat.le_trans (countP_suffix (dropWhile_suffix off _)) ?_
  rw [List.countP_reverse]
  exact countP_suffix (dropWhile_suffix off s)

end

theorem numbers_digit : ∀ (b : Bool) (s : List Char), (numbers b s).countP Char.isDigit = 0
  | _, [] => rfl
  | b, c :: s => by
    have h1 := numbers_digit true s
    have h2 := numbers_digit false s
    rw [numbers]
    split
    · split
      · exact h1
      · rw [List.countP_cons, h1]; decide
    · rename_i hc
      split
      · rw [List.countP_cons, h1]; decide
      · rw [List.countP_cons, h2]; simp [hc]

/-- The generalised form has no digit in it. -/
theorem C79_digits_partial (E : Env) {raw out : List Char} (h : generalize E raw = .ok out) : ∀ c ∈ out, c.isDigit = false := by
  unfold generalize at h
  split at h
  · obtain rfl : [] = out := by simpa using h
    simp
  · cases e : quoteless E raw with
    | error x => rw [e] at h; cases h
    | ok s =>
      rw [e] at h
      obtain rfl : _ = out := Except.ok.inj h
      have h0 := stripped_countP (p := Char.isDigit) E.off (sub (inAt E) (numbers false (blanks E.sp false s)))
      have h1 := subst_countP (p := Char.isDigit) (at' := inAt E) (fun _ _ _ h => in_countP (by decide) h)
        (numbers false (blanks E.sp false s)).length (numbers false (blanks E.sp false s))
      rw [numbers_digit] at h1
      have h2 : (stripped E.off (sub (inAt E) (numbers false (blanks E.sp false s)))).countP Char.isDigit = 0 := by
        unfold sub at h0 ⊢; omega
      rw [List.countP_eq_zero] at h2
      intro c hc
      simpa using h2 c hc

/-! ### Statements that differ in their values -/

/-- A text without single quotes, double quotes, backslashes and per cent signs. -/
def Tame (a : List Char) : Prop := ∀ c ∈ a, c ≠ '\'' ∧ c ≠ '"' ∧ c ≠ '\\' ∧ c ≠ '%'

/-- Two statements that differ only in their numbers and in what is between single quotes. -/
inductive Same : List Char → List Char → Prop
  | nil : Same [] []
  | char {c : Char} {s s' : List Char} : Tame [c] → Same s s' → Same (c :: s) (c :: s')
  | num {a b s s' : List Char} : a ≠ [] → b ≠ [] → (∀ c ∈ a, c.isDigit = true) → (∀ c ∈ b, c.isDigit = true) → Same s s' → Same (a ++ s) (b ++ s')
  | lit {a b s s' : List Char} : Tame a → Tame b → Same s s' → Same ('\'' :: (a ++ '\'' :: s)) ('\'' :: (b ++ '\'' :: s'))

/-- Two texts that differ only in their numbers. -/
inductive SameN : List Char → List Char → Prop
  | nil : SameN [] []
  | char {c : Char} {s s' : List Char} : SameN s s' → SameN (c :: s) (c :: s')
  | num {a b s s' : List Char} : a ≠ [] → b ≠ [] → (∀ c ∈ a, c.isDigit = true) → (∀ c ∈ b, c.isDigit = true) → SameN s s' → SameN (a ++ s) (b ++ s')

/-- What is assumed of `\s` and of the letters: digits and quotes are no whitespace, and no letter of LIKE is matched by whitespace. -/
structure Sane (E : Env) : Prop where
  digit : ∀ c, c.isDigit = true → E.sp c = false
  quote : E.sp '\'' = false
  self : ∀ c, E.eqi c c = true
  like : ∀ d ∈ "LIKE".toList, ∀ c, E.sp c = true ∨ c = ' ' → E.eqi d c = false

theorem Same.sym {s s' : List Char} (h : Same s s') : Same s' s := by
  induction h with
  | nil => exact .nil
  | char h _ ih => exact .char h ih
  | num h1 h2 h3 h4 _ ih => exact .num h2 h1 h4 h3 ih
  | lit h1 h2 _ ih => exact .lit h2 h1 ih

theorem digit_tame {a : List Char} (h : ∀ c ∈ a, c.isDigit = true) : Tame a := by
  intro c hc
  have := h c hc
  refine ⟨?_, ?_, ?_, ?_⟩ <;> rintro rfl <;> exact absurd this (by decide)

/-- A text of the relation has no double quotes, backslashes and per cent signs. -/
theorem Same.chars {s s' : List Char} (h : Same s s') : ∀ c ∈ s, c ≠ '"' ∧ c ≠ '\\' ∧ c ≠ '%' := by
  induction h with
  | nil => simp
  | char h _ ih =>
    intro x hx
    rcases List.mem_cons.1 hx with rfl | hx
    · exact (h x (by simp)).2
    · exact ih x hx
  | num h1 h2 h3 h4 _ ih =>
    intro x hx
    rcases List.mem_append.1 hx with hx | hx
    · exact (digit_tame h3 x hx).2
    · exact ih x hx
  | lit h1 h2 _ ih =>
    intro x hx
    rcases List.mem_cons.1 hx with rfl | hx
    · decide
    · rcases List.mem_append.1 hx with hx | hx
      · exact (h1 x hx).2
      · rcases List.mem_cons.1 hx with rfl | hx
        · decide
        · exact ih x hx

theorem without_id {c : Char} {s : List Char} (h : ∀ x ∈ s, x ≠ c) : without c s = s := by
  unfold without
  rw [List.filter_eq_self]
  intro x hx
  simpa using h x hx

/-! Whitespace -/

section
variable {sp : Char → Bool}

theorem squeeze_word : ∀ {a : List Char} (b : Bool) (s : List Char), (∀ c ∈ a, sp c = false) → a ≠ [] → squeeze sp b (a ++ s) = a ++ squeeze sp false s
  | [c], b, s, h, _ => by
    have := h c (by simp)
    simp [squeeze, this]
  | c :: d :: a, b, s, h, _ => by
    have := h c (by simp)
    have ih := squeeze_word (a := d :: a) false s (fun x hx => h x (by simp [hx])) (by simp)
    rw [List.cons_append, squeeze, if_neg (by simp [this]), ih]
    rfl

theorem squeeze_stop {q : Char} (hq : sp q = false) : ∀ (b : Bool) (a s : List Char), squeeze sp b (a ++ q :: s) = squeeze sp b a ++ q :: squeeze sp false s
  | b, [], s => by simp [squeeze, hq]
  | b, c :: a, s => by
    have ih := fun b => squeeze_stop hq b a s
    have hh : ((a ++ q :: s).head?.any sp) = (a.head?.any sp) := by
      cases a with
      | nil => simp [hq]
      | cons d a => rfl
    rw [List.cons_append, squeeze, squeeze, hh]
    simp only [ih]
    split
    · split
      · rfl
      · split <;> rfl
    · rfl

theorem squeeze_tame : ∀ (b : Bool) {a : List Char}, Tame a → Tame (squeeze sp b a)
  | _, [], _ => by simp [squeeze, Tame]
  | b, c :: a, h => by
    have ih := fun b => squeeze_tame b (a := a) (fun x hx => h x (by simp [hx]))
    have hc := h c (by simp)
    rw [squeeze]
    split
    · split
      · exact ih _
      · split
        · intro x hx
          rcases List.mem_cons.1 hx with rfl | hx
          · decide
          · exact ih _ x hx
        · intro x hx
          rcases List.mem_cons.1 hx with rfl | hx
          · exact hc
          · exact ih _ x hx
    · intro x hx
      rcases List.mem_cons.1 hx with rfl | hx
      · exact hc
      · exact ih _ x hx

theorem Same.head (hd : ∀ c, c.isDigit = true → sp c = false) {s s' : List Char} (h : Same s s') : s.head?.any sp = s'.head?.any sp := by
  cases h with
  | nil => rfl
  | char _ _ => rfl
  | @num a b _ _ h1 h2 h3 h4 _ =>
    obtain ⟨x, a, rfl⟩ := List.exists_cons_of_ne_nil h1
    obtain ⟨y, b, rfl⟩ := List.exists_cons_of_ne_nil h2
    simp [hd x (h3 x (by simp)), hd y (h4 y (by simp))]
  | lit _ _ _ => rfl

theorem Same.squeeze (hd : ∀ c, c.isDigit = true → sp c = false) (hq : sp '\'' = false) {s s' : List Char} (h : Same s s') :
    ∀ b, Same (General.squeeze sp b s) (General.squeeze sp b s') := by
  induction h with
  | nil => intro b; exact .nil
  | @char c s s' hc h ih =>
    intro b
    rw [General.squeeze, General.squeeze, h.head hd]
    split
    · split
      · exact ih true
      · split
        · exact .char (by rintro x hx; rcases List.mem_singleton.1 hx with rfl; decide) (ih true)
        · exact .char hc (ih false)
    · exact .char hc (ih false)
  | num h1 h2 h3 h4 _ ih =>
    intro b
    rw [squeeze_word b _ (fun c hc => hd c (h3 c hc)) h1, squeeze_word b _ (fun c hc => hd c (h4 c hc)) h2]
    exact .num h1 h2 h3 h4 (ih false)
  | lit h1 h2 _ ih =>
    intro b
    rw [General.squeeze, General.squeeze]
    simp only [hq, Bool.false_eq_true, if_false]
    rw [squeeze_stop hq, squeeze_stop hq]
    exact .lit (squeeze_tame _ h1) (squeeze_tame _ h2) (ih false)

theorem blanks_word : ∀ {a : List Char} (b : Bool) (s : List Char), (∀ c ∈ a, sp c = false) → a ≠ [] → blanks sp b (a ++ s) = a ++ blanks sp false s
  | [c], b, s, h, _ => by
    have := h c (by simp)
    simp [blanks, this]
  | c :: d :: a, b, s, h, _ => by
    have := h c (by simp)
    have ih := blanks_word (a := d :: a) false s (fun x hx => h x (by simp [hx])) (by simp)
    rw [List.cons_append, blanks, if_neg (by simp [this]), ih]
    rfl

theorem SameN.blanks (hd : ∀ c, c.isDigit = true → sp c = false) {s s' : List Char} (h : SameN s s') :
    ∀ b, SameN (General.blanks sp b s) (General.blanks sp b s') := by
  induction h with
  | nil => intro b; exact .nil
  | @char c s s' h ih =>
    intro b
    rw [General.blanks, General.blanks]
    split
    · split
      · exact ih true
      · exact .char (ih true)
    · exact .char (ih false)
  | num h1 h2 h3 h4 _ ih =>
    intro b
    rw [blanks_word b _ (fun c hc => hd c (h3 c hc)) h1, blanks_word b _ (fun c hc => hd c (h4 c hc)) h2]
    exact .num h1 h2 h3 h4 (ih false)

end

/-! Numbers -/

theorem numbers_run : ∀ {a : List Char} (b : Bool) (s : List Char), (∀ c ∈ a, c.isDigit = true) → a ≠ [] →
    numbers b (a ++ s) = (if b then [] else ['N']) ++ numbers true s
  | [c], b, s, h, _ => by
    have := h c (by simp)
    cases b <;> simp [numbers, this]
  | c :: d :: a, b, s, h, _ => by
    have := h c (by simp)
    have ih := numbers_run (a := d :: a) true s (fun x hx => h x (by simp [hx])) (by simp)
    rw [List.cons_append, numbers, if_pos this, ih]
    cases b <;> simp

theorem SameN.head {s s' : List Char} (h : SameN s s') : s.head?.any Char.isDigit = s'.head?.any Char.isDigit := by
  cases h with
  | nil => rfl
  | char _ => rfl
  | @num a b _ _ h1 h2 h3 h4 _ =>
    obtain ⟨x, a, rfl⟩ := List.exists_cons_of_ne_nil h1
    obtain ⟨y, b, rfl⟩ := List.exists_cons_of_ne_nil h2
    simp [h3 x (by simp), h4 y (by simp)]

theorem SameN.numbers {s s' : List Char} (h : SameN s s') : ∀ b, General.numbers b s = General.numbers b s' := by
  induction h with
  | nil => intro b; rfl
  | @char c s s' h ih =>
    intro b
    rw [General.numbers, General.numbers, h.head, ih true, ih false]
  | num h1 h2 h3 h4 _ ih =>
    intro b
    rw [numbers_run b _ h3 h1, numbers_run b _ h4 h2, ih true]

/-! Replacing -/

section
variable {at' : List Char → Option (List Char × List Char)}

theorem subst_fuel (hs : ∀ s new r, at' s = some (new, r) → r.length < s.length) :
    ∀ (n m : Nat) (s : List Char), s.length ≤ n → s.length ≤ m → subst at' n s = subst at' m s
  | 0, m, s, h, _ => by
    obtain rfl : s = [] := List.length_eq_zero_iff.1 (by omega)
    cases m <;> rfl
  | n + 1, 0, s, _, h => by
    obtain rfl : s = [] := List.length_eq_zero_iff.1 (by omega)
    rfl
  | n + 1, m + 1, [], _, _ => rfl
  | n + 1, m + 1, c :: s, h, h' => by
    rw [subst, subst]
    simp only [List.length_cons] at h h'
    cases e : at' (c :: s) with
    | none => dsimp only; rw [subst_fuel hs n m s (by omega) (by omega)]
    | some x =>
      obtain ⟨new, r⟩ := x
      have := hs _ _ _ e
      simp only [List.length_cons] at this
      dsimp only
      rw [subst_fuel hs n m r (by omega) (by omega)]

theorem sub_none {c : Char} {s : List Char} (h : at' (c :: s) = none) : sub at' (c :: s) = c :: sub at' s := by
  unfold sub
  rw [List.length_cons, subst, h]

theorem sub_some (hs : ∀ s new r, at' s = some (new, r) → r.length < s.length) {s new r : List Char} (h : at' s = some (new, r)) :
    sub at' s = new ++ sub at' r := by
  have hl := hs _ _ _ h
  unfold sub
  cases s with
  | nil => simp at hl
  | cons c s =>
    simp only [List.length_cons] at hl
    rw [List.length_cons, subst, h]
    dsimp only
    rw [subst_fuel hs s.length r.length r (by omega) (by omega)]

/-- What is found nowhere is not replaced. -/
theorem sub_id : ∀ {s : List Char}, (∀ t r, s = t ++ r → at' r = none) → sub at' s = s
  | [], _ => rfl
  | c :: s, h => by
    rw [sub_none (h [] _ rfl), sub_id]
    intro t r he
    exact h (c :: t) r (by rw [he]; rfl)

end

theorem after_head {w s r : List Char} {d : Char} (h : after (d :: w) s = some r) : ∃ s', s = d :: s' := by
  cases s with
  | nil => simp [after] at h
  | cons c s =>
    rw [after] at h
    split at h
    · rename_i hc; exact ⟨s, by rw [hc]⟩
    · cases h

theorem remove_id {w s : List Char} (h : '\\' ∉ s) : remove ('\\' :: w) s = s := by
  refine sub_id fun t r he => ?_
  cases e : after ('\\' :: w) r with
  | none => rfl
  | some u =>
    obtain ⟨s', rfl⟩ := after_head e
    exact absurd (by rw [he]; simp) h

theorem quotedAt_none {q c : Char} (h : c ≠ q) (s : List Char) : quotedAt q (c :: s) = none := by
  rw [quotedAt, if_neg h]

theorem quotedAt_shorter {q : Char} (s new r : List Char) (h : quotedAt q s = some (new, r)) : r.length < s.length := by
  unfold quotedAt at h
  cases s with
  | nil => cases h
  | cons c s =>
    dsimp only at h
    split at h
    · split at h
      · rename_i e
        simp only [Option.some.injEq, Prod.mk.injEq] at h
        obtain ⟨-, rfl⟩ := h
        have := (List.dropWhile_sublist (l := s) (fun x => x != q)).length_le
        rw [e] at this
        simp only [List.length_cons] at this ⊢
        omega
      · cases h
    · cases h

theorem dropWhile_quote {q : Char} : ∀ {a : List Char} (s : List Char), (∀ c ∈ a, c ≠ q) → (a ++ q :: s).dropWhile (fun x => x != q) = q :: s
  | [], s, _ => by simp
  | c :: a, s, h => by
    have := h c (by simp)
    rw [List.cons_append, List.dropWhile_cons_of_pos (by simp [this])]
    exact dropWhile_quote s (fun x hx => h x (by simp [hx]))

theorem sub_quoted_word {q : Char} : ∀ {a : List Char} (s : List Char), (∀ c ∈ a, c ≠ q) → sub (quotedAt q) (a ++ s) = a ++ sub (quotedAt q) s
  | [], _, _ => rfl
  | c :: a, s, h => by
    rw [List.cons_append, sub_none (quotedAt_none (h c (by simp)) _), sub_quoted_word s (fun x hx => h x (by simp [hx]))]
    rfl

/-- Without their literals they differ only in numbers. -/
theorem Same.quoted {s s' : List Char} (h : Same s s') : SameN (sub (quotedAt '\'') s) (sub (quotedAt '\'') s') := by
  induction h with
  | nil => exact .nil
  | @char c s s' hc _ ih =>
    have := (hc c (by simp)).1
    rw [sub_none (quotedAt_none this _), sub_none (quotedAt_none this _)]
    exact .char ih
  | num h1 h2 h3 h4 _ ih =>
    rw [sub_quoted_word _ fun c hc => (digit_tame h3 c hc).1, sub_quoted_word _ fun c hc => (digit_tame h4 c hc).1]
    exact .num h1 h2 h3 h4 ih
  | @lit a b s s' h1 h2 _ ih =>
    have e : ∀ {a : List Char} (s : List Char), Tame a → quotedAt '\'' ('\'' :: (a ++ '\'' :: s)) = some (['X'], s) := by
      intro a s ha
      rw [quotedAt, if_pos rfl, dropWhile_quote s fun c hc => (ha c hc).1]
    rw [sub_some quotedAt_shorter (e s h1), sub_some quotedAt_shorter (e s' h2)]
    exact .char ih

/-! LIKE -/

/-- The word is somewhere in the text. -/
def hasI (eqi : Char → Char → Bool) (w : List Char) (s : List Char) : Prop := ∃ t r, s = t ++ r ∧ (afterI eqi w r).isSome

theorem after_afterI {eqi : Char → Char → Bool} (hs : ∀ c, eqi c c = true) : ∀ {w s r : List Char}, after w s = some r → afterI eqi w s = some r
  | [], s, r, h => h
  | d :: w, [], r, h => by simp [after] at h
  | d :: w, c :: s, r, h => by
    rw [after] at h
    split at h
    · rename_i hc
      subst hc
      rw [afterI, if_pos (hs c)]
      exact after_afterI hs h
    · cases h

theorem afterI_append {eqi : Char → Char → Bool} : ∀ {w v s : List Char}, (afterI eqi (w ++ v) s).isSome → (afterI eqi w s).isSome
  | [], _, _, _ => by simp [afterI]
  | d :: w, v, [], h => by simp [afterI] at h
  | d :: w, v, c :: s, h => by
    rw [List.cons_append, afterI] at h
    rw [afterI]
    split at h
    · rename_i hc
      rw [if_pos hc]
      exact afterI_append h
    · cases h

theorem likes_id {E : Env} (hE : Sane E) {s : List Char} (hp : '%' ∉ s) (h : ¬ hasI E.eqi "LIKE".toList s) : likes E s = .ok s := by
  have h1 : without '%' s = s := without_id fun x hx he => hp (he ▸ hx)
  have h2 : sub (fun t => (likeAt t).map fun r => ("LIKE X".toList, r)) s = s := by
    refine sub_id fun t r he => ?_
    have : likeAt r = none := by
      unfold likeAt
      cases e : after "LIKE '".toList r with
      | none => rfl
      | some u =>
        refine absurd ⟨t, r, he, ?_⟩ h
        exact afterI_append (w := "LIKE".toList) (v := [' ', '\'']) (by
          rw [show "LIKE".toList ++ [' ', '\''] = "LIKE '".toList from rfl, after_afterI hE.self e]; rfl)
    rw [this]; rfl
  have h3 : hasLike E.eqi s = false := by
    have : ∀ (t r : List Char), s = t ++ r → hasLike E.eqi r = false := by
      intro t r
      induction r generalizing t with
      | nil => intro _; rfl
      | cons c r ih =>
        intro he
        rw [hasLike, ih (t ++ [c]) (by rw [he]; simp), Bool.or_false, Bool.eq_false_iff]
        intro hx
        rw [show " LIKE X".toList = ' ' :: "LIKE X".toList from rfl, afterI] at hx
        split at hx
        · refine h ⟨t ++ [c], r, by rw [he]; simp, ?_⟩
          exact afterI_append (w := "LIKE".toList) (v := [' ', 'X']) hx
        · cases hx
    exact this [] s rfl
  unfold likes
  simp only [h1, h2, h3]
  rfl

/-- Taking whitespace away makes no LIKE. -/
theorem afterI_squeeze {E : Env} : ∀ {w s : List Char}, (∀ d ∈ w, ∀ c, E.sp c = true ∨ c = ' ' → E.eqi d c = false) →
    (afterI E.eqi w (squeeze E.sp false s)).isSome → (afterI E.eqi w s).isSome
  | [], _, _, _ => by simp [afterI]
  | d :: w, [], _, h => by simp [squeeze, afterI] at h
  | d :: w, c :: s, hw, h => by
    rw [squeeze] at h
    split at h
    · rename_i hc
      simp only [Bool.false_eq_true, if_false] at h
      split at h
      · rw [afterI, hw d (by simp) ' ' (.inr rfl)] at h; cases h
      · rw [afterI, hw d (by simp) c (.inl hc)] at h; cases h
    · rw [afterI] at h ⊢
      split at h
      · rename_i hc
        rw [if_pos hc]
        exact afterI_squeeze (fun x hx => hw x (by simp [hx])) h
      · cases h

theorem hasI_cons {eqi : Char → Char → Bool} {w : List Char} {c : Char} {s : List Char} (h : hasI eqi w s) : hasI eqi w (c :: s) := by
  obtain ⟨t, r, rfl, h⟩ := h
  exact ⟨c :: t, r, rfl, h⟩

theorem hasI_squeeze {E : Env} {w : List Char} (hne : w ≠ []) (hw : ∀ d ∈ w, ∀ c, E.sp c = true ∨ c = ' ' → E.eqi d c = false) :
    ∀ (b : Bool) {s : List Char}, hasI E.eqi w (squeeze E.sp b s) → hasI E.eqi w s
  | _, [], h => h
  | b, c :: s, h => by
    have ih := fun b => hasI_squeeze hne hw b (s := s)
    have hsp : ∀ {x : Char} {b : Bool}, (E.sp x = true ∨ x = ' ') → hasI E.eqi w (x :: squeeze E.sp b s) → hasI E.eqi w (squeeze E.sp b s) := by
      rintro x b hx ⟨t, r, he, hr⟩
      cases t with
      | nil =>
        obtain rfl : x :: squeeze E.sp b s = r := he
        cases w with
        | nil => exact absurd rfl hne
        | cons d w => rw [afterI, hw d (by simp) x hx] at hr; cases hr
      | cons y t =>
        simp only [List.cons_append, List.cons.injEq] at he
        exact ⟨t, r, he.2, hr⟩
    rw [squeeze] at h
    split at h
    · rename_i hc
      split at h
      · exact hasI_cons (ih _ h)
      · split at h
        · exact hasI_cons (ih _ (hsp (.inr rfl) h))
        · exact hasI_cons (ih _ (hsp (.inl hc) h))
    · obtain ⟨t, r, he, hr⟩ := h
      cases t with
      | nil =>
        obtain rfl : c :: squeeze E.sp false s = r := he
        refine ⟨[], c :: s, rfl, ?_⟩
        cases w with
        | nil => exact absurd rfl hne
        | cons d w =>
          rw [afterI] at hr ⊢
          split at hr
          · rename_i hc
            rw [if_pos hc]
            exact afterI_squeeze (fun x hx => hw x (by simp [hx])) hr
          · cases hr
      | cons y t =>
        simp only [List.cons_append, List.cons.injEq] at he
        exact hasI_cons (ih _ ⟨t, r, he.2, hr⟩)

/-! ### The theorem -/

theorem quoteless_of {E : Env} (hE : Sane E) {raw : List Char} {s' : List Char} (h : Same (E.strip raw) s') (hl : ¬ hasI E.eqi "LIKE".toList (E.strip raw)) :
    quoteless E raw = .ok (sub (quotedAt '\'') (squeeze E.sp false (squeeze E.sp false (E.strip raw)))) := by
  have h1 := h.squeeze hE.digit hE.quote false
  have h2 := h1.squeeze hE.digit hE.quote false
  have hlike := fun (s : List Char) (hs : ¬ hasI E.eqi "LIKE".toList s) => fun hx => hs (hasI_squeeze (by decide) hE.like false (s := s) hx)
  have hw : without '"' (squeeze E.sp false (E.strip raw)) = squeeze E.sp false (E.strip raw) :=
    without_id fun x hx => (h1.chars x hx).1
  unfold quoteless
  rw [hw, likes_id hE (fun hx => (h2.chars _ hx).2.2 rfl) (hlike _ (hlike _ hl))]
  have hb : '\\' ∉ squeeze E.sp false (squeeze E.sp false (E.strip raw)) := fun hx => (h2.chars _ hx).2.1 rfl
  show Except.ok _ = _
  dsimp only
  rw [remove_id hb, remove_id hb, remove_id hb]
  congr 1
  refine sub_id fun t r he => ?_
  cases r with
  | nil => rfl
  | cons c r =>
    refine quotedAt_none ?_ r
    rintro rfl
    have hm : '"' ∈ sub (quotedAt '\'') (squeeze E.sp false (squeeze E.sp false (E.strip raw))) := by rw [he]; simp
    have hcount := subst_countP (p := fun c => c == '"') (at' := quotedAt '\'') ?_
      (squeeze E.sp false (squeeze E.sp false (E.strip raw))).length (squeeze E.sp false (squeeze E.sp false (E.strip raw)))
    · have h0 : (squeeze E.sp false (squeeze E.sp false (E.strip raw))).countP (fun c => c == '"') = 0 := by
        rw [List.countP_eq_zero]
        intro c hc
        simpa using (h2.chars c hc).1
      have : 0 < (sub (quotedAt '\'') (squeeze E.sp false (squeeze E.sp false (E.strip raw)))).countP (fun c => c == '"') :=
        List.countP_pos_iff.2 ⟨_, hm, by decide⟩
      unfold sub at this
      omega
    · intro s new r h
      unfold quotedAt at h
      cases s with
      | nil => cases h
      | cons c s =>
        dsimp only at h
        split at h
        · split at h
          · rename_i e
            simp only [Option.some.injEq, Prod.mk.injEq] at h
            obtain ⟨rfl, rfl⟩ := h
            have := countP_suffix (p := fun c => c == '"') (dropWhile_suffix (fun x => x != '\'') s)
            rw [e, List.countP_cons] at this
            rw [List.countP_cons, List.countP_cons, List.countP_nil]
            simp only [show (('X' : Char) == '"') = false from rfl, Bool.false_eq_true, if_false]
            omega
          · cases h
        · cases h

/-- **C79** (for statements without LIKE, double quotes, backslashes and per cent signs): statements that differ only in their numbers and
literals have the same generalised form. -/
theorem C79_same_partial {E : Env} (hE : Sane E) {raw raw' : List Char} (hr : raw ≠ []) (hr' : raw' ≠ []) (h : Same (E.strip raw) (E.strip raw'))
    (hl : ¬ hasI E.eqi "LIKE".toList (E.strip raw)) (hl' : ¬ hasI E.eqi "LIKE".toList (E.strip raw')) : generalize E raw = generalize E raw' := by
  unfold generalize
  rw [if_neg hr, if_neg hr', quoteless_of hE h hl, quoteless_of hE h.sym hl']
  have h2 := (h.squeeze hE.digit hE.quote false).squeeze hE.digit hE.quote false
  have h3 := (h2.quoted.blanks hE.digit false).numbers false
  show Except.ok _ = Except.ok _
  dsimp only
  rw [h3]

/-! ### What is told after all -/

/-- ASCII, without comments in the statement. -/
def plainEnv : Env where
  strip := id
  sp c := c == ' ' || c == '\n' || c == '\t' || c == '\r'
  eqi a b := a.toLower == b.toLower
  off c := c == ' ' || c == '\n' || c == '\t' || c == '\r'
  merge := .ok

theorem plain_sane : Sane plainEnv where
  digit c h := by
    rw [Bool.eq_false_iff]
    intro hx
    simp only [plainEnv, Bool.or_eq_true, beq_iff_eq, or_assoc] at hx
    rcases hx with rfl | rfl | rfl | rfl <;> exact absurd h (by decide)
  quote := by decide
  self c := by simp [plainEnv]
  like d hd c hc := by
    have : c = ' ' ∨ c = '\n' ∨ c = '\t' ∨ c = '\r' := by
      rcases hc with hc | rfl
      · simpa [plainEnv, or_assoc] using hc
      · exact .inl rfl
    revert d
    rcases this with rfl | rfl | rfl | rfl <;> decide

theorem numbers_id : ∀ (b : Bool) {s : List Char}, (∀ c ∈ s, c.isDigit = false) → numbers b s = s
  | _, [], _ => rfl
  | b, c :: s, h => by
    have hc := h c (by simp)
    have hs : s.head?.any Char.isDigit = false := by
      cases s with
      | nil => rfl
      | cons d s => simpa using h d (by simp)
    rw [numbers, if_neg (by simp [hc]), if_neg (by simp [hs]), numbers_id false (fun x hx => h x (by simp [hx]))]

theorem listAt_none {sp : Char → Bool} {s : List Char} (h : '(' ∉ s) : listAt sp s = none := by
  unfold listAt
  split
  · rename_i r e
    obtain ⟨t, ht⟩ := dropWhile_suffix sp s
    rw [e] at ht
    exact absurd (by rw [ht]; simp) h
  · rfl

theorem wordList_none {E : Env} {w s : List Char} (h : '(' ∉ s) : wordListAt E w s = none := by
  unfold wordListAt
  split
  · rfl
  · split
    · split
      · rename_i c s _ r e
        have : '(' ∉ r := fun hx => h (by
          refine List.mem_cons_of_mem _ ?_
          rw [afterI_rest e]; simp [hx])
        rw [listAt_none this]; rfl
      · rfl
    · rfl

theorem in_id {E : Env} {s : List Char} (h : '(' ∉ s) : sub (inAt E) s = s := by
  refine sub_id fun t r he => ?_
  have : '(' ∉ r := fun hx => h (by rw [he]; simp [hx])
  unfold inAt
  rw [wordList_none this, wordList_none this]

/-- A text between double quotes is told: its quotes are taken off before the texts in quotes are looked for. -/
theorem C79_fails_double_quoted {w : List Char} (hne : w ≠ []) (hw : ∀ c ∈ w, c.isAlpha = true) (hl : ¬ hasI plainEnv.eqi "LIKE".toList ("SELECT ".toList ++ w)) :
    generalize plainEnv ("SELECT ".toList ++ '"' :: (w ++ ['"'])) = .ok ("SELECT ".toList ++ w) := by
  have halpha : ∀ c, c.isAlpha = true → ∀ x : Char, x.isAlpha = false → c ≠ x := by
    rintro c hc x hx rfl; rw [hc] at hx; cases hx
  have hsp : ∀ c, c.isAlpha = true → plainEnv.sp c = false := by
    intro c hc
    rw [Bool.eq_false_iff]
    intro hx
    simp only [plainEnv, Bool.or_eq_true, beq_iff_eq, or_assoc] at hx
    rcases hx with rfl | rfl | rfl | rfl <;> exact absurd hc (by decide)
  have hall : ∀ x : Char, x.isAlpha = false → x ≠ ' ' → x ∉ "SELECT ".toList ++ w := by
    intro x hx hb hm
    rcases List.mem_append.1 hm with hm | hm
    · have : ∀ c ∈ "SELECT ".toList, c = ' ' ∨ c.isAlpha = true := by decide
      rcases this x hm with h | h
      · exact hb h
      · rw [h] at hx; cases hx
    · exact halpha x (hw x hm) x hx rfl
  have hsq : ∀ {a : List Char}, a ≠ [] → (∀ c ∈ a, plainEnv.sp c = false) → squeeze plainEnv.sp false ("SELECT ".toList ++ a) = "SELECT ".toList ++ a := by
    intro a ha h
    obtain ⟨c, a, rfl⟩ := List.exists_cons_of_ne_nil ha
    have h1 := squeeze_word (sp := plainEnv.sp) (a := "SELECT".toList) false (' ' :: (c :: a)) (by decide) (by decide)
    have h2 := squeeze_word (sp := plainEnv.sp) (a := c :: a) false [] h (by simp)
    rw [List.append_nil] at h2
    refine h1.trans ?_
    rw [squeeze, if_pos (by decide)]
    simp only [Bool.false_eq_true, if_false, List.head?_cons, Option.any_some, h c (by simp)]
    rw [h2]
    simp [squeeze]
  have hbl : blanks plainEnv.sp false ("SELECT ".toList ++ w) = "SELECT ".toList ++ w := by
    have h1 := blanks_word (sp := plainEnv.sp) (a := "SELECT".toList) false (' ' :: w) (by decide) (by decide)
    have h2 : ∀ b, blanks plainEnv.sp b w = w := fun b => by
      have := blanks_word (sp := plainEnv.sp) b [] (fun c hc => hsp c (hw c hc)) hne
      simpa [blanks] using this
    refine h1.trans ?_
    rw [blanks, if_pos (by decide)]
    simp only [Bool.false_eq_true, if_false, h2]
    rfl
  have hq : without '"' ("SELECT ".toList ++ '"' :: (w ++ ['"'])) = "SELECT ".toList ++ w := by
    have h1 : without '"' w = w := without_id fun x hx => halpha x (hw x hx) '"' (by decide)
    have h2 : without '"' "SELECT ".toList = "SELECT ".toList := by decide
    unfold without at h1 h2 ⊢
    rw [List.filter_append, h2, List.filter_cons, List.filter_append, h1]
    simp
  have hquote : ∀ q : Char, q.isAlpha = false → q ≠ ' ' → sub (quotedAt q) ("SELECT ".toList ++ w) = "SELECT ".toList ++ w := by
    intro q h1 h2
    refine sub_id fun t r he => ?_
    cases r with
    | nil => rfl
    | cons c r =>
      refine quotedAt_none ?_ r
      rintro rfl
      exact hall c h1 h2 (by rw [he]; simp)
  have hb := hall '\\' (by decide) (by decide)
  have hstrip : stripped plainEnv.off ("SELECT ".toList ++ w) = "SELECT ".toList ++ w := by
    have h1 : ("SELECT ".toList ++ w).dropWhile plainEnv.off = "SELECT ".toList ++ w := List.dropWhile_cons_of_neg (by decide)
    unfold stripped
    rw [h1]
    obtain ⟨a, c, rfl⟩ : ∃ a c, w = a ++ [c] := ⟨w.dropLast, w.getLast hne, (List.dropLast_concat_getLast hne).symm⟩
    have hc : plainEnv.off c = false := hsp c (hw c (by simp))
    rw [← List.append_assoc, List.reverse_append, List.reverse_singleton, List.singleton_append, List.dropWhile_cons_of_neg (by simp [hc])]
    simp
  unfold generalize
  rw [if_neg (by simp)]
  have : quoteless plainEnv ("SELECT ".toList ++ '"' :: (w ++ ['"'])) = .ok ("SELECT ".toList ++ w) := by
    unfold quoteless
    rw [show plainEnv.strip = id from rfl, id, hsq (by simp) ?_, hq, hsq hne fun c hc => hsp c (hw c hc),
      likes_id plain_sane (hall '%' (by decide) (by decide)) hl]
    · show Except.ok _ = _
      dsimp only
      rw [remove_id hb, remove_id hb, remove_id hb, hquote '\'' (by decide) (by decide), hquote '"' (by decide) (by decide)]
    · intro c hc
      simp only [List.mem_cons, List.mem_append, List.not_mem_nil, or_false] at hc
      rcases hc with rfl | hc | rfl
      · decide
      · exact hsp c (hw c hc)
      · decide
  rw [this]
  show Except.ok _ = _
  dsimp only
  rw [hbl, numbers_id false, in_id (hall '(' (by decide) (by decide)), hstrip]
  intro c hc
  rw [Bool.eq_false_iff]
  intro hd
  have : c.isAlpha = false := by
    simp only [Char.isDigit, Char.isAlpha, Char.isUpper, Char.isLower, Bool.and_eq_true, decide_eq_true_eq, Bool.or_eq_false_iff,
      Bool.and_eq_false_iff, decide_eq_false_iff_not] at hd ⊢
    simp only [GE.ge, UInt32.le_iff_toNat_le] at hd ⊢
    have e1 : '0'.val.toNat = 48 := rfl
    have e2 : '9'.val.toNat = 57 := rfl
    have e3 : 'A'.val.toNat = 65 := rfl
    have e4 : 'a'.val.toNat = 97 := rfl
    omega
  exact hall c this (by rintro rfl; exact absurd hd (by decide)) hc

/-- A text after LIKE with an escaped quote in it is told from there on, as LIKE is handled before the escapes are. -/
theorem C79_fails_like : generalize plainEnv "b LIKE 'x\\'secret'".toList = .ok "b LIKE Xsecret'".toList := by
  decide +kernel

/-- Nothing stays nothing. -/
theorem C79_empty (E : Env) : generalize E [] = .ok [] := rfl

/-- A list is put together only if there is something before and after its comma. -/
theorem C79_lists : generalize plainEnv "a IN (1,)".toList = .ok "a IN (N,)".toList ∧ generalize plainEnv "a IN (1)".toList = .ok "a IN (N)".toList ∧
    generalize plainEnv "a IN (1, 2)".toList = .ok "a IN (XYZ)".toList := by
  decide +kernel

/-- `hasI`, computed. -/
def hasB (eqi : Char → Char → Bool) (w : List Char) : List Char → Bool
  | [] => (afterI eqi w []).isSome
  | c :: s => (afterI eqi w (c :: s)).isSome || hasB eqi w s

theorem hasB_of {eqi : Char → Char → Bool} {w s : List Char} (h : hasI eqi w s) : hasB eqi w s = true := by
  obtain ⟨t, r, rfl, hr⟩ := h
  induction t with
  | nil =>
    cases r with
    | nil => exact hr
    | cons c r => simp only [List.nil_append, hasB]; rw [hr]; rfl
  | cons c t ih => rw [List.cons_append, hasB, ih, Bool.or_true]

/-- Two statements with different values. -/
example : Same "a = 'x' AND b = 15".toList "a = 'secret' AND b = 7".toList ∧ ¬ hasI plainEnv.eqi "LIKE".toList "a = 'x' AND b = 15".toList := by
  constructor
  · have h : ∀ {c : Char} {s s' : List Char}, (c ≠ '\'' ∧ c ≠ '"' ∧ c ≠ '\\' ∧ c ≠ '%') → Same s s' → Same (c :: s) (c :: s') :=
      fun hc hs => .char (by intro x hx; rcases List.mem_singleton.1 hx with rfl; exact hc) hs
    have hn : Same "15".toList "7".toList := .num (a := "15".toList) (b := "7".toList) (s := []) (s' := []) (by decide) (by decide) (by decide) (by decide) .nil
    have ht : ∀ {a : List Char}, (∀ c ∈ a, c ≠ '\'' ∧ c ≠ '"' ∧ c ≠ '\\' ∧ c ≠ '%') → Tame a := fun h => h
    refine h (by decide) (h (by decide) (h (by decide) (h (by decide) ?_)))
    refine Same.lit (a := "x".toList) (b := "secret".toList) (ht (by decide)) (ht (by decide)) ?_
    iterate 9 refine h (by decide) ?_
    exact hn
  · intro h
    exact absurd (hasB_of h) (by decide)

end EulerDB.General
