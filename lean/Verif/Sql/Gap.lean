/-
The texts that may stand between two tokens, and how keywords, punctuation and operators are found after them.
-/
import Verif.Sql.Comment
import Verif.Sql.Parser

namespace EulerDB.Sql

open EulerDB EulerDB.Parse

/-! ### Gaps -/

/-- Whitespace and complete comments. -/
inductive Gap : List Char → Prop
  | nil : Gap []
  | white {c : Char} {g : List Char} : white c = true → Gap g → Gap (c :: g)
  | dashes {b g : List Char} : '\n' ∉ b → Gap g → Gap ('-' :: '-' :: (b ++ '\n' :: g))
  | hash {b g : List Char} : '\n' ∉ b → Gap g → Gap ('#' :: (b ++ '\n' :: g))
  | block {b g : List Char} : closed (b ++ ['*']) = false → Gap g → Gap ('/' :: '*' :: (b ++ '*' :: '/' :: g))

theorem skip_line_nl : ∀ (b r : List Char), '\n' ∉ b → skipM .line (b ++ '\n' :: r) = skip r
  | [], r, _ => by simp [skipM, skip]
  | c :: b, r, h => by
    simp only [List.mem_cons, not_or] at h
    rw [List.cons_append, skipM, if_neg (fun x => h.1 x.symm)]
    exact skip_line_nl b r h.2

theorem Gap.skip {g : List Char} (h : Gap g) (r : List Char) : skip (g ++ r) = Sql.skip r := by
  induction h with
  | nil => rfl
  | white hc _ ih => rw [List.cons_append, Sql.skip, skipM, if_pos hc]; exact ih
  | @dashes b g hb _ ih =>
    have : '-' :: '-' :: (b ++ '\n' :: g) ++ r = '-' :: '-' :: (b ++ '\n' :: (g ++ r)) := by simp
    rw [this, Sql.skip, skipM, if_neg (by decide), if_neg (by decide), if_pos (by simp), skipM, if_neg (by decide), skip_line_nl b _ hb, ih]
  | @hash b g hb _ ih =>
    have : '#' :: (b ++ '\n' :: g) ++ r = '#' :: (b ++ '\n' :: (g ++ r)) := by simp
    rw [this, Sql.skip, skipM, if_neg (by decide), if_pos rfl, skip_line_nl b _ hb, ih]
  | @block b g hb _ ih =>
    have : '/' :: '*' :: (b ++ '*' :: '/' :: g) ++ r = '/' :: '*' :: (b ++ '*' :: '/' :: (g ++ r)) := by simp
    rw [this, Sql.skip, skipM, if_neg (by decide), if_neg (by decide), if_neg (by simp),
      if_pos ⟨rfl, rfl, by simp only [List.tail_cons]; exact closed_append b _⟩, skipM, skip_block b _ hb, ih]

theorem Gap.append {g h : List Char} (hg : Gap g) (hh : Gap h) : Gap (g ++ h) := by
  induction hg with
  | nil => exact hh
  | white hc _ ih => exact .white hc ih
  | @dashes b g hb _ ih => simpa using Gap.dashes hb ih
  | @hash b g hb _ ih => simpa using Gap.hash hb ih
  | @block b g hb _ ih => simpa using Gap.block hb ih

theorem gap_of_white : ∀ {g : List Char}, (∀ c ∈ g, Sql.white c = true) → Gap g
  | [], _ => .nil
  | c :: g, h => .white (h c (by simp)) (gap_of_white fun c hc => h c (by simp [hc]))

/-- A character at which nothing is skipped. -/
def solidChar (c : Char) : Bool := !white c && c != '#' && c != '-' && c != '/'

theorem skip_solid {c : Char} (h : solidChar c = true) (r : List Char) : skip (c :: r) = c :: r := by
  simp only [solidChar, Bool.and_eq_true, Bool.not_eq_true', bne_iff_ne, ne_eq] at h
  obtain ⟨⟨⟨h1, h2⟩, h3⟩, h4⟩ := h
  rw [skip, skipM, if_neg (by simp [h1]), if_neg h2, if_neg (fun x => h3 x.1), if_neg (fun x => h4 x.1)]

/-- A dash that is not followed by another. -/
theorem skip_dash {r : List Char} (h : r.head? ≠ some '-') : skip ('-' :: r) = '-' :: r := by
  rw [skip, skipM, if_neg (by decide), if_neg (by decide), if_neg (fun x => h x.2), if_neg (by simp)]

/-- A slash that is not followed by a star. -/
theorem skip_slash {r : List Char} (h : r.head? ≠ some '*') : skip ('/' :: r) = '/' :: r := by
  rw [skip, skipM, if_neg (by decide), if_neg (by decide), if_neg (by simp), if_neg (fun x => h x.2.1)]

theorem skipM_idem : ∀ (s : List Char) (m : Mode), skip (skipM m s) = skipM m s
  | [], m => by cases m <;> rfl
  | c :: r, m => by
    have ih := fun m => skipM_idem r m
    cases m <;> simp only [skipM]
    · split
      · exact ih _
      · split
        · exact ih _
        · split
          · exact ih _
          · split
            · exact ih _
            · rename_i h1 h2 h3 h4
              rw [skip, skipM, if_neg h1, if_neg h2, if_neg h3, if_neg h4]
    · split <;> exact ih _
    · exact ih _
    · split <;> exact ih _
    · exact ih _

/-- Skipping twice is skipping once. -/
theorem skip_skip (s : List Char) : skip (skip s) = skip s := skipM_idem s .code

/-! ### Characters -/

theorem toLower_cases (c : Char) : c.toLower = c ∨ (c.isUpper = true) := by
  by_cases h : c.isUpper = true
  · exact .inr h
  · left
    unfold Char.toLower
    rw [Char.isUpper] at h
    simp only [decide_eq_true_eq] at h
    split
    · rename_i h2; exact absurd h2 h
    · rfl

theorem keyChar_upper {c : Char} (h : c.isUpper = true) : keyChar c = true := by
  simp [keyChar, Char.isAlphanum, Char.isAlpha, h]

theorem identChar_of_key {c : Char} (h : keyChar c = true) : identChar c = true := by
  simp only [keyChar, Bool.or_eq_true, beq_iff_eq] at h
  rcases h with (h | rfl) | rfl
  · simp [identChar, h]
  · decide
  · decide

theorem solidChar_of_key {c : Char} (h : keyChar c = true) : solidChar c = true := by
  simp only [solidChar, Bool.and_eq_true, Bool.not_eq_true', bne_iff_ne, ne_eq]
  refine ⟨⟨⟨?_, ?_⟩, ?_⟩, ?_⟩
  · rw [Bool.eq_false_iff]
    intro hw
    simp only [white, Bool.or_eq_true, beq_iff_eq] at hw
    rcases hw with ((rfl | rfl) | rfl) | rfl <;> revert h <;> decide
  · rintro rfl; revert h; decide
  · rintro rfl; revert h; decide
  · rintro rfl; revert h; decide

theorem solidChar_of_ident {c : Char} (h : identChar c = true) : solidChar c = true := by
  simp only [solidChar, Bool.and_eq_true, Bool.not_eq_true', bne_iff_ne, ne_eq]
  refine ⟨⟨⟨?_, ?_⟩, ?_⟩, ?_⟩
  · rw [Bool.eq_false_iff]
    intro hw
    simp only [white, Bool.or_eq_true, beq_iff_eq] at hw
    rcases hw with ((rfl | rfl) | rfl) | rfl <;> revert h <;> decide
  · rintro rfl; revert h; decide
  · rintro rfl; revert h; decide
  · rintro rfl; revert h; decide

/-! ### Keywords -/

/-- A word of letters, as the keywords are. -/
def Wordy (w : List Char) : Prop := ∀ c ∈ w, keyChar c = true

instance (w : List Char) : Decidable (Wordy w) := by unfold Wordy; infer_instance

theorem kwAt_word : ∀ (w n r : List Char), Wordy w → Wordy n → boundary r = true →
    kwAt w (n ++ r) = if n.map Char.toLower = w then some r else none
  | [], [], r, _, _, hb => by
    simp only [List.nil_append, List.map_nil, if_true]
    cases r <;> simp [kwAt, hb]
  | [], c :: n, r, _, hn, _ => by
    have := hn c (by simp)
    simp [kwAt, boundary, this]
  | d :: w, [], r, hw, _, hb => by
    have hd := hw d (by simp)
    cases r with
    | nil => simp [kwAt]
    | cons c r =>
      simp only [boundary, Bool.not_eq_true'] at hb
      have : c.toLower ≠ d := by
        rcases toLower_cases c with h | h
        · rw [h]; rintro rfl; rw [hd] at hb; cases hb
        · rw [keyChar_upper h] at hb; cases hb
      simp [kwAt, this]
  | d :: w, c :: n, r, hw, hn, hb => by
    have ih := kwAt_word w n r (fun x hx => hw x (by simp [hx])) (fun x hx => hn x (by simp [hx])) hb
    simp only [List.cons_append, kwAt, List.map_cons, List.cons.injEq]
    by_cases h : c.toLower = d
    · simp [h, ih]
    · simp [h]

/-- After the gap the text begins with the word `n` (which may be empty), and `r` follows. -/
structure First (s n r : List Char) : Prop where
  skip : skip s = n ++ r
  word : Wordy n
  bound : boundary r = true

theorem First.kw {s n r : List Char} (h : First s n r) {w : String} (hw : Wordy w.toList) :
    kw w s = if n.map Char.toLower = w.toList then some r else none := by
  rw [Sql.kw, h.skip, kwAt_word _ _ _ hw h.word h.bound]

theorem First.gap {s n r : List Char} (h : First s n r) {g : List Char} (hg : Gap g) : First (g ++ s) n r :=
  ⟨by rw [hg.skip, h.skip], h.word, h.bound⟩

theorem First.anyKw {s n r : List Char} (h : First s n r) {ws : List String} (hw : ∀ w ∈ ws, Wordy w.toList) :
    anyKw ws s = decide (∃ w ∈ ws, n.map Char.toLower = w.toList) := by
  rw [Sql.anyKw]
  induction ws with
  | nil => simp
  | cons w ws ih =>
    rw [List.any_cons, ih (fun x hx => hw x (by simp [hx])), h.kw (hw w (by simp))]
    by_cases hx : n.map Char.toLower = w.toList <;> simp [hx]

theorem First.kws {s n r : List Char} (h : First s n r) {w : String} {ws : List String} (hw : Wordy w.toList) :
    kws (w :: ws) s = if n.map Char.toLower = w.toList then kwsTail ws r else none := by
  rw [Sql.kws, h.kw hw]
  by_cases hx : n.map Char.toLower = w.toList <;> simp [hx]

/-- The same for whitespace only. -/
theorem kwsTail_word {s n r : List Char} (h : skipWhite s = n ++ r) (hn : Wordy n) (hb : boundary r = true) {w : String} {ws : List String}
    (hw : Wordy w.toList) : kwsTail (w :: ws) s = if n.map Char.toLower = w.toList then kwsTail ws r else none := by
  rw [kwsTail, h, kwAt_word _ _ _ hw hn hb]
  by_cases hx : n.map Char.toLower = w.toList <;> simp [hx]

/-- A text that begins with a character that is in no word. -/
theorem first_char {c : Char} (hc : keyChar c = false) (hs : solidChar c = true) (r : List Char) : First (c :: r) [] (c :: r) :=
  ⟨skip_solid hs r, (by intro _ h; cases h), by simp [boundary, hc]⟩

theorem first_nil {s : List Char} (h : skip s = []) : First s [] [] := ⟨h, (by intro _ h; cases h), rfl⟩

/-- A text that begins with a word. -/
theorem first_word {n : List Char} (hn : Wordy n) (hne : n ≠ []) {r : List Char} (hb : boundary r = true) : First (n ++ r) n r := by
  refine ⟨?_, hn, hb⟩
  cases n with
  | nil => exact absurd rfl hne
  | cons c n => exact skip_solid (solidChar_of_key (hn c (by simp))) _

/-! ### Punctuation -/

theorem lit_one (w : String) {d : Char} (hw : w.toList = [d]) {s : List Char} {c : Char} {r : List Char} (h : skip s = c :: r) :
    lit w s = if c = d then some r else none := by
  rw [lit, hw, h, litAt]
  by_cases hx : c = d <;> simp [hx, litAt]

theorem lit_nil (w : String) {d : Char} {l : List Char} (hw : w.toList = d :: l) {s : List Char} (h : skip s = []) : lit w s = none := by
  rw [lit, hw, h, litAt]

theorem lit_ne (w : String) {d : Char} {l : List Char} (hw : w.toList = d :: l) {s : List Char} {c : Char} {r : List Char} (h : skip s = c :: r)
    (hc : c ≠ d) : lit w s = none := by
  rw [lit, hw, h, litAt, if_neg hc]

theorem lit_head (w : String) {d : Char} {l : List Char} (hw : w.toList = d :: l) {s : List Char} (h : (skip s).head? ≠ some d) : lit w s = none := by
  cases hs : skip s with
  | nil => exact lit_nil w hw hs
  | cons c r => exact lit_ne w hw hs (by rintro rfl; simp [hs] at h)

end EulerDB.Sql
