/-
What the parser makes of spelled names, numbers, operands, operators and expressions.
-/
import Verif.Sql.Spell

namespace EulerDB.Sql

open EulerDB EulerDB.Parse

/-! ### What follows a token -/

/-- What may follow an operand. -/
structure Stop (d : Edge) (r : List Char) : Prop where
  sep : Sep d r
  suf : suffixNext r = false
  par : lit "(" r = none

/-- What may follow an expression. -/
structure Fin (d : Edge) (r : List Char) : Prop extends Stop d r where
  op : opNext r = none

theorem Sep.end {d : Edge} {r : List Char} (h : Sep d r) (hd : d ≠ .shut) {c : Char} (hc : r.head? = some c) : endChar c = true := (h c hc).2.1 hd

theorem endChar_shut {c : Char} (h : endChar c = true) : shutChar c = true := by
  simp only [endChar, shutChar, Bool.and_eq_true, Bool.not_eq_true'] at h ⊢
  tauto

theorem endChar_ident {c : Char} (h : endChar c = true) : identChar c = false := by
  simp only [endChar, Bool.and_eq_true, Bool.not_eq_true'] at h
  exact h.1.1.1.1.1

theorem endChar_key {c : Char} (h : endChar c = true) : keyChar c = false := by
  have := endChar_ident h
  cases hk : keyChar c
  · rfl
  · rw [identChar_of_key hk] at this; cases this

theorem endChar_ne {c x : Char} (h : endChar c = true) (hx : endChar x = false) : c ≠ x := by
  rintro rfl; rw [h] at hx; cases hx

theorem Sep.boundary {d : Edge} {r : List Char} (h : Sep d r) (hd : d ≠ .shut) : boundary r = true := by
  cases r with
  | nil => rfl
  | cons c r => simp [Sql.boundary, endChar_key (h.end hd rfl)]

theorem Sep.ne {d : Edge} {r : List Char} (h : Sep d r) {x : Char} (hx : shutChar x = false) : r.head? ≠ some x := by
  intro hr
  exact absurd (h x hr).1 (by simp [hx])

theorem Gap.head {g : List Char} (h : Gap g) {c : Char} (hc : g.head? = some c) : endChar c = true ∧ (c = '-' ∨ c ≠ '-' ∧ c ∈ [' ', '\n', '\r', '\t', '#', '/']) := by
  cases h with
  | nil => simp at hc
  | white hw _ =>
    simp only [List.head?_cons, Option.some.injEq] at hc
    subst hc
    simp only [Sql.white, Bool.or_eq_true, beq_iff_eq] at hw
    rcases hw with ((rfl | rfl) | rfl) | rfl <;> decide
  | dashes => simp only [List.head?_cons, Option.some.injEq] at hc; subst hc; decide
  | hash => simp only [List.head?_cons, Option.some.injEq] at hc; subst hc; decide
  | block => simp only [List.head?_cons, Option.some.injEq] at hc; subst hc; decide

/-- A gap and then a character that ends a token. -/
theorem After.sep {d : Edge} {g : List Char} (h : After d g) {c : Char} (hc : endChar c = true) (hd : c ≠ '-') (u : List Char) : Sep d (g ++ c :: u) := by
  intro x hx
  cases hg : g with
  | nil => rw [hg] at hx; simp at hx; subst hx; exact ⟨endChar_shut hc, fun _ => hc, fun _ => hd⟩
  | cons y g' =>
    rw [hg] at hx
    simp only [List.cons_append, List.head?_cons, Option.some.injEq] at hx
    subst hx
    exact ⟨endChar_shut (h.1.head (by rw [hg]; rfl)).1, fun _ => (h.1.head (by rw [hg]; rfl)).1, fun he hy => h.2 he (by rw [hg, hy]; rfl)⟩

/-- A gap that reaches the end of the text. -/
theorem After.sep_end {d : Edge} {g : List Char} (h : After d g) : Sep d g := by
  intro x hx
  exact ⟨endChar_shut (h.1.head hx).1, fun _ => (h.1.head hx).1, fun he hy => h.2 he (by rw [hx, hy])⟩

theorem sep_append {d : Edge} {a b : List Char} (h : Sep d a) (ha : a ≠ []) : Sep d (a ++ b) := by
  cases a with
  | nil => exact absurd rfl ha
  | cons c a => intro x hx; exact h x (by simpa using hx)

/-! ### Operators that do not follow -/

theorem sym_none {s : List Char} (h : ∀ p ∈ symbolOps, (skip s).head? ≠ p.1.toList.head?) :
    (symbolOps.findSome? fun p => (lit p.1 s).map fun r => (p.2, r)) = none := by
  rw [List.findSome?_eq_none_iff]
  intro p hp
  have h1 := h p hp
  cases hw : p.1.toList with
  | nil =>
    exfalso
    clear h1
    revert hw; revert hp; revert p
    decide
  | cons d l =>
    rw [hw] at h1
    rw [lit_head p.1 hw h1]
    rfl

/-- The first words of the operators. -/
def opWords : List String := ["is", "not", "at", "between", "in", "like", "rlike", "similar", "and", "or", "collate"]

theorem word_none {s n r : List Char} (h : First s n r) (hn : ∀ w ∈ opWords, n.map Char.toLower ≠ w.toList) :
    (wordOps.findSome? fun p => (kws p.1 s).map fun r => (p.2, r)) = none := by
  rw [List.findSome?_eq_none_iff]
  intro p hp
  have hh : ∃ w ws, p.1 = w :: ws ∧ w ∈ opWords ∧ Wordy w.toList := by
    simp only [wordOps, List.mem_cons, List.not_mem_nil, or_false] at hp
    rcases hp with rfl | rfl | rfl | rfl | rfl | rfl | rfl | rfl | rfl | rfl | rfl | rfl | rfl | rfl | rfl | rfl | rfl | rfl <;>
      exact ⟨_, _, rfl, by decide, by decide⟩
  obtain ⟨w, ws, h1, h2, h3⟩ := hh
  rw [h1, h.kws h3, if_neg (hn w h2)]
  rfl

theorem suffix_none {s n r : List Char} (h : First s n r) (hn : ∀ w ∈ ["over", "within", "filter"], n.map Char.toLower ≠ w.toList)
    (hs : ∀ x ∈ ['[', '.', ':'], (skip s).head? ≠ some x) : suffixNext s = false := by
  have e1 : lit "[" s = none := lit_head "[" (d := '[') (l := []) rfl (hs _ (by decide))
  have e2 : lit "." s = none := lit_head "." (d := '.') (l := []) rfl (hs _ (by decide))
  have e3 : lit "::" s = none := lit_head "::" (d := ':') (l := [':']) rfl (hs _ (by decide))
  rw [suffixNext, e1, e2, e3, h.anyKw (by decide)]
  simp only [Option.isSome_none, Bool.or_self, Bool.false_or, decide_eq_false_iff_not]
  rintro ⟨w, hw, he⟩
  exact hn w hw he

/-- A character that neither continues an operand nor begins an operator. -/
def finChar (c : Char) : Bool :=
  endChar c && solidChar c && !keyChar c && c != '(' && c != ':' && symbolOps.all fun p => p.1.toList.head? != some c

theorem fin_char {d : Edge} {g : List Char} (hg : After d g) {c : Char} (hc : finChar c = true) (u : List Char) : Fin d (g ++ c :: u) := by
  simp only [finChar, Bool.and_eq_true, Bool.not_eq_true', bne_iff_ne, ne_eq, List.all_eq_true] at hc
  obtain ⟨⟨⟨⟨⟨h1, h2⟩, h3⟩, h4⟩, h5⟩, h6⟩ := hc
  have hf := (first_char h3 h2 u).gap hg.1
  have hs : skip (g ++ c :: u) = c :: u := hf.skip
  refine ⟨⟨hg.sep h1 ?_ u, ?_, ?_⟩, ?_⟩
  · rintro rfl; simp [solidChar] at h2
  · refine suffix_none hf (by decide) ?_
    intro x hx
    rw [hs]
    simp only [List.mem_cons, List.not_mem_nil, or_false] at hx
    simp only [List.head?_cons, ne_eq, Option.some.injEq]
    rcases hx with rfl | rfl | rfl
    · exact endChar_ne h1 (by decide)
    · exact endChar_ne h1 (by decide)
    · exact h5
  · exact lit_head "(" (d := '(') (l := []) rfl (by rw [hs]; simpa using h4)
  · rw [opNext, sym_none, word_none hf (by decide)]
    intro p hp
    rw [hs]
    exact fun h => h6 p hp h.symm

theorem fin_nil {d : Edge} {r : List Char} (hr : Sep d r) (hs : skip r = []) : Fin d r := by
  have hf := first_nil hs
  refine ⟨⟨hr, suffix_none hf (by decide) (by simp [hs]), lit_nil "(" (d := '(') (l := []) rfl hs⟩, ?_⟩
  rw [opNext, sym_none, word_none hf (by decide)]
  rw [hs]
  decide

/-- The words that may follow an expression. -/
theorem fin_word {d : Edge} {g t u : List Char} (hg : Gap g) (hs : Sep d (g ++ t)) (ht : Wordy t) (hne : t ≠ []) (hu : boundary u = true)
    (hw : ∀ w ∈ opWords ++ ["over", "within", "filter"], ¬ Word w t) : Fin d (g ++ t ++ u) := by
  have hf : First (g ++ t ++ u) t u := by rw [List.append_assoc]; exact (first_word ht hne hu).gap hg
  obtain ⟨c, t', rfl⟩ := List.exists_cons_of_ne_nil hne
  have hc : keyChar c = true := ht c (by simp)
  have hne' : ∀ x, keyChar x = false → (skip (g ++ c :: t' ++ u)).head? ≠ some x := by
    intro x hx
    rw [hf.skip]
    simp only [List.cons_append, List.head?_cons, ne_eq, Option.some.injEq]
    rintro rfl
    rw [hc] at hx; cases hx
  refine ⟨⟨sep_append hs (by simp), suffix_none hf (fun w h => hw w (by simp only [List.mem_append]; exact .inr h)) ?_, ?_⟩, ?_⟩
  · intro x hx
    refine hne' x ?_
    revert hx; revert x; decide
  · exact lit_head "(" (d := '(') (l := []) rfl (hne' _ (by decide))
  · rw [opNext, sym_none, word_none hf (fun w h => hw w (by simp only [List.mem_append]; exact .inl h))]
    intro p hp
    obtain ⟨x, hx, hx2⟩ : ∃ x, p.1.toList.head? = some x ∧ keyChar x = false := by
      revert hp; revert p; decide
    rw [hx]
    exact hne' x hx2

/-! ### Names -/

/-- What may follow a part of a name. -/
def PEnd (r : List Char) : Prop := ∀ c, r.head? = some c → identChar c = false ∧ c ≠ '`' ∧ c ≠ '-'

theorem Sep.pend {r : List Char} (h : Sep .name r) : PEnd r := fun c hc =>
  ⟨endChar_ident (h.end (by decide) hc), endChar_ne (h.end (by decide) hc) (by decide), (h c hc).2.2 rfl⟩

theorem simpleTail_read : ∀ (n : List Char) (p : Char) (r : List Char), Wordy n → PEnd r → simpleTail p (n ++ r) = (n, r)
  | [], p, r, _, hr => by
    cases r with
    | nil => rfl
    | cons c r =>
      obtain ⟨h1, _, h3⟩ := hr c rfl
      rw [List.nil_append, simpleTail, if_neg (by simp [h1]), if_neg (fun x => h3 x.1)]
  | c :: n, p, r, hn, hr => by
    rw [List.cons_append, simpleTail, if_pos (identChar_of_key (hn c (by simp))),
      simpleTail_read n c r (fun x hx => hn x (by simp [hx])) hr]

theorem dash_notWordy {n : List Char} (h : Wordy n) : '-' ∉ n := fun hm => absurd (h _ hm) (by decide)

theorem undouble_plain : ∀ b : List Char, '`' ∉ b → undouble b = b
  | [], _ => rfl
  | [c], _ => rfl
  | c :: d :: b, h => by
    simp only [List.mem_cons, not_or] at h
    rw [undouble, if_neg (fun x => h.1 x.1.symm), undouble_plain (d :: b) (by simp [h.2])]

theorem doubled_plain : ∀ b : List Char, '`' ∉ b → Format.doubled '`' b = b
  | [], _ => rfl
  | c :: b, h => by
    simp only [List.mem_cons, not_or] at h
    rw [Format.doubled, if_neg (fun x => h.1 x.symm), doubled_plain b h.2]

theorem part_read {p n : List Char} (h : SpPart p n) {r : List Char} (hr : PEnd r) : part (p ++ r) = .ok n r := by
  cases h with
  | plain hp =>
    obtain ⟨hw, c, n', rfl, hd⟩ := hp
    have hc := hw c (by simp)
    have h1 : c ≠ '`' := by rintro rfl; exact absurd hc (by decide)
    have h2 : c ≠ '[' := by rintro rfl; exact absurd hc (by decide)
    have hs := simpleTail_read n' c r (fun x hx => hw x (by simp [hx])) hr
    rw [List.cons_append, part, if_neg h1, if_neg h2, simple, if_pos (by simp [firstChar, identChar_of_key hc, hd]), hs,
      if_neg (fun hm => dash_notWordy hw (by simp [hm]))]
  | @quoted b hb =>
    have hq : '`' ∉ b := fun hm => (hb _ hm).2 rfl
    have hraw : Format.rawStr '`' (b ++ '`' :: r) = some (b, r) := by
      have := Format.rawStr_doubled '`' r (fun hx => (hr _ hx).2.1 rfl) b
      rwa [doubled_plain b hq] at this
    have e : '`' :: (b ++ ['`']) ++ r = '`' :: (b ++ '`' :: r) := by simp
    have hall : b.all namePlain = true := by rw [List.all_eq_true]; exact fun x hx => (hb x hx).1
    rw [e, part, if_pos rfl, hraw]
    simp only [hall, if_true, undouble_plain b hq]

theorem skipWhite_solid {c : Char} (h : white c = false) (r : List Char) : skipWhite (c :: r) = c :: r := by
  simp [skipWhite, h]

/-- The first character of a part. -/
theorem SpPart.head {p n : List Char} (h : SpPart p n) : ∃ c p', p = c :: p' ∧ (keyChar c = true ∧ c.isDigit = false ∨ c = '`') := by
  cases h with
  | plain hp =>
    obtain ⟨hw, c, n', rfl, hd⟩ := hp
    exact ⟨c, n', rfl, .inl ⟨hw c (by simp), hd⟩⟩
  | quoted => exact ⟨_, _, rfl, .inr rfl⟩

theorem solid_part {c : Char} (h : keyChar c = true ∧ c.isDigit = false ∨ c = '`') : solidChar c = true := by
  rcases h with h | rfl
  · exact solidChar_of_key h.1
  · decide

theorem white_of_solid {c : Char} (h : solidChar c = true) : white c = false := by
  simp only [solidChar, Bool.and_eq_true, Bool.not_eq_true'] at h
  exact h.1.1.1

theorem SpParts.head {t m r : List Char} (h : SpParts t m) (hr : PEnd r) : PEnd (t ++ r) := by
  cases h with
  | nil => exact hr
  | cons => intro c hc; simp at hc; subst hc; decide

theorem moreParts_read {t m : List Char} (h : SpParts t m) {r : List Char} (hr : PEnd r) (hd : (skipWhite r).head? ≠ some '.') :
    ∀ n, t.length ≤ n → moreParts n (t ++ r) = .ok m r := by
  induction h with
  | nil =>
    intro n _
    cases n with
    | zero => rfl
    | succ n =>
      rw [List.nil_append, moreParts]
      cases hs : skipWhite r with
      | nil => rfl
      | cons c u =>
        have hc : c ≠ '.' := by rintro rfl; rw [hs] at hd; exact hd rfl
        simp only [if_neg hc]
  | @cons p k t m hp ht ih =>
    intro n hn
    simp only [List.length_cons, List.length_append] at hn
    obtain ⟨n, rfl⟩ : ∃ j, n = j + 1 := ⟨n - 1, by omega⟩
    have e : '.' :: (p ++ t) ++ r = '.' :: (p ++ (t ++ r)) := by simp
    obtain ⟨c, p', rfl, hc⟩ := hp.head
    rw [e, moreParts, skipWhite_solid (by decide)]
    simp only [if_true]
    have e2 : skipWhite (c :: p' ++ (t ++ r)) = c :: p' ++ (t ++ r) := skipWhite_solid (white_of_solid (solid_part hc)) _
    rw [e2, part_read hp (ht.head hr)]
    simp only
    rw [ih n (by omega)]

theorem skip_skipWhite : ∀ s : List Char, skip s = skip (skipWhite s)
  | [] => rfl
  | c :: s => by
    by_cases h : white c = true
    · have : skipWhite (c :: s) = skipWhite s := by simp [skipWhite, h]
      rw [this, ← skip_skipWhite s, skip, skipM, if_pos h]; rfl
    · rw [skipWhite_solid (by simpa using h)]

theorem skipWhite_head {s : List Char} {c : Char} (hc : solidChar c = true) (h : (skip s).head? ≠ some c) : (skipWhite s).head? ≠ some c := by
  intro hs
  cases hk : skipWhite s with
  | nil => rw [hk] at hs; cases hs
  | cons x u =>
    rw [hk] at hs
    simp at hs
    subst hs
    rw [skip_skipWhite, hk, skip_solid hc] at h
    exact h rfl

theorem suffix_dot {r : List Char} (h : suffixNext r = false) : (skip r).head? ≠ some '.' := by
  intro hs
  cases hk : skip r with
  | nil => rw [hk] at hs; cases hs
  | cons x u =>
    rw [hk] at hs
    simp at hs
    subst hs
    have : lit "." r = some u := by rw [lit_one "." rfl hk]; rfl
    simp [suffixNext, this] at h

theorem identAt_read {no : List String} {t n : List Char} (h : SpName no t n) {r : List Char} (hr : PEnd r) (hd : (skipWhite r).head? ≠ some '.') :
    identAt (t ++ r) = .ok n r := by
  cases h with
  | @mk p k t m hp _ ht =>
    rw [List.append_assoc, identAt, part_read hp (ht.head hr)]
    simp only
    rw [moreParts_read ht hr hd _ (by simp)]

/-! ### How texts begin -/

/-- The text begins with none of the words. -/
def Begins (no : List String) (s : List Char) : Prop := ∃ k u, First s k u ∧ ∀ w ∈ no, k.map Char.toLower ≠ w.toList

theorem Begins.anyKw {no ws : List String} {s : List Char} (h : Begins no s) (hw : ∀ w ∈ ws, w ∈ no ∧ Wordy w.toList) : anyKw ws s = false := by
  obtain ⟨k, u, hf, hk⟩ := h
  rw [hf.anyKw fun w h => (hw w h).2]
  simp only [decide_eq_false_iff_not]
  rintro ⟨w, h1, h2⟩
  exact hk w (hw w h1).1 h2

theorem Begins.kw {no : List String} {s : List Char} (h : Begins no s) {w : String} (hw : w ∈ no) (hw2 : Wordy w.toList) : kw w s = none := by
  obtain ⟨k, u, hf, hk⟩ := h
  rw [hf.kw hw2, if_neg (hk w hw)]

theorem Begins.gap {no : List String} {s g : List Char} (h : Begins no s) (hg : Gap g) : Begins no (g ++ s) := by
  obtain ⟨k, u, hf, hk⟩ := h
  exact ⟨k, u, hf.gap hg, hk⟩

theorem Begins.mono {no ws : List String} {s : List Char} (h : Begins no s) (hw : ∀ w ∈ ws, w ∈ no) : Begins ws s := by
  obtain ⟨k, u, hf, hk⟩ := h
  exact ⟨k, u, hf, fun w hx => hk w (hw w hx)⟩

theorem begins_char {no : List String} (hno : ∀ w ∈ no, w.toList ≠ []) {c : Char} (hc : keyChar c = false) (hs : solidChar c = true) (r : List Char) :
    Begins no (c :: r) := ⟨[], c :: r, first_char hc hs r, fun w hw h => hno w hw (by simpa using h.symm)⟩

theorem begins_word {no : List String} {n r : List Char} (hn : Wordy n) (hne : n ≠ []) (hb : boundary r = true) (h : ∀ w ∈ no, ¬ Word w n) :
    Begins no (n ++ r) := ⟨n, r, first_word hn hne hb, h⟩

theorem begins_digit {no : List String} (hno : ∀ w ∈ no, w.toList.head?.map Char.isDigit = some false) {c : Char} (hc : c.isDigit = true) (r : List Char) :
    Begins no (c :: r) := by
  have hk : keyChar c = true := by simp [keyChar, Char.isAlphanum, hc]
  refine ⟨(c :: r).takeWhile keyChar, (c :: r).dropWhile keyChar, ⟨?_, ?_, ?_⟩, ?_⟩
  · rw [List.takeWhile_append_dropWhile]; exact skip_solid (solidChar_of_key hk) r
  · intro x hx; exact List.all_eq_true.mp List.all_takeWhile x hx
  · cases h : (c :: r).dropWhile keyChar with
    | nil => rfl
    | cons x u =>
      have := List.head_dropWhile_not keyChar (l := c :: r) (by rw [h]; simp)
      simp only [h, List.head_cons] at this
      simp [boundary, this]
  · intro w hw
    obtain ⟨d, l, h1, h2⟩ : ∃ d l, w.toList = d :: l ∧ d.isDigit = false := by
      have := hno w hw
      cases hl : w.toList with
      | nil => simp [hl] at this
      | cons d l => exact ⟨d, l, rfl, by simpa [hl] using this⟩
    rw [h1, List.takeWhile_cons_of_pos hk]
    simp only [List.map_cons, ne_eq, List.cons.injEq, not_and]
    intro h3
    have : c.toLower = c := by
      rcases toLower_cases c with h | h
      · exact h
      · exfalso
        simp only [Char.isDigit, Char.isUpper, Bool.and_eq_true, decide_eq_true_eq] at hc h
        have h4 := hc.2
        have h5 := h.1
        have h6 := Nat.le_trans (UInt32.le_iff_toNat_le.mp h5) (UInt32.le_iff_toNat_le.mp h4)
        revert h6; decide
    rw [this] at h3
    subst h3
    rw [hc] at h2
    cases h2

theorem begins_name {no ws : List String} {t n : List Char} (h : SpName no t n) (hws : ∀ w ∈ ws, w ∈ no ∧ w.toList ≠ []) {r : List Char} (hr : PEnd r)  :
    Begins ws (t ++ r) := by
  cases h with
  | @mk p k t m hp hno ht =>
    rw [List.append_assoc]
    cases hp with
    | plain hp =>
      obtain ⟨hw, c, n', rfl, _⟩ := hp
      refine begins_word hw (by simp) ?_ (fun w hx => hno w (hws w hx).1)
      have := ht.head hr
      cases h : t ++ r with
      | nil => rfl
      | cons x u =>
        have h1 := (this x (by rw [h]; rfl)).1
        have : keyChar x = false := by
          cases hk : keyChar x
          · rfl
          · rw [identChar_of_key hk] at h1; cases h1
        simp [boundary, this]
    | quoted => exact begins_char (fun w hw => (hws w hw).2) (by decide) (by decide) _

theorem solid_name {no : List String} {t n : List Char} (h : SpName no t n) (r : List Char) : skip (t ++ r) = t ++ r := by
  cases h with
  | @mk p k t m hp _ _ =>
    obtain ⟨c, p', rfl, hc⟩ := hp.head
    exact skip_solid (solid_part hc) _

/-- A spelled name is read as what it names. -/
theorem varName_read {no : List String} {t n : List Char} (h : SpName no t n) (hno : ∀ w ∈ reservedWords, w ∈ no) {g r : List Char} (hg : Gap g) (hr : PEnd r)
    (hd : (skipWhite r).head? ≠ some '.') : varName (g ++ (t ++ r)) = .ok n r := by
  have hb : Begins reservedWords (g ++ (t ++ r)) :=
    (begins_name h (fun w hw => ⟨hno w hw, by revert hw; revert w; decide⟩) hr).gap hg
  rw [varName, hb.anyKw (fun w hw => ⟨hw, by revert hw; revert w; decide⟩), if_neg (by simp), hg.skip, solid_name h, identAt_read h hr hd]

end EulerDB.Sql
