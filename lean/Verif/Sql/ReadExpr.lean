/-
What the parser makes of spelled operands and expressions.
-/
import Verif.Sql.Read

namespace EulerDB.Sql

open EulerDB EulerDB.Parse

/-! ### Numbers -/

theorem keyChar_digit {c : Char} (h : c.isDigit = true) : keyChar c = true := by simp [keyChar, Char.isAlphanum, h]

theorem digits_read : ∀ (ds r : List Char), (∀ c ∈ ds, c.isDigit = true) → (∀ c, r.head? = some c → c.isDigit = false) →
    digits (ds ++ r) = (ds, r)
  | [], r, _, hr => by
    cases r with
    | nil => rfl
    | cons c r => simp [digits, hr c rfl]
  | c :: ds, r, hd, hr => by
    rw [List.cons_append, digits, if_pos (hd c (by simp)), digits_read ds r (fun x hx => hd x (by simp [hx])) hr]

theorem Sep.digit {r : List Char} (h : Sep .lit r) : ∀ c, r.head? = some c → c.isDigit = false := by
  intro c hc
  have := endChar_key (h.end (by decide) hc)
  cases hd : c.isDigit
  · rfl
  · rw [keyChar_digit hd] at this; cases this

theorem signOf_ne {s : List Char} (h1 : s.head? ≠ some '-') (h2 : s.head? ≠ some '+') : signOf s = (false, s) := by
  cases s with
  | nil => rfl
  | cons c r =>
    have h1' : c ≠ '-' := by rintro rfl; exact h1 rfl
    have h2' : c ≠ '+' := by rintro rfl; exact h2 rfl
    rw [signOf, if_neg h1', if_neg h2']

theorem digit_ne {c x : Char} (h : c.isDigit = true) (hx : x.isDigit = false) : c ≠ x := by
  rintro rfl; rw [h] at hx; cases hx

theorem digits_head {ds r : List Char} (hne : ds ≠ []) (hd : ∀ c ∈ ds, c.isDigit = true) {x : Char} (hx : x.isDigit = false) :
    (ds ++ r).head? ≠ some x := by
  cases ds with
  | nil => exact absurd rfl hne
  | cons c ds => simpa using digit_ne (hd c (by simp)) hx

theorem realExp_sep {r : List Char} (h : Sep .lit r) : realExp r = (0, r) := by
  cases r with
  | nil => rfl
  | cons c r =>
    have := h.end (by decide) (c := c) rfl
    rw [realExp, if_neg]
    rintro (rfl | rfl) <;> exact absurd this (by decide)

theorem intExp_sep {r : List Char} (h : Sep .lit r) : intExp r = (none, r) := by
  cases r with
  | nil => rfl
  | cons c r =>
    have := h.end (by decide) (c := c) rfl
    rw [intExp, if_neg]
    rintro (rfl | rfl) <;> exact absurd this (by decide)

theorem number_int (env : Env) {ds r : List Char} (hne : ds ≠ []) (hd : ∀ c ∈ ds, c.isDigit = true) (hr : Sep .lit r) :
    number env (ds ++ r) = .ok (.int (natOf 0 ds)) r := by
  have h1 := signOf_ne (digits_head (r := r) hne hd (x := '-') (by decide)) (digits_head hne hd (x := '+') (by decide))
  have h2 := digits_read ds r hd hr.digit
  have h3 : realNum (ds ++ r) = none := by
    simp only [realNum, h1, h2]
    cases r with
    | nil => rfl
    | cons c r =>
      have : c ≠ '.' := endChar_ne (hr.end (by decide) (c := c) rfl) (by decide)
      simp [this]
  have h4 : intNum (ds ++ r) = some ((false, ds, none), r) := by
    simp only [intNum, h1, h2, intExp_sep hr, if_neg hne]
  rw [number, h3, h4]
  simp

theorem number_real (env : Env) {w f r : List Char} {q : ℚ} (hne : w ++ f ≠ []) (hd : ∀ c ∈ w ++ f, c.isDigit = true)
    (hq : env.fl (natQ w + natQ f / 10 ^ f.length) = some q) (hr : Sep .lit r) :
    number env (w ++ '.' :: f ++ r) = .ok (.float q) r := by
  have hw : ∀ c ∈ w, c.isDigit = true := fun c hc => hd c (by simp [hc])
  have hf : ∀ c ∈ f, c.isDigit = true := fun c hc => hd c (by simp [hc])
  have e : w ++ '.' :: f ++ r = w ++ '.' :: (f ++ r) := by simp
  have hh : ∀ x : Char, x.isDigit = false → x ≠ '.' → (w ++ '.' :: (f ++ r)).head? ≠ some x := by
    intro x hx hx2
    cases w with
    | nil => simpa using hx2.symm
    | cons c w => simpa using digit_ne (hw c (by simp)) hx
  have h1 := signOf_ne (hh '-' (by decide) (by decide)) (hh '+' (by decide) (by decide))
  have h2 := digits_read w ('.' :: (f ++ r)) hw (by intro c hc; simp at hc; subst hc; decide)
  have h3 := digits_read f r hf hr.digit
  have h4 : w ≠ [] ∨ f ≠ [] := by
    cases w with
    | nil => exact .inr (by simpa using hne)
    | cons => exact .inl (by simp)
  have h5 : realNum (w ++ '.' :: (f ++ r)) = some (⟨false, w, f, 0⟩, r) := by
    simp only [realNum, h1, h2, h3, realExp_sep hr, true_and]
    rw [if_pos h4]
  have h6 : (Num.mk false w f 0).value = natQ w + natQ f / 10 ^ f.length := by simp [Num.value]
  rw [e, number, h5]
  simp only [h6, hq]

theorem identAt_sep {r : List Char} (h : Sep .lit r) : identAt r = .fail := by
  cases r with
  | nil => rfl
  | cons c r =>
    have hc := h.end (by decide) (c := c) rfl
    have h1 : c ≠ '`' := endChar_ne hc (by decide)
    have h2 : c ≠ '[' := endChar_ne hc (by decide)
    rw [identAt, part, if_neg h1, if_neg h2, simple, if_neg (by simp [firstChar, endChar_ident hc])]

theorem hexNum_none {s : List Char} (h : ∀ u, s ≠ '0' :: 'x' :: u) : hexNum s = none := by
  unfold hexNum
  split
  · rename_i r; exact absurd rfl (h r)
  · rfl

theorem numberAtom_read (env : Env) {s r : List Char} {v : V} (hn : number env s = .ok v r) (hx : ∀ u, s ≠ '0' :: 'x' :: u) (hr : Sep .lit r) :
    numberAtom env s = .ok v r := by
  rw [numberAtom, hexNum_none hx, hn]
  simp only [identAt_sep hr]

/-! ### Lists -/

/-- The parser `p` reads the texts of `P` when what follows is in `E`. -/
def ReadsE {α : Type} (E : Edge → List Char → Prop) (p : List Char → R α) (P : Edge → List Char → α → Prop) : Prop :=
  ∀ (d : Edge) (t : List Char) (a : α) (r : List Char), P d t a → E d r → p (t ++ r) = .ok a r

/-- The same for what may follow an expression. -/
def Reads {α : Type} (p : List Char → R α) (P : Edge → List Char → α → Prop) : Prop := ReadsE Fin p P

theorem lit_comma {g u : List Char} (hg : Gap g) : lit "," (g ++ ',' :: u) = some u := by
  rw [lit_one "," rfl (c := ',') (r := u) (by rw [hg.skip]; exact skip_solid (by decide) u)]; rfl

theorem lit_char (w : String) {c : Char} (hw : w.toList = [c]) (hc : solidChar c = true) {g u : List Char} (hg : Gap g) : lit w (g ++ c :: u) = some u := by
  rw [lit_one w hw (c := c) (r := u) (by rw [hg.skip]; exact skip_solid hc u), if_pos rfl]

theorem listOf_read {α : Type} {E : Edge → List Char → Prop} (hE : ∀ d g u, After d g → E d (g ++ ',' :: u)) {p : List Char → R α}
    {P : Edge → List Char → α → Prop} (hp : ReadsE E p P) {d : Edge} {t : List Char} {l : List α}
    (h : SpList P d t l) {r : List Char} (hr : E d r) (hc : lit "," r = none) :
    ∃ a l' r', l = a :: l' ∧ p (t ++ r) = .ok a r' ∧ r'.length ≤ (t ++ r).length ∧ ∀ n, r'.length ≤ n → moreOf p n r' = .ok l' r := by
  induction h with
  | one ha =>
    refine ⟨_, [], r, rfl, hp _ _ _ _ ha hr, by simp, ?_⟩
    intro n _
    cases n with
    | zero => rfl
    | succ n => rw [moreOf, hc]
  | @cons d e t g u a l ha hg _ ih =>
    obtain ⟨b, l', r', rfl, h1, h2, h3⟩ := ih hr
    have e1 : t ++ g ++ ',' :: u ++ r = t ++ (g ++ ',' :: (u ++ r)) := by simp
    refine ⟨a, b :: l', g ++ ',' :: (u ++ r), rfl, ?_, by simp, ?_⟩
    · rw [e1]; exact hp _ _ _ _ ha (hE _ _ _ hg)
    · intro n hn
      simp only [List.length_append, List.length_cons] at hn h2
      obtain ⟨n, rfl⟩ : ∃ k, n = k + 1 := ⟨n - 1, by omega⟩
      rw [moreOf, lit_comma hg.1]
      simp only
      rw [h1]
      simp only
      rw [h3 n (by omega)]

theorem listOf_readsE {α : Type} {E : Edge → List Char → Prop} (hE : ∀ d g u, After d g → E d (g ++ ',' :: u)) {p : List Char → R α}
    {P : Edge → List Char → α → Prop} (hp : ReadsE E p P) {d : Edge} {t : List Char} {l : List α}
    (h : SpList P d t l) {r : List Char} (hr : E d r) (hc : lit "," r = none) : listOf p (t ++ r) = .ok l r := by
  obtain ⟨a, l', r', rfl, h1, _, h3⟩ := listOf_read hE hp h hr hc
  rw [listOf, h1]
  simp only
  rw [h3 _ (Nat.le_refl _)]

theorem listOf_reads {α : Type} {p : List Char → R α} {P : Edge → List Char → α → Prop} (hp : Reads p P) {d : Edge} {t : List Char} {l : List α}
    (h : SpList P d t l) {r : List Char} (hr : Fin d r) (hc : lit "," r = none) : listOf p (t ++ r) = .ok l r :=
  listOf_readsE (fun _ _ u hg => fin_char hg (by decide) u) hp h hr hc

/-! ### Operands -/

/-- What the proofs need of the expressions one level down. -/
structure Good (ex : List Char → R V) (Ex : Edge → List Char → V → Prop) : Prop where
  read : Reads ex Ex
  query : ∀ d t v r m, Ex d t v → Fin d r → opensQuery m (t ++ r) = false
  close : ∀ d t v r, Ex d t v → Fin d r → lit ")" (t ++ r) = none

theorem SpList.first {α : Type} {P : Edge → List Char → α → Prop} {d : Edge} {t : List Char} {l : List α} (h : SpList P d t l) {r : List Char} (hr : Fin d r) :
    ∃ e t' a r', P e t' a ∧ Fin e r' ∧ t ++ r = t' ++ r' := by
  cases h with
  | one ha => exact ⟨_, _, _, r, ha, hr, rfl⟩
  | @cons d _ t g u a l ha hg hu =>
    exact ⟨d, t, a, g ++ ',' :: (u ++ r), ha, fin_char hg (by decide) _, by simp⟩

/-- The words an operand does not begin with. -/
def noStart : List String := ["not", "select", "with", "values", "distinct"]

theorem opensQuery_word {s : List Char} (h : Begins ["select", "with", "values"] s) (hp : (skip s).head? ≠ some '(') : ∀ m, opensQuery m s = false
  | 0 => rfl
  | m + 1 => by
    rw [opensQuery, h.anyKw (by decide), lit_head "(" (d := '(') (l := []) rfl hp]
    rfl

theorem wordy_of {w : String} {t : List Char} (h : Word w t) (hw : Wordy w.toList) : Wordy t := by
  intro c hc
  have : c.toLower ∈ w.toList := by rw [← h]; exact List.mem_map_of_mem hc
  have := hw _ this
  rcases toLower_cases c with h1 | h1
  · rwa [h1] at this
  · exact keyChar_upper h1

theorem ne_nil_of {w : String} {t : List Char} (h : Word w t) (hw : w.toList ≠ []) : t ≠ [] := by
  rintro rfl
  exact hw h.symm

theorem not_word {w v : String} {t : List Char} (h : Word w t) (hne : w.toList ≠ v.toList) : ¬ Word v t := by
  intro h2
  exact hne (h.symm.trans h2)

/-- The character an operand begins with. -/
def startChar (c : Char) : Bool := keyChar c || c == '`' || c == '.' || c == '\'' || c == '"' || c == '('

section
variable {env : Env} {ex : List Char → R V} {Ex : Edge → List Char → V → Prop}

theorem SpAtom.head {d : Edge} {t : List Char} {v : V} (h : SpAtom env Ex d t v) : ∃ c t', t = c :: t' ∧ startChar c = true := by
  have hk : ∀ {c : Char}, keyChar c = true → startChar c = true := fun h => by simp [startChar, h]
  cases h with
  | null hw =>
    obtain ⟨c, t', rfl⟩ := List.exists_cons_of_ne_nil (ne_nil_of hw (by decide))
    exact ⟨c, t', rfl, hk (wordy_of hw (by decide) c (by simp))⟩
  | name hn =>
    cases hn with
    | mk hp _ _ =>
      obtain ⟨c, p', rfl, hc⟩ := hp.head
      refine ⟨c, _, rfl, ?_⟩
      rcases hc with hc | rfl
      · exact hk hc.1
      · decide
  | int hne hd =>
    obtain ⟨c, t', rfl⟩ := List.exists_cons_of_ne_nil hne
    exact ⟨c, t', rfl, hk (keyChar_digit (hd c (by simp)))⟩
  | @real w f q _ hd _ =>
    cases w with
    | nil => exact ⟨_, _, rfl, by decide⟩
    | cons c w => exact ⟨c, _, rfl, hk (keyChar_digit (hd c (by simp)))⟩
  | str => exact ⟨_, _, rfl, by decide⟩
  | dstr => exact ⟨_, _, rfl, by decide⟩
  | paren => exact ⟨_, _, rfl, by decide⟩
  | call hf =>
    obtain ⟨hw, c, n', rfl, _⟩ := hf
    exact ⟨c, _, rfl, hk (hw c (by simp))⟩
  | call0 hf =>
    obtain ⟨hw, c, n', rfl, _⟩ := hf
    exact ⟨c, _, rfl, hk (hw c (by simp))⟩

theorem startChar_solid {c : Char} (h : startChar c = true) : solidChar c = true := by
  simp only [startChar, Bool.or_eq_true, beq_iff_eq] at h
  rcases h with ((((h | rfl) | rfl) | rfl) | rfl) | rfl
  · exact solidChar_of_key h
  all_goals decide

theorem startChar_ne {c x : Char} (h : startChar c = true) (hx : startChar x = false) : c ≠ x := by
  rintro rfl; rw [h] at hx; cases hx

theorem after_boundary {h u : List Char} (hh : After .name h) : boundary (h ++ '(' :: u) = true :=
  (hh.sep (c := '(') (by decide) (by decide) u).boundary (by decide)

theorem SpAtom.begins {d : Edge} {t : List Char} {v : V} (h : SpAtom env Ex d t v) {r : List Char} (hr : Stop d r) : Begins noStart (t ++ r) := by
  cases h with
  | null hw => exact begins_word (wordy_of hw (by decide)) (ne_nil_of hw (by decide)) (hr.sep.boundary (by decide)) (fun w hx => not_word hw (by revert hx; revert w; decide))
  | name hn => exact begins_name hn (by decide) hr.sep.pend
  | int hne hd =>
    obtain ⟨c, t', rfl⟩ := List.exists_cons_of_ne_nil hne
    exact begins_digit (by decide) (hd c (by simp)) _
  | @real w f q _ hd _ =>
    cases w with
    | nil => exact begins_char (by decide) (by decide) (by decide) _
    | cons c w => exact begins_digit (by decide) (hd c (by simp)) _
  | str => exact begins_char (by decide) (by decide) (by decide) _
  | dstr => exact begins_char (by decide) (by decide) (by decide) _
  | paren => exact begins_char (by decide) (by decide) (by decide) _
  | @call _ f h t g l hf hno hh _ _ =>
    obtain ⟨hw, c, n', rfl, _⟩ := hf
    have e : c :: n' ++ h ++ '(' :: (t ++ g ++ [')']) ++ r = c :: n' ++ (h ++ '(' :: (t ++ g ++ [')'] ++ r)) := by simp
    rw [e]
    exact begins_word hw (by simp) (after_boundary hh) (fun w hx => hno w (by revert hx; revert w; decide))
  | @call0 f h g hf hno hh _ =>
    obtain ⟨hw, c, n', rfl, _⟩ := hf
    have e : c :: n' ++ h ++ '(' :: (g ++ [')']) ++ r = c :: n' ++ (h ++ '(' :: (g ++ [')'] ++ r)) := by simp
    rw [e]
    exact begins_word hw (by simp) (after_boundary hh) (fun w hx => hno w (by revert hx; revert w; decide))

theorem SpAtom.query (hG : Good ex Ex) {d : Edge} {t : List Char} {v : V} (h : SpAtom env Ex d t v) {r : List Char} (hr : Stop d r) :
    ∀ m, opensQuery m (t ++ r) = false := by
  have hb := h.begins hr
  obtain ⟨c, t', ht, hc⟩ := h.head
  have hs : skip (t ++ r) = t ++ r := by rw [ht]; exact skip_solid (startChar_solid hc) _
  by_cases hp : c = '('
  · subst hp
    cases h with
    | @paren _ t g l hl hg =>
      have e : '(' :: (t ++ g ++ [')']) ++ r = '(' :: (t ++ (g ++ ')' :: r)) := by simp
      intro m
      cases m with
      | zero => rfl
      | succ m =>
        rw [opensQuery, hb.anyKw (by decide), e, lit_one "(" (c := '(') rfl (skip_solid (by decide) _)]
        have hfin := fin_char hg (c := ')') (by decide) r
        obtain ⟨e', t1, a, r1, h1, h2, h3⟩ := hl.first hfin
        simp only [Bool.false_or]
        rw [h3]
        exact hG.query _ _ _ _ _ h1 h2
    | null hw =>
      have := wordy_of hw (by decide) '(' (by rw [ht]; simp)
      exact absurd this (by decide)
    | name hn =>
      cases hn with
      | mk hp _ _ =>
        obtain ⟨c, p', rfl, hc⟩ := hp.head
        have : c = '(' := by simpa using congrArg List.head? ht
        subst this
        rcases hc with hc | hc
        · exact absurd hc.1 (by decide)
        · exact absurd hc (by decide)
    | int hne hd => rw [ht] at hd; exact absurd (hd '(' (by simp)) (by decide)
    | @real w f q _ hd _ =>
      cases w with
      | nil => exact absurd (congrArg List.head? ht) (by simp)
      | cons c w =>
        have : c = '(' := by simpa using congrArg List.head? ht
        subst this
        exact absurd (hd '(' (by simp)) (by decide)
    | str => exact absurd (congrArg List.head? ht) (by simp)
    | dstr => exact absurd (congrArg List.head? ht) (by simp)
    | call hf =>
      obtain ⟨hw, c, n', rfl, _⟩ := hf
      have : c = '(' := by simpa using congrArg List.head? ht
      subst this
      exact absurd (hw '(' (by simp)) (by decide)
    | call0 hf =>
      obtain ⟨hw, c, n', rfl, _⟩ := hf
      have : c = '(' := by simpa using congrArg List.head? ht
      subst this
      exact absurd (hw '(' (by simp)) (by decide)
  · exact opensQuery_word (hb.mono (by decide)) (by rw [hs, ht]; simpa using hp)

theorem lit_close {g u : List Char} (hg : Gap g) : lit ")" (g ++ ')' :: u) = some u := lit_char ")" rfl (by decide) hg

theorem comma_close {g u : List Char} (hg : Gap g) : lit "," (g ++ ')' :: u) = none := by
  rw [lit_one "," rfl (c := ')') (r := u) (by rw [hg.skip]; exact skip_solid (by decide) u)]; rfl

/-- The list between parentheses. -/
theorem list_close (hG : Good ex Ex) {d : Edge} {t g : List Char} {l : List V} (hl : SpList Ex d t l) (hg : After d g) (r : List Char) :
    listOf ex (t ++ (g ++ ')' :: r)) = .ok l (g ++ ')' :: r) :=
  listOf_reads hG.read hl (fin_char hg (by decide) r) (comma_close hg.1)

theorem list_query (hG : Good ex Ex) {d : Edge} {t g : List Char} {l : List V} (hl : SpList Ex d t l) (hg : After d g) (r : List Char) (m : Nat) :
    opensQuery m (t ++ (g ++ ')' :: r)) = false ∧ lit ")" (t ++ (g ++ ')' :: r)) = none := by
  obtain ⟨e', t1, a, r1, h1, h2, h3⟩ := hl.first (fin_char hg (c := ')') (by decide) r)
  rw [h3]
  exact ⟨hG.query _ _ _ _ _ h1 h2, hG.close _ _ _ _ h1 h2⟩

theorem ascii_of_key {c : Char} (h : keyChar c = true) : c.toNat < 128 := by
  simp only [keyChar, Char.isAlphanum, Char.isAlpha, Char.isUpper, Char.isLower, Char.isDigit, Bool.or_eq_true, Bool.and_eq_true,
    decide_eq_true_eq, beq_iff_eq] at h
  rcases h with (((h | h) | h) | rfl) | rfl
  · exact Nat.lt_of_le_of_lt (UInt32.le_iff_toNat_le.mp h.2) (by decide)
  · exact Nat.lt_of_le_of_lt (UInt32.le_iff_toNat_le.mp h.2) (by decide)
  · exact Nat.lt_of_le_of_lt (UInt32.le_iff_toNat_le.mp h.2) (by decide)
  · decide
  · decide

theorem ascii_all {f : List Char} (h : Wordy f) : f.all (fun c => decide (c.toNat < 128)) = true := by
  rw [List.all_eq_true]
  intro c hc
  simpa using ascii_of_key (h c hc)

theorem callArgs_read (hG : Good ex Ex) {d : Edge} {f t g : List Char} {l : List V} (hf : Wordy f) (hl : SpList Ex d t l) (hg : After d g) (r : List Char) :
    callArgs ex f (t ++ (g ++ ')' :: r)) = .ok (.call (callOp (strOf (f.map Char.toLower))) l) r := by
  have hb : Begins ["respect", "ignore"] (g ++ ')' :: r) := (begins_char (by decide) (c := ')') (by decide) (by decide) r).gap hg.1
  rw [callArgs, if_pos (ascii_all hf), (list_query hG hl hg r 0).2]
  simp only [(list_query hG hl hg r _).1]
  rw [list_close hG hl hg r]
  simp only [hb.anyKw (ws := ["respect", "ignore"]) (by decide), lit_close hg.1]
  rfl

theorem callArgs_none {f g : List Char} (hf : Wordy f) (hg : Gap g) (r : List Char) :
    callArgs ex f (g ++ ')' :: r) = .ok (.call (callOp (strOf (f.map Char.toLower))) []) r := by
  rw [callArgs, if_pos (ascii_all hf), lit_close hg]

theorem ident_call {f h u : List Char} (hf : Plain f) (hh : After .name h) : identAt (f ++ (h ++ '(' :: u)) = .ok f (h ++ '(' :: u) := by
  have hs := hh.sep (c := '(') (by decide) (by decide) u
  have hsk : skip (h ++ '(' :: u) = '(' :: u := by rw [hh.1.skip]; exact skip_solid (by decide) u
  have hn : SpName [] (f ++ []) (f ++ []) := .mk (.plain hf) (by simp) .nil
  rw [List.append_nil] at hn
  exact identAt_read hn hs.pend (skipWhite_head (by decide) (by rw [hsk]; simp))

theorem head_words {s : List Char} (h : Begins noCalls s) : kw "null" s = none ∧ anyKw headWords s = false :=
  ⟨h.kw (by decide) (by decide), h.anyKw (by decide)⟩

theorem nameOrCall_call {s f r1 r2 : List Char} {v : V} (h1 : identAt (skip s) = .ok f r1) (h2 : lit "(" r1 = some r2) {r : List Char}
    (h3 : callArgs ex f r2 = .ok v r) : nameOrCall ex s = .ok v r := by
  rw [nameOrCall, h1]
  simp only [h2, h3]

/-- Which branch of `atom` a character takes. -/
theorem atom_name {s : List Char} {c : Char} {u : List Char} (hb : Begins noCalls s) (hs : skip s = c :: u)
    (hc : keyChar c = true ∧ c.isDigit = false ∨ c = '`') : atom env ex s = nameOrCall ex s := by
  obtain ⟨h1, h2⟩ := head_words hb
  have hne : ∀ x : Char, x ≠ '`' → (keyChar x = false ∨ x.isDigit = true) → c ≠ x := by
    rintro x hx hx2 rfl
    rcases hc with ⟨h, h'⟩ | h
    · rcases hx2 with hx2 | hx2
      · rw [h] at hx2; cases hx2
      · rw [h'] at hx2; cases hx2
    · exact hx h
  have hd : c.isDigit = false := by
    rcases hc with h | rfl
    · exact h.2
    · decide
  rw [atom, h1, h2, hs]
  simp only [Bool.false_eq_true, if_false]
  rw [if_neg (hne '[' (by decide) (.inl (by decide))), if_neg (hne '(' (by decide) (.inl (by decide))), if_neg, if_neg]
  · rintro (h | h | h | h)
    · rw [hd] at h; cases h
    · exact hne '.' (by decide) (.inl (by decide)) h
    · exact hne '+' (by decide) (.inl (by decide)) h
    · exact hne '-' (by decide) (.inl (by decide)) h
  · rintro (h | h)
    · exact hne '\'' (by decide) (.inl (by decide)) h
    · exact hne '"' (by decide) (.inl (by decide)) h

theorem atom_number {s : List Char} {c : Char} {u : List Char} (hb : Begins noCalls s) (hs : skip s = c :: u)
    (hc : c.isDigit = true ∨ c = '.') : atom env ex s = numberAtom env (c :: u) := by
  obtain ⟨h1, h2⟩ := head_words hb
  have hne : ∀ x : Char, x ≠ '.' → x.isDigit = false → c ≠ x := by
    rintro x hx hx2 rfl
    rcases hc with h | h
    · rw [h] at hx2; cases hx2
    · exact hx h
  rw [atom, h1, h2, hs]
  simp only [Bool.false_eq_true, if_false]
  rw [if_neg (hne '[' (by decide) (by decide)), if_neg (hne '(' (by decide) (by decide)), if_neg, if_pos]
  · rcases hc with h | h
    · exact .inl h
    · exact .inr (.inl h)
  · rintro (h | h)
    · exact hne '\'' (by decide) (by decide) h
    · exact hne '"' (by decide) (by decide) h

/-- A spelled operand is read as what it spells. -/
theorem SpAtom.read (hG : Good ex Ex) {d : Edge} {t : List Char} {v : V} (h : SpAtom env Ex d t v) {g r : List Char} (hg : Gap g) (hr : Stop d r) :
    atom env ex (g ++ (t ++ r)) = .ok v r := by
  have hnf : ∀ {x : Char}, shutChar x = false → Format.NotFirst x r := fun hx => hr.sep.ne hx
  cases h with
  | null hw =>
    have hf := (first_word (wordy_of hw (by decide)) (ne_nil_of hw (by decide)) (hr.sep.boundary (by decide))).gap hg
    have : kw "null" (g ++ (t ++ r)) = some r := by rw [hf.kw (by decide)]; exact if_pos hw
    rw [atom, this]
  | @name t n hn =>
    have hb : Begins noCalls (g ++ (t ++ r)) := (begins_name hn (by decide) hr.sep.pend).gap hg
    have hd : (skip r).head? ≠ some '.' := suffix_dot hr.suf
    have hd' := skipWhite_head (c := '.') (by decide) hd
    have hv := varName_read hn (by decide) hg hr.sep.pend hd'
    have hs : skip (g ++ (t ++ r)) = t ++ r := by rw [hg.skip, solid_name hn]
    have hi := identAt_read hn hr.sep.pend hd'
    have hat : nameOrCall ex (g ++ (t ++ r)) = .ok (.name (strOf n)) r := by
      rw [nameOrCall, hs, hi]
      simp only [hr.par]
      rw [nameAtom, hv]
      simp only
      have l1 : litAt ['.', '*'] r = none := by
        cases r with
        | nil => rfl
        | cons c u =>
          have : c ≠ '.' := endChar_ne (hr.sep.end (by decide) rfl) (by decide)
          simp [litAt, this]
      have l2 : litAt ['.', '*'] (skipWhite r) = none := by
        cases hk : skipWhite r with
        | nil => rfl
        | cons c u =>
          have : c ≠ '.' := by rintro rfl; rw [hk] at hd'; exact hd' rfl
          simp [litAt, this]
      rw [l1, l2]
      rfl
    rw [← hat]
    cases hn with
    | @mk p k t m hp _ _ =>
      obtain ⟨c, p', rfl, hc⟩ := hp.head
      exact atom_name (c := c) hb hs hc
  | int hne hd =>
    have hn := number_int env hne hd hr.sep
    obtain ⟨c, t', rfl⟩ := List.exists_cons_of_ne_nil hne
    have hb : Begins noCalls (g ++ (c :: t' ++ r)) := (begins_digit (by decide) (hd c (by simp)) _).gap hg
    have hs : skip (g ++ (c :: t' ++ r)) = c :: (t' ++ r) := by
      rw [hg.skip]; exact skip_solid (solidChar_of_key (keyChar_digit (hd c (by simp)))) _
    rw [atom_number hb hs (.inl (hd c (by simp)))]
    refine numberAtom_read env hn ?_ hr.sep
    intro u hu
    cases t' with
    | nil =>
      cases r with
      | nil => simp at hu
      | cons x r =>
        simp only [List.nil_append, List.cons.injEq] at hu
        obtain ⟨-, rfl, -⟩ := hu
        exact absurd (hr.sep.end (by decide) (c := 'x') rfl) (by decide)
    | cons x t' =>
      simp only [List.cons_append, List.cons.injEq] at hu
      obtain ⟨-, rfl, -⟩ := hu
      exact absurd (hd 'x' (by simp)) (by decide)
  | @real w f q hne hd hq =>
    have hn := number_real env hne hd hq hr.sep
    have hx : ∀ u, w ++ '.' :: f ++ r ≠ '0' :: 'x' :: u := by
      intro u hu
      cases w with
      | nil => simp at hu
      | cons c w =>
        cases w with
        | nil => simp at hu
        | cons x w =>
          simp only [List.cons_append, List.cons.injEq] at hu
          obtain ⟨-, rfl, -⟩ := hu
          exact absurd (hd 'x' (by simp)) (by decide)
    have hfin := numberAtom_read env hn hx hr.sep
    cases w with
    | nil =>
      have hb : Begins noCalls (g ++ ([] ++ '.' :: f ++ r)) := (begins_char (by decide) (by decide) (by decide) _).gap hg
      rw [atom_number hb (c := '.') (u := f ++ r) (by rw [hg.skip]; exact skip_solid (by decide) _) (.inr rfl)]
      exact hfin
    | cons c w =>
      have hc := hd c (by simp)
      have hb : Begins noCalls (g ++ (c :: w ++ '.' :: f ++ r)) := (begins_digit (by decide) hc _).gap hg
      rw [atom_number hb (c := c) (u := w ++ '.' :: f ++ r) (by rw [hg.skip]; exact skip_solid (solidChar_of_key (keyChar_digit hc)) _) (.inl hc)]
      exact hfin
  | @str l hl =>
    have hb : Begins noCalls (g ++ ('\'' :: (Format.written l ++ ['\'']) ++ r)) := (begins_char (by decide) (by decide) (by decide) _).gap hg
    obtain ⟨h1, h2⟩ := head_words hb
    have hs : skip (g ++ ('\'' :: (Format.written l ++ ['\'']) ++ r)) = '\'' :: (Format.written l ++ '\'' :: r) := by
      rw [hg.skip]; simpa using skip_solid (c := '\'') (by decide) (Format.written l ++ '\'' :: r)
    rw [atom, h1, h2, hs]
    simp only [Bool.false_eq_true, if_false]
    rw [if_neg (by decide), if_neg (by decide), if_pos (.inl trivial), strAt, Format.rawStr_written r (hnf (by decide)) l hl]
    simp only [(Format.C57_escapes_partial env.long l hl r (hnf (by decide))).1]
  | @dstr s hl =>
    have hb : Begins noCalls (g ++ ('"' :: (s ++ ['"']) ++ r)) := (begins_char (by decide) (by decide) (by decide) _).gap hg
    obtain ⟨h1, h2⟩ := head_words hb
    have hs : skip (g ++ ('"' :: (s ++ ['"']) ++ r)) = '"' :: (s ++ '"' :: r) := by
      rw [hg.skip]; simpa using skip_solid (c := '"') (by decide) (s ++ '"' :: r)
    have h3 := (Format.C57_double_partial env.long s r hl (hnf (by decide))).1
    have h4 : ∃ x, Format.rawStr '"' (s ++ '"' :: r) = some x := by
      unfold Format.toString' at h3
      split at h3
      · cases h3
      · rename_i hx; exact ⟨_, hx⟩
    obtain ⟨x, hx⟩ := h4
    rw [atom, h1, h2, hs]
    simp only [Bool.false_eq_true, if_false]
    rw [if_neg (by decide), if_neg (by decide), if_pos (.inr trivial), strAt, hx]
    simp only [h3]
  | @paren _ t k l hl hk =>
    have e : '(' :: (t ++ k ++ [')']) ++ r = '(' :: (t ++ (k ++ ')' :: r)) := by simp
    rw [e]
    have hb : Begins noCalls (g ++ '(' :: (t ++ (k ++ ')' :: r))) := (begins_char (by decide) (by decide) (by decide) _).gap hg
    obtain ⟨h1, h2⟩ := head_words hb
    have hs : skip (g ++ '(' :: (t ++ (k ++ ')' :: r))) = '(' :: (t ++ (k ++ ')' :: r)) := by
      rw [hg.skip]; exact skip_solid (by decide) _
    rw [atom, h1, h2, hs]
    simp only [Bool.false_eq_true, if_false]
    rw [if_neg (by decide), if_pos trivial, (list_query hG hl hk r _).1, list_close hG hl hk r]
    simp only [Bool.false_eq_true, if_false, lit_close hk.1]
  | @call _ f h t k l hf hno hh hl hk =>
    have e : f ++ h ++ '(' :: (t ++ k ++ [')']) ++ r = f ++ (h ++ '(' :: (t ++ (k ++ ')' :: r))) := by simp
    rw [e]
    have hw := hf.1
    obtain ⟨c, n', hfe, hd⟩ := hf.2
    have hb : Begins noCalls (g ++ (f ++ (h ++ '(' :: (t ++ (k ++ ')' :: r))))) :=
      (begins_word hw (by rw [hfe]; simp) (after_boundary hh) hno).gap hg
    have hs : skip (g ++ (f ++ (h ++ '(' :: (t ++ (k ++ ')' :: r))))) = f ++ (h ++ '(' :: (t ++ (k ++ ')' :: r))) := by
      rw [hg.skip, hfe]; exact skip_solid (solidChar_of_key (hw c (by rw [hfe]; simp))) _
    rw [atom_name (c := c) (u := n' ++ (h ++ '(' :: (t ++ (k ++ ')' :: r)))) hb (by rw [hs, hfe]; rfl) (.inl ⟨hw c (by rw [hfe]; simp), hd⟩)]
    exact nameOrCall_call (by rw [hs]; exact ident_call hf hh) (lit_char "(" rfl (by decide) hh.1) (callArgs_read hG hw hl hk r)
  | @call0 f h k hf hno hh hk =>
    have e : f ++ h ++ '(' :: (k ++ [')']) ++ r = f ++ (h ++ '(' :: (k ++ ')' :: r)) := by simp
    rw [e]
    have hw := hf.1
    obtain ⟨c, n', hfe, hd⟩ := hf.2
    have hb : Begins noCalls (g ++ (f ++ (h ++ '(' :: (k ++ ')' :: r)))) :=
      (begins_word hw (by rw [hfe]; simp) (after_boundary hh) hno).gap hg
    have hs : skip (g ++ (f ++ (h ++ '(' :: (k ++ ')' :: r)))) = f ++ (h ++ '(' :: (k ++ ')' :: r)) := by
      rw [hg.skip, hfe]; exact skip_solid (solidChar_of_key (hw c (by rw [hfe]; simp))) _
    rw [atom_name (c := c) (u := n' ++ (h ++ '(' :: (k ++ ')' :: r))) hb (by rw [hs, hfe]; rfl) (.inl ⟨hw c (by rw [hfe]; simp), hd⟩)]
    exact nameOrCall_call (by rw [hs]; exact ident_call hf hh) (lit_char "(" rfl (by decide) hh.1) (callArgs_none hw hk r)

end

end EulerDB.Sql
