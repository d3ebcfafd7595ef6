/-
C85: the values and the limit the parser reads from a statement.
-/
import Verif.Values.Kin

namespace EulerDB.Values

open EulerDB.Lex EulerDB.Group EulerDB.Rules

/-! ### Keywords -/

/-- A keyword in any case of its letters. -/
structure Word (w : String) (t : Token) : Prop where
  key : isKeywordTok t = true
  letters : ∀ c ∈ t.value, c.isAlpha = true
  upper : Lex.upper t.value = w
  comment : isCommentType t.ttype = false

theorem Word.paren {w : String} {t : Token} (h : Word w t) : parenTok t = false := by
  rw [parenTok, Bool.or_eq_false_iff, beq_eq_false_iff_ne, beq_eq_false_iff_ne]
  exact ⟨fun e => absurd (h.letters '(' (by rw [e]; simp)) (by decide), fun e => absurd (h.letters ')' (by rw [e]; simp)) (by decide)⟩

theorem Word.dot {w : String} {t : Token} (h : Word w t) : isDot t = false := by
  rw [isDot, beq_eq_false_iff_ne]
  exact fun e => absurd (h.letters '.' (by rw [e]; simp)) (by decide)

theorem Word.type {w : String} {t : Token} (h : Word w t) (ty : TType) (hty : isKeywordTok ⟨ty, []⟩ = false) : t.ttype ≠ ty := by
  intro e
  have := h.key
  rw [isKeywordTok, e] at this
  rw [isKeywordTok] at hty
  rw [this] at hty
  cases hty

theorem asciiSpace_letter {c : Char} (h : c.isAlpha = true) : asciiSpace c = false := by
  cases hc : asciiSpace c with
  | false => rfl
  | true =>
    exfalso
    have hn : c ≠ ' ' := by rintro rfl; cases h
    unfold asciiSpace at hc
    simp only [Bool.or_eq_true, Bool.and_eq_true, decide_eq_true_eq, beq_iff_eq, hn, false_or] at hc
    rw [Char.isAlpha, Char.isUpper, Char.isLower] at h
    simp only [Bool.or_eq_true, Bool.and_eq_true, decide_eq_true_eq] at h
    have h2 : c.toNat = c.val.toNat := rfl
    rcases h with h | h
    · have := UInt32.le_iff_toNat_le.1 h.1
      simp at this
      omega
    · have := UInt32.le_iff_toNat_le.1 h.1
      simp at this
      omega

/-- After one of the relevant keywords that have no exception, it is the last keyword. -/
theorem Word.last {w : String} {t : Token} (h : Word w t) (hr : relevant.contains w = true) (h1 : w ≠ "FROM") (h2 : w ≠ "ORDERBY")
    (h3 : w ≠ "USING") (made : List PTok) (bk : Book) : lastKeyword t (unquote t.value) made bk = w := by
  have e : normalized t.value = w := by rw [normalized_word h.letters, h.upper]
  have f : t.value.filter (fun c => !asciiSpace c) = t.value := by
    rw [List.filter_eq_self]
    intro c hc
    rw [asciiSpace_letter (h.letters c hc)]
    rfl
  rw [unquote_word h.letters, lastKeyword]
  rw [f, e, h.key, hr, beq_eq_false_iff_ne.2 h1, beq_eq_false_iff_ne.2 h2, beq_eq_false_iff_ne.2 h3]
  simp

theorem onToken_word {w : String} {t : Token} (h : Word w t) (hr : relevant.contains w = true) (h1 : w ≠ "FROM") (h2 : w ≠ "ORDERBY")
    (h3 : w ≠ "USING") {pos : Nat} {made : List PTok} {bk bk' : Book} {p : PTok} (ht : onToken t (unquote t.value) pos made bk = .ok (p, bk')) :
    bk'.last = w ∧ bk'.level = bk.level ∧ bk'.opens = bk.opens := by
  have hp := h.paren
  rw [parenTok, Bool.or_eq_false_iff] at hp
  simp only [onToken, hp.1, hp.2, Bool.false_eq_true, if_false, h.last hr h1 h2 h3, Except.ok.injEq, Prod.mk.injEq] at ht
  obtain ⟨rfl, rfl⟩ := ht
  exact ⟨rfl, rfl, rfl⟩

/-! ### Values -/

/-- An INSERT as its tokens: what is before `VALUES`, the rows, and what follows them. -/
structure Insert (st pre : List Token) (kv : Token) (rows : List (List Token)) (post : List Token) (vals : List (List Val)) : Prop where
  toks : st.filter (fun t => !isBlank t) = pre ++ kv :: (rowsToks rows ++ post)
  digits : digits st = false
  first : ∃ t r w, pre = t :: r ∧ Word w t ∧ w ∈ starters
  noValues : ∀ t ∈ pre, keyed "VALUES" t = false
  closed : closes 0 (parens pre) = some 0
  word : Word "VALUES" kv
  cells : List.Forall₂ (List.Forall₂ Cell) rows vals
  after : ∀ t ∈ post, parenTok t = false
  dots : ∀ t ∈ pre ++ post, isDot t = false

theorem parens_none : ∀ {l : List Token}, (∀ t ∈ l, parenTok t = false) → parens l = []
  | [], _ => rfl
  | t :: l, h => by
    rw [parens_cons, h t (List.mem_cons_self ..), parens_none fun u hu => h u (List.mem_cons_of_mem _ hu)]
    rfl

theorem mem_sep : ∀ {row : List Token} {t : Token}, t ∈ sep row → t ∈ row ∨ t = comma
  | [], _, h => by cases h
  | [u], _, h => .inl h
  | u :: v :: row, t, h => by
    have e : sep (u :: v :: row) = u :: comma :: sep (v :: row) := rfl
    rw [e] at h
    rcases List.mem_cons.1 h with rfl | h
    · exact .inl (List.mem_cons_self ..)
    · rcases List.mem_cons.1 h with rfl | h
      · exact .inr rfl
      · rcases mem_sep h with h | h
        · exact .inl (List.mem_cons_of_mem _ h)
        · exact .inr h

theorem forall₂_left {α β : Type} {R : α → β → Prop} {l : List α} {m : List β} (h : List.Forall₂ R l m) {a : α} (ha : a ∈ l) :
    ∃ b ∈ m, R a b := by
  induction h with
  | nil => cases ha
  | @cons x y _ _ hxy _ ih =>
    rcases List.mem_cons.1 ha with rfl | ha
    · exact ⟨y, List.mem_cons_self .., hxy⟩
    · obtain ⟨b, h1, h2⟩ := ih ha
      exact ⟨b, List.mem_cons_of_mem _ h1, h2⟩

theorem closes_row {row : List Token} {vals : List Val} (h : List.Forall₂ Cell row vals) (n : Nat) (r : List Char) :
    closes n (parens (rowToks row) ++ r) = closes n r := by
  have e : parens (sep row) = [] := by
    refine parens_none fun t ht => ?_
    rcases mem_sep ht with ht | rfl
    · obtain ⟨v, _, hv⟩ := forall₂_left h ht
      exact hv.paren
    · decide
  rw [rowToks, parens_cons, parens_append, e]
  rfl

theorem closes_rows : ∀ {rows : List (List Token)} {vals : List (List Val)}, List.Forall₂ (List.Forall₂ Cell) rows vals → ∀ (n : Nat) (r : List Char),
    closes n (parens (rowsToks rows) ++ r) = closes n r
  | [], _, _, _, _ => rfl
  | [row], _, h, n, r => by
    cases h with
    | cons h1 _ => exact closes_row h1 n r
  | row :: row' :: rows, _, h, n, r => by
    cases h with
    | cons h1 h2 =>
      have e : rowsToks (row :: row' :: rows) = rowToks row ++ comma :: rowsToks (row' :: rows) := rfl
      have c : parens (comma :: rowsToks (row' :: rows)) = parens (rowsToks (row' :: rows)) := by
        rw [parens_cons]; rfl
      rw [e, parens_append, c, List.append_assoc, closes_row h1, closes_rows h2]

theorem dots_rows : ∀ {rows : List (List Token)} {vals : List (List Val)}, List.Forall₂ (List.Forall₂ Cell) rows vals →
    ∀ t ∈ rowsToks rows, isDot t = false := by
  have one : ∀ {row : List Token} {vals : List Val}, List.Forall₂ Cell row vals → ∀ t ∈ rowToks row, isDot t = false := by
    intro row vals h t ht
    rw [rowToks] at ht
    rcases List.mem_cons.1 ht with rfl | ht
    · decide
    · rcases List.mem_append.1 ht with ht | ht
      · rcases mem_sep ht with ht | rfl
        · obtain ⟨v, _, hv⟩ := forall₂_left h ht
          exact hv.dot
        · decide
      · rw [List.mem_singleton.1 ht]; decide
  intro rows
  induction rows with
  | nil => intro _ _ t ht; cases ht
  | cons row rows ih =>
    intro vals h t ht
    cases h with
    | cons h1 h2 =>
      cases rows with
      | nil => exact one h1 t ht
      | cons row' rows =>
        have e : rowsToks (row :: row' :: rows) = rowToks row ++ comma :: rowsToks (row' :: rows) := rfl
        rw [e] at ht
        rcases List.mem_append.1 ht with ht | ht
        · exact one h1 t ht
        · rcases List.mem_cons.1 ht with rfl | ht
          · decide
          · exact ih h2 t ht

/-- The loop over such a statement. -/
theorem Insert.run {st pre : List Token} {kv : Token} {rows : List (List Token)} {post : List Token} {vals : List (List Val)}
    (h : Insert st pre kv rows post vals) : ∃ vs bk, Values.run 0 [] .init (pre ++ kv :: (rowsToks rows ++ post)) = .ok (vs, bk) ∧
      valuesFrom vs = .ok vals.flatten := by
  obtain ⟨vp, b1, r1, r2⟩ := run_closes pre 0 [] .init h.closed
  obtain ⟨n1, n2⟩ := run_not pre "VALUES" _ _ _ _ _ (by decide) h.noValues r1
  have e1 := run_even pre _ _ _ _ _ (by rfl : Book.Even .init) r1
  have hcl : closes b1.opens.length (parens (kv :: (rowsToks rows ++ post))) = some 0 := by
    rw [r2, parens_cons, h.word.paren, parens_append, parens_none h.after]
    exact closes_rows h.cells 0 []
  obtain ⟨vr, b2, r3, _⟩ := run_closes (kv :: (rowsToks rows ++ post)) (0 + pre.length) ((vp.map VTok.p).reverse ++ []) b1 hcl
  refine ⟨vp ++ vr, b2, by rw [run_append pre 0 [] .init _ r1, r3]; rfl, ?_⟩
  rw [values_skip_all n2]
  obtain ⟨p, b3, l, h1, h2, rfl⟩ := run_cons r3
  obtain ⟨g1, g2, g3⟩ := onToken_word h.word (by decide) (by decide) (by decide) (by decide) h1
  have e3 := (onToken_even e1 h1).1
  have l3 : b3.level = 0 := by
    unfold Book.Even at e1
    rw [g2, e1, r2]; rfl
  obtain ⟨_, _, b4, vr', i1, i2, i3, i4, i5⟩ := run_rows rows vals post _ _ _ _ _ h.cells g1 e3 l3 h2
  rw [values_skip, i2, run_outside post _ _ _ _ _ i4 i5 h.after i1]
  · simp [Except.map]
  · rw [show (⟨p, kv.ttype⟩ : VTok).p.lastKeyword = b1.last from (onToken_last h1).1]
    simp [n1]

/-- The values of an INSERT are read: each literal in its order, row after row. -/
theorem C85_values_partial {st pre : List Token} {kv : Token} {rows : List (List Token)} {post : List Token} {vals : List (List Val)}
    (h : Insert st pre kv rows post vals) : values st = .ok vals.flatten := by
  obtain ⟨vs, bk, h1, h2⟩ := h.run
  obtain ⟨t, r, w, e, hw, hs⟩ := h.first
  have hdot : ∀ u ∈ pre ++ kv :: (rowsToks rows ++ post), isDot u = false := by
    intro u hu
    rcases List.mem_append.1 hu with hu | hu
    · exact h.dots u (List.mem_append_left _ hu)
    · rcases List.mem_cons.1 hu with rfl | hu
      · exact h.word.dot
      · rcases List.mem_append.1 hu with hu | hu
        · exact dots_rows h.cells u hu
        · exact h.dots u (List.mem_append_right _ hu)
  have hq : queryType ((vs.map VTok.p).map PTok.sql) = .ok (typeByWord t.value) := by
    have h1' := h1
    rw [e, List.cons_append] at h1'
    exact queryType_run h1' (by rw [hw.upper]; exact hs) hw.letters hw.comment
  obtain ⟨us, g1, g2⟩ := tokensOf_run h.toks h.digits hdot h1 hq
  rw [values, g1]
  exact (vkin_values g2).trans h2

/-- The rows cannot be told from the values: two statements with the same values in one row or in several say the same. -/
theorem C85_fails_rows {st st' pre pre' : List Token} {kv kv' : Token} {rows rows' : List (List Token)} {post post' : List Token}
    {vals vals' : List (List Val)} (h : Insert st pre kv rows post vals) (h' : Insert st' pre' kv' rows' post' vals')
    (e : vals.flatten = vals'.flatten) : values st = values st' := by
  rw [C85_values_partial h, C85_values_partial h', e]

/-! ### What a literal is read as -/

theorem digit_facts {c : Char} (h : c = '-' ∨ c.isDigit = true) : c ≠ '`' ∧ c ≠ '"' ∧ c ≠ '(' ∧ c ≠ ')' ∧ c ≠ '.' := by
  rcases h with rfl | h
  · decide
  · refine ⟨?_, ?_, ?_, ?_, ?_⟩ <;> (rintro rfl; exact absurd h (by decide))

theorem intStr_chars {z : Int} {c : Char} (h : c ∈ Text.intStr z) : c = '-' ∨ c.isDigit = true := by
  unfold Text.intStr at h
  split at h
  · rcases List.mem_cons.1 h with rfl | h
    · exact .inl rfl
    · exact .inr (Text.natStr_digit h)
  · exact .inr (Text.natStr_digit h)

theorem unquote_none {w : List Char} (h1 : '`' ∉ w) (h2 : '"' ∉ w) : unquote w = w := by
  rw [unquote, strip_none h1, strip_none h2]

theorem unquote_int (z : Int) : unquote (Text.intStr z) = Text.intStr z :=
  unquote_none (fun h => (digit_facts (intStr_chars h)).1 rfl) (fun h => (digit_facts (intStr_chars h)).2.1 rfl)

/-- A number is read as the number it spells. -/
theorem C85_number (z : Int) : Cell ⟨Integer, Text.intStr z⟩ (.int z) where
  paren := by
    rw [parenTok, Bool.or_eq_false_iff, beq_eq_false_iff_ne, beq_eq_false_iff_ne]
    exact ⟨fun e => (digit_facts (intStr_chars (z := z) (c := '(') (by rw [show Text.intStr z = _ from e]; simp))).2.2.1 rfl,
      fun e => (digit_facts (intStr_chars (z := z) (c := ')') (by rw [show Text.intStr z = _ from e]; simp))).2.2.2.1 rfl⟩
  dot := by
    rw [isDot, beq_eq_false_iff_ne]
    exact fun e => (digit_facts (intStr_chars (z := z) (c := '.') (by rw [show Text.intStr z = _ from e]; simp))).2.2.2.2 rfl
  key := rfl
  type := fun e => absurd (show Integer = Punctuation from e) (by decide)
  reads := by
    rw [unquote_int, readVal, if_pos (show (Integer == Integer) = true by decide), Text.parseInt_intStr]

/-- A literal in single quotes. -/
def quoted (b : List Char) : Token := ⟨Single, '\'' :: (b ++ ['\''])⟩

theorem strip_quoted (c : Char) (hc : c ≠ '\'') (b : List Char) : stripChar c ('\'' :: (b ++ ['\''])) = '\'' :: (b ++ ['\'']) := by
  have hq : ('\'' == c) = false := beq_eq_false_iff_ne.2 (Ne.symm hc)
  rw [stripChar, List.dropWhile_cons, hq, if_neg (by simp), List.reverse_cons, List.reverse_append, List.reverse_singleton, List.singleton_append,
    List.cons_append, List.dropWhile_cons, hq, if_neg (by simp)]
  simp

def isQuote (c : Char) : Bool := c == '\'' || c == '"'

theorem stripQuotes_quoted (b : List Char) : stripQuotes ('\'' :: (b ++ ['\''])) = stripQuotes b := by
  have key : ∀ l : List Char, ((l ++ ['\'']).dropWhile isQuote).reverse.dropWhile isQuote = (l.dropWhile isQuote).reverse.dropWhile isQuote := by
    intro l
    induction l with
    | nil => rfl
    | cons c l ih =>
      rw [List.cons_append, List.dropWhile_cons, List.dropWhile_cons]
      split
      · exact ih
      · rw [List.reverse_cons, List.reverse_append, List.reverse_singleton, List.singleton_append, List.cons_append, List.dropWhile_cons,
          if_pos (by decide), ← List.reverse_cons]
  show (((('\'' :: (b ++ ['\''])).dropWhile isQuote)).reverse.dropWhile isQuote).reverse = ((b.dropWhile isQuote).reverse.dropWhile isQuote).reverse
  rw [List.dropWhile_cons, if_pos (by decide), key]

/-- A literal is read as what is between its quotes, without the quotes of either kind it begins or ends with. -/
theorem C85_literal (b : List Char) : Cell (quoted b) (.text (stripQuotes b)) where
  paren := by
    rw [parenTok, Bool.or_eq_false_iff, beq_eq_false_iff_ne, beq_eq_false_iff_ne]
    exact ⟨fun e => by injection e with e _; exact absurd e (by decide), fun e => by injection e with e _; exact absurd e (by decide)⟩
  dot := by
    rw [isDot, beq_eq_false_iff_ne]
    exact fun e => by injection e with e _; exact absurd e (by decide)
  key := rfl
  type := fun e => absurd (show Single = Punctuation from e) (by decide)
  reads := by
    rw [quoted, unquote, strip_quoted '`' (by decide), strip_quoted '"' (by decide), readVal,
      if_neg (show ¬ (Single == Integer) = true by decide), if_neg (show ¬ (Single == Group.Float) = true by decide), stripQuotes_quoted]

/-- Which literals are read as what is between their quotes. -/
theorem C85_literal_iff (b : List Char) : stripQuotes b = b ↔ (∀ c ∈ b.head?, isQuote c = false) ∧ ∀ c ∈ b.getLast?, isQuote c = false := by
  have hl : ∀ l : List Char, l.dropWhile isQuote = l ↔ ∀ c ∈ l.head?, isQuote c = false := by
    intro l
    cases l with
    | nil => simp
    | cons c l =>
      rw [List.dropWhile_cons]
      cases hc : isQuote c with
      | false => simp [hc]
      | true =>
        simp only [if_true, List.head?_cons, Option.mem_some_iff, forall_eq', hc, Bool.true_eq_false, iff_false]
        intro e
        have := congrArg List.length e
        have h2 := (List.dropWhile_sublist isQuote (l := l)).length_le
        rw [List.length_cons] at this
        omega
  constructor
  · intro h
    have h1 : (((b.dropWhile isQuote).reverse.dropWhile isQuote).reverse) = b := h
    have s1 := (List.dropWhile_sublist isQuote (l := b)).length_le
    have s2 := (List.dropWhile_sublist isQuote (l := (b.dropWhile isQuote).reverse)).length_le
    have s3 := congrArg List.length h1
    rw [List.length_reverse] at s2 s3
    have e1 : b.dropWhile isQuote = b := (List.dropWhile_sublist isQuote).eq_of_length (by omega)
    rw [e1] at h1
    have e2 : b.reverse.dropWhile isQuote = b.reverse := by rw [← List.reverse_inj, h1, List.reverse_reverse]
    refine ⟨(hl b).1 e1, ?_⟩
    have := (hl b.reverse).1 e2
    rwa [List.head?_reverse] at this
  · rintro ⟨h1, h2⟩
    have e1 := (hl b).2 h1
    have e2 := (hl b.reverse).2 (by rwa [List.head?_reverse])
    show ((b.dropWhile isQuote).reverse.dropWhile isQuote).reverse = b
    rw [e1, e2, List.reverse_reverse]

end EulerDB.Values
