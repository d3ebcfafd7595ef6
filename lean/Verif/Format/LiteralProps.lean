/-
C42: strings and identifiers written into SQL text are read back unchanged by the
backend.  C57: string literals of incoming statements mean what they mean to MySQL.
-/
import Verif.Format.Literal
import Verif.Format.DotsProps

namespace EulerDB.Format

open EulerDB.Text

/-! ### Quoted texts -/

/-- The following text does not begin with the quote. -/
def NotFirst (q : Char) (t : List Char) : Prop := t.head? ≠ some q

theorem readStr_end (bs : Bool) (q : Char) (rest : List Char) (h : NotFirst q rest) :
    readStr bs q (q :: rest) = some ([], rest) := by
  cases rest with
  | nil => simp [readStr]
  | cons d t =>
    have : d ≠ q := fun hh => h (by simp [hh])
    simp [readStr, this]

theorem readStr_step {bs : Bool} {q c : Char} {t : List Char} (hq : c ≠ q) (hb : bs = false ∨ c ≠ '\\')
    (ht : t ≠ []) : readStr bs q (c :: t) = (readStr bs q t).map fun p => (c :: p.1, p.2) := by
  obtain ⟨d, u, rfl⟩ := List.exists_cons_of_ne_nil ht
  have hbc : (bs && c == '\\') = false := by
    rcases hb with h | h
    · simp [h]
    · simp [h]
  rw [readStr, if_neg hq, if_neg (by simp [hbc])]

/-- A quoted text is read back as it was by a lexer without backslash escapes. -/
theorem readStr_doubled (q : Char) (rest : List Char) (h : NotFirst q rest) (s : List Char) :
    readStr false q (doubled q s ++ q :: rest) = some (s, rest) := by
  induction s with
  | nil => exact readStr_end _ _ _ h
  | cons c t ih =>
    unfold doubled
    split
    · rename_i hc
      subst hc
      simp [readStr, ih]
    · rename_i hc
      rw [List.cons_append, readStr_step hc (Or.inl rfl) (by simp), ih]
      rfl

/-- The same with backslash escapes, if there is no backslash. -/
theorem readStr_doubled_bs (q : Char) (rest : List Char) (h : NotFirst q rest) (s : List Char)
    (hs : '\\' ∉ s) : readStr true q (doubled q s ++ q :: rest) = some (s, rest) := by
  induction s with
  | nil => exact readStr_end _ _ _ h
  | cons c t ih =>
    simp only [List.mem_cons, not_or] at hs
    unfold doubled
    split
    · rename_i hc
      subst hc
      simp [readStr, ih hs.2]
    · rename_i hc
      rw [List.cons_append, readStr_step hc (Or.inr (Ne.symm hs.1)) (by simp), ih hs.2]
      rfl

/-- A string literal is read back as the string, and the text after it is untouched,
by a backend in `NO_BACKSLASH_ESCAPES` mode: for every string. -/
theorem C42_literal_no_escapes (ansi : Bool) (res : List Char → Bool) (s rest : List Char)
    (h : NotFirst '\'' rest) :
    readItem false ansi res (literalText s ++ rest) = some (.str s, rest) := by
  have := readStr_doubled '\'' rest h s
  simp [literalText, quoted, readItem, this]

/-- In the default mode, for every string without a backslash. -/
theorem C42_literal_partial (ansi : Bool) (res : List Char → Bool) (s rest : List Char)
    (h : NotFirst '\'' rest) (hs : '\\' ∉ s) :
    readItem true ansi res (literalText s ++ rest) = some (.str s, rest) := by
  have := readStr_doubled_bs '\'' rest h s hs
  simp [literalText, quoted, readItem, this]

example : NotFirst '\'' [' ', 'A', 'N', 'D'] ∧ '\\' ∉ ['i', 't', '\'', 's'] := by
  constructor
  · simp [NotFirst]
  · decide

/-- The alphabet of ciphertexts: base64 characters and digits. -/
def cipherChar (c : Char) : Bool := c.isAlphanum || c == '+' || c == '/' || c == '=' || c == '-'

/-- Ciphertexts always arrive as they were sent, in every mode. -/
theorem C42_ciphertext (bs ansi : Bool) (res : List Char → Bool) (s rest : List Char)
    (h : NotFirst '\'' rest) (hs : s.all cipherChar = true) :
    readItem bs ansi res (literalText s ++ rest) = some (.str s, rest) := by
  cases bs with
  | false => exact C42_literal_no_escapes ansi res s rest h
  | true =>
    refine C42_literal_partial ansi res s rest h fun hm => ?_
    have := List.all_eq_true.1 hs _ hm
    exact absurd this (by decide)

/-! ### Exactly which strings survive in the default mode -/

/-- Every backslash is followed by `%` or `_`. -/
def kept : List Char → Bool
  | [] => true
  | [c] => c != '\\'
  | c :: d :: t => if c = '\\' then (d == '%' || d == '_') && kept t else kept (d :: t)

/-- Characters a text needs at least between its quotes. -/
def weight : List Char → Nat
  | [] => 0
  | c :: t => (if c = '\'' then 2 else 1) + weight t

theorem weight_append (a b : List Char) : weight (a ++ b) = weight a + weight b := by
  induction a with
  | nil => simp [weight]
  | cons c a ih => simp [weight, ih, Nat.add_assoc]

theorem weight_unesc (d : Char) : weight (unesc d) ≤ 2 := by
  unfold unesc
  split <;> (try split) <;> (try split) <;> (try split) <;> (try split) <;> (try split) <;>
    (try split) <;> (try split) <;> simp [weight]
  split <;> omega

theorem length_doubled (s : List Char) : (doubled '\'' s).length = weight s := by
  induction s with
  | nil => rfl
  | cons c t ih =>
    unfold doubled weight
    split <;> simp [ih] <;> omega

/-- A value read from a text is not heavier than the text it was read from. -/
theorem readStr_weight : ∀ (t : List Char) {o r : List Char},
    readStr true '\'' t = some (o, r) → weight o + r.length + 1 ≤ t.length
  | [], _, _, h => by simp [readStr] at h
  | [c], o, r, h => by
    unfold readStr at h
    split at h
    · simp only [Option.some.injEq, Prod.mk.injEq] at h
      obtain ⟨rfl, rfl⟩ := h
      simp [weight]
    · simp at h
  | c :: d :: t, o, r, h => by
    unfold readStr at h
    split at h
    · split at h
      · obtain ⟨⟨o', r'⟩, h1, h2⟩ := Option.map_eq_some_iff.1 h
        simp only [Prod.mk.injEq] at h2
        obtain ⟨rfl, rfl⟩ := h2
        have := readStr_weight t h1
        simp only [weight, if_true, List.length_cons]
        omega
      · simp only [Option.some.injEq, Prod.mk.injEq] at h
        obtain ⟨rfl, rfl⟩ := h
        simp [weight]
    · split at h
      · obtain ⟨⟨o', r'⟩, h1, h2⟩ := Option.map_eq_some_iff.1 h
        simp only [Prod.mk.injEq] at h2
        obtain ⟨rfl, rfl⟩ := h2
        have := readStr_weight t h1
        have := weight_unesc d
        simp only [weight_append, List.length_cons]
        omega
      · obtain ⟨⟨o', r'⟩, h1, h2⟩ := Option.map_eq_some_iff.1 h
        simp only [Prod.mk.injEq] at h2
        obtain ⟨rfl, rfl⟩ := h2
        have := readStr_weight (d :: t) h1
        rename_i hc _
        simp only [weight, if_neg hc, List.length_cons] at this ⊢
        omega

theorem unesc_bs {d : Char} {l : List Char} (h : unesc d = '\\' :: l) :
    (d = '\\' ∧ l = []) ∨ ((d = '%' ∨ d = '_') ∧ l = [d]) := by
  unfold unesc at h
  split at h
  · simp at h
  split at h
  · simp at h
  split at h
  · simp at h
  split at h
  · simp at h
  split at h
  · simp at h
  split at h
  · simp at h
  split at h
  · rename_i hd; simp at h; exact Or.inr ⟨Or.inl hd, by rw [hd, h]⟩
  split at h
  · rename_i hd; simp at h; exact Or.inr ⟨Or.inr hd, by rw [hd, h]⟩
  · simp at h; exact Or.inl ⟨h.1, h.2⟩

theorem unesc_cases (d : Char) : (d = '%' ∨ d = '_') ∨ ∃ x, unesc d = [x] ∧ (x = '\\' → d = '\\') := by
  by_cases h : d = '%' ∨ d = '_'
  · exact Or.inl h
  · right
    have hs : ∃ x, unesc d = [x] := by
      simp only [not_or] at h
      unfold unesc
      simp only [h.1, h.2, if_false]
      split
      · exact ⟨_, rfl⟩
      split
      · exact ⟨_, rfl⟩
      split
      · exact ⟨_, rfl⟩
      split
      · exact ⟨_, rfl⟩
      split
      · exact ⟨_, rfl⟩
      split
      · exact ⟨_, rfl⟩
      · exact ⟨_, rfl⟩
    obtain ⟨x, hx⟩ := hs
    refine ⟨x, hx, fun hb => ?_⟩
    rw [hb] at hx
    rcases unesc_bs hx with h1 | h1
    · exact h1.1
    · exact absurd h1.1 h

theorem readStr_kept (rest : List Char) (h : NotFirst '\'' rest) : ∀ s : List Char,
    readStr true '\'' (doubled '\'' s ++ '\'' :: rest) = some (s, rest) ↔ kept s = true
  | [] => by simp [kept, doubled, readStr_end _ _ _ h]
  | c :: t => by
    by_cases hb : c = '\\'
    · subst hb
      cases t with
      | nil =>
        -- the closing quote is swallowed
        have hk : kept ['\\'] = false := by decide
        have hd : doubled '\'' ['\\'] ++ '\'' :: rest = '\\' :: '\'' :: rest := by
          simp [doubled]
        rw [hd, hk]
        simp only [Bool.false_eq_true, iff_false]
        intro hr
        unfold readStr at hr
        rw [if_neg (by decide), if_pos (by decide)] at hr
        obtain ⟨⟨o, r⟩, _, h2⟩ := Option.map_eq_some_iff.1 hr
        simp only [Prod.mk.injEq] at h2
        have : unesc '\'' = ['\''] := by decide
        rw [this] at h2
        simp at h2
      | cons d u =>
        by_cases hdq : d = '\''
        · -- the escape eats the first of the doubled quotes
          subst hdq
          have hk : kept ('\\' :: '\'' :: u) = false := by simp [kept]
          have hd : doubled '\'' ('\\' :: '\'' :: u) ++ '\'' :: rest =
              '\\' :: '\'' :: '\'' :: (doubled '\'' u ++ '\'' :: rest) := by simp [doubled]
          rw [hd, hk]
          simp only [Bool.false_eq_true, iff_false]
          intro hr
          unfold readStr at hr
          rw [if_neg (by decide), if_pos (by decide)] at hr
          obtain ⟨⟨o, r⟩, _, h2⟩ := Option.map_eq_some_iff.1 hr
          simp only [Prod.mk.injEq] at h2
          have : unesc '\'' = ['\''] := by decide
          rw [this] at h2
          simp at h2
        · have hd : doubled '\'' ('\\' :: d :: u) ++ '\'' :: rest =
              '\\' :: d :: (doubled '\'' u ++ '\'' :: rest) := by simp [doubled, hdq]
          have hr : readStr true '\'' ('\\' :: d :: (doubled '\'' u ++ '\'' :: rest)) =
              (readStr true '\'' (doubled '\'' u ++ '\'' :: rest)).map
                fun p => (unesc d ++ p.1, p.2) := by
            rw [readStr, if_neg (by decide), if_pos (by decide)]
          rw [hd, hr]
          rcases unesc_cases d with hd | ⟨x, hx, hxb⟩
          · have hu : unesc d = ['\\', d] := by rcases hd with rfl | rfl <;> decide
            have hk : kept ('\\' :: d :: u) = kept u := by
              rcases hd with rfl | rfl <;> simp [kept]
            rw [hk, ← readStr_kept rest h u, hu]
            constructor
            · intro hh
              obtain ⟨⟨o, r⟩, h1, h2⟩ := Option.map_eq_some_iff.1 hh
              simp only [Prod.mk.injEq, List.cons_append, List.nil_append, List.cons.injEq, true_and] at h2
              rw [h1, h2.1, h2.2]
            · intro hh; rw [hh]; rfl
          · have hk : kept ('\\' :: d :: u) = false := by
              have h1 : d ≠ '%' := by rintro rfl; exact absurd hx (by simp [unesc])
              have h2 : d ≠ '_' := by rintro rfl; exact absurd hx (by simp [unesc])
              simp [kept, h1, h2]
            rw [hk]
            simp only [Bool.false_eq_true, iff_false]
            intro hh
            obtain ⟨⟨o, r⟩, h1, h2⟩ := Option.map_eq_some_iff.1 hh
            simp only [Prod.mk.injEq, hx, List.cons_append, List.nil_append, List.cons.injEq] at h2
            obtain ⟨⟨hxe, rfl⟩, rfl⟩ := h2
            -- two backslashes became one: the value is too heavy for the text left
            have hdb := hxb hxe
            have hw := readStr_weight _ h1
            simp only [List.length_append, List.length_cons, length_doubled, weight, hdq, if_false] at hw
            omega
    · have hk : kept (c :: t) = kept t := by
        cases t with
        | nil => simp [kept, hb]
        | cons d u => simp [kept, hb]
      rw [hk, ← readStr_kept rest h t]
      by_cases hq : c = '\''
      · subst hq
        have hd : doubled '\'' ('\'' :: t) ++ '\'' :: rest =
            '\'' :: '\'' :: (doubled '\'' t ++ '\'' :: rest) := by simp [doubled]
        rw [hd, readStr, if_pos rfl, if_pos rfl]
        constructor
        · intro hh
          obtain ⟨⟨o, r⟩, h1, h2⟩ := Option.map_eq_some_iff.1 hh
          simp only [Prod.mk.injEq, List.cons.injEq, true_and] at h2
          rw [h1, h2.1, h2.2]
        · intro hh; rw [hh]; rfl
      · have hd : doubled '\'' (c :: t) ++ '\'' :: rest =
            c :: (doubled '\'' t ++ '\'' :: rest) := by simp [doubled, hq]
        rw [hd, readStr_step hq (Or.inr hb) (by simp)]
        constructor
        · intro hh
          obtain ⟨⟨o, r⟩, h1, h2⟩ := Option.map_eq_some_iff.1 hh
          simp only [Prod.mk.injEq, List.cons.injEq, true_and] at h2
          rw [h1, h2.1, h2.2]
        · intro hh; rw [hh]; rfl

/-- In MySQL's default mode a string literal is read back as the string, leaving the
text after it untouched, exactly if every backslash in it is followed by `%` or `_`. -/
theorem C42_literal_exact (ansi : Bool) (res : List Char → Bool) (s rest : List Char)
    (h : NotFirst '\'' rest) :
    readItem true ansi res (literalText s ++ rest) = some (.str s, rest) ↔ kept s = true := by
  rw [← readStr_kept rest h s]
  have e : readItem true ansi res (literalText s ++ rest) =
      (readStr true '\'' (doubled '\'' s ++ '\'' :: rest)).map fun p => (Item.str p.1, p.2) := by
    simp [literalText, quoted, readItem]
  rw [e]
  constructor
  · intro hh
    obtain ⟨⟨o, r⟩, h1, h2⟩ := Option.map_eq_some_iff.1 hh
    simp only [Prod.mk.injEq, Item.str.injEq] at h2
    rw [h1, h2.1, h2.2]
  · intro hh; rw [hh]; rfl

/-! ### Lists of literals -/

/-- Reads literals separated by `, ` up to a closing parenthesis. -/
def readList (bs : Bool) : Nat → List Char → Option (List (List Char) × List Char)
  | 0, _ => none
  | n + 1, t =>
    match readItem bs false (fun _ => false) t with
    | some (.str s, ')' :: r) => some ([s], r)
    | some (.str s, ',' :: ' ' :: r) => (readList bs n r).map fun p => (s :: p.1, p.2)
    | _ => none

/-- The list of an IN condition is read back as the list. -/
theorem C42_list_partial (l : List (List Char)) (hl : l ≠ []) (hs : ∀ s ∈ l, '\\' ∉ s) (rest : List Char) :
    ∃ t, literalList l ++ rest = '(' :: t ∧ readList true l.length t = some (l, rest) := by
  refine ⟨commas (l.map literalText) ++ ')' :: rest, by simp [literalList], ?_⟩
  induction l with
  | nil => exact absurd rfl hl
  | cons s l ih =>
    cases l with
    | nil =>
      have := C42_literal_partial false (fun _ => false) s (')' :: rest) (by simp [NotFirst]) (hs s (by simp))
      simp [commas, readList, this]
    | cons u l =>
      have ih := ih (by simp) (fun v hv => hs v (by simp [List.mem_cons.1 hv]))
      have hread := C42_literal_partial false (fun _ => false) s
        (',' :: ' ' :: (commas ((u :: l).map literalText) ++ ')' :: rest)) (by simp [NotFirst]) (hs s (by simp))
      have e : commas ((s :: u :: l).map literalText) ++ ')' :: rest =
          literalText s ++ ',' :: ' ' :: (commas ((u :: l).map literalText) ++ ')' :: rest) := by
        simp [commas]
      have el : (s :: u :: l).length = (u :: l).length + 1 := rfl
      rw [e, el, readList, hread]
      simp only [ih, Option.map_some]

/-! ### Backslashes -/

/-- A string ending in a backslash swallows its closing quote.  Whatever comes up to
the next quote becomes part of the string, and the content of the next literal is read
as SQL: for every text `mid` between the two literals and every second string. -/
theorem C42_fails_injection (ansi : Bool) (res : List Char → Bool) (mid s rest : List Char)
    (h1 : '\'' ∉ mid) (h2 : '\\' ∉ mid) (h3 : NotFirst '\'' (doubled '\'' s ++ '\'' :: rest)) :
    readItem true ansi res (literalText ['\\'] ++ (mid ++ (literalText s ++ rest))) =
      some (.str ('\'' :: mid), doubled '\'' s ++ '\'' :: rest) := by
  have hmid : ∀ m : List Char, '\'' ∉ m → '\\' ∉ m →
      readStr true '\'' (m ++ '\'' :: (doubled '\'' s ++ '\'' :: rest)) =
        some (m, doubled '\'' s ++ '\'' :: rest) := by
    intro m
    induction m with
    | nil => intro _ _; exact readStr_end _ _ _ h3
    | cons c m ih =>
      intro ha hb
      simp only [List.mem_cons, not_or] at ha hb
      rw [List.cons_append, readStr_step (Ne.symm ha.1) (Or.inr (Ne.symm hb.1)) (by simp),
        ih ha.2 hb.2]
      rfl
  have hm := hmid mid h1 h2
  have e : literalText ['\\'] ++ (mid ++ (literalText s ++ rest)) =
      '\'' :: '\\' :: '\'' :: (mid ++ '\'' :: (doubled '\'' s ++ '\'' :: rest)) := by
    simp [literalText, quoted, doubled]
  have hr : readStr true '\'' ('\\' :: '\'' :: (mid ++ '\'' :: (doubled '\'' s ++ '\'' :: rest))) =
      some ('\'' :: mid, doubled '\'' s ++ '\'' :: rest) := by
    rw [readStr, if_neg (by decide), if_pos (by decide), hm]
    have : unesc '\'' = ['\''] := by decide
    simp [this]
  rw [e, readItem, if_pos rfl, hr]
  rfl

/-- For example `a = '\' AND b = ' OR 1=1 -- '`: the condition ` OR 1=1 -- ` is code. -/
example : ∃ mid s : List Char, '\'' ∉ mid ∧ '\\' ∉ mid ∧ NotFirst '\'' (doubled '\'' s ++ ['\'']) ∧
    s = [' ', 'O', 'R', ' ', '1', '=', '1', ' ', '-', '-', ' '] :=
  ⟨[' ', 'A', 'N', 'D', ' ', 'b', ' ', '=', ' '], _, by decide, by decide, by simp [NotFirst, doubled], rfl⟩

/-! ### Identifiers -/

theorem takeWhile_all {p : Char → Bool} : ∀ {s : List Char} {rest : List Char}, s.all p = true →
    (∀ c, rest.head? = some c → p c = false) →
    (s ++ rest).takeWhile p = s ∧ (s ++ rest).dropWhile p = rest
  | [], rest, _, h => by
    cases rest with
    | nil => simp
    | cons c t => have := h c rfl; simp [this]
  | c :: s, rest, hs, h => by
    simp only [List.all_cons, Bool.and_eq_true] at hs
    have ⟨h1, h2⟩ := takeWhile_all (s := s) hs.2 h
    simp [hs.1, h1, h2]

theorem letter_name {c : Char} (h : letter c = true) : nameChar c = true := by
  unfold letter at h
  unfold nameChar Char.isAlphanum
  simp only [Bool.or_eq_true] at h ⊢
  rcases h with h | h
  · exact Or.inl (Or.inl (Or.inl (Or.inl h)))
  · exact Or.inl (Or.inl (Or.inr h))

theorem letter_start {c : Char} (h : letter c = true) : (nameChar c && !c.isDigit) = true := by
  rw [letter_name h, Bool.true_and]
  unfold letter at h
  simp only [Bool.or_eq_true, beq_iff_eq] at h
  rcases h with h | h
  · unfold Char.isAlpha Char.isUpper Char.isLower at h
    unfold Char.isDigit
    simp only [Bool.or_eq_true, Bool.and_eq_true, decide_eq_true_eq, ge_iff_le, UInt32.le_iff_toNat_le,
      Bool.not_eq_true', Bool.and_eq_false_iff, decide_eq_false_iff_not] at h ⊢
    simp at h ⊢
    omega
  · subst h; decide

theorem letter_ne {c : Char} (h : letter c = true) : c ≠ '\'' ∧ c ≠ '`' ∧ c ≠ '"' := by
  refine ⟨?_, ?_, ?_⟩ <;> rintro rfl <;> exact absurd h (by decide)

/-- A name that needs no quotes, made of characters the backend takes in a name, is
read back as that name (in every mode), unless it is one of the backend's reserved
words. -/
theorem C42_name_partial (bs ansi : Bool) (res kw : List Char → Bool) (uni : Char → Bool)
    (c : Char) (t rest : List Char) (hq : shouldQuote uni kw (c :: t) = false)
    (hc : letter c = true) (ht : t.all nameChar = true) (hres : res (c :: t) = false)
    (hr : ∀ d, rest.head? = some d → nameChar d = false) :
    readItem bs ansi res (esc uni kw (c :: t) ++ rest) = some (.ident (c :: t), rest) := by
  have ⟨h1, h2⟩ := takeWhile_all ht hr
  have ⟨q1, q2, q3⟩ := letter_ne hc
  unfold esc
  rw [hq]
  simp only [Bool.false_eq_true, if_false, List.cons_append]
  rw [readItem, if_neg q1, if_neg q2, if_neg q3, if_pos (letter_start hc)]
  simp only [h1, h2, hres, Bool.false_eq_true, if_false]

example : shouldQuote (fun _ => false) (fun _ => false) ['a', 'g', 'e'] = false ∧
    letter 'a' = true ∧ ['g', 'e'].all nameChar = true := by decide

/-- A quoted name is read back as that name by a backend in `ANSI_QUOTES` mode: for
every name. -/
theorem C42_quoted_ansi (bs : Bool) (res kw : List Char → Bool) (uni : Char → Bool)
    (s rest : List Char) (hq : shouldQuote uni kw s = true) (hr : NotFirst '"' rest) :
    readItem bs true res (esc uni kw s ++ rest) = some (.ident s, rest) := by
  have := readStr_doubled '"' rest hr s
  unfold esc
  rw [hq]
  simp [quoted, readItem, this]

/-- In MySQL's default mode a quoted name is never read as a name. -/
theorem C42_fails_quoted (bs : Bool) (res kw : List Char → Bool) (uni : Char → Bool)
    (s rest : List Char) (hq : shouldQuote uni kw s = true) :
    ∀ n r, readItem bs false res (esc uni kw s ++ rest) ≠ some (.ident n, r) := by
  intro n r h
  unfold esc at h
  rw [hq] at h
  simp [quoted, readItem] at h

/-- It is read as the string constant with the same characters. -/
theorem C42_fails_quoted_constant (bs : Bool) (res kw : List Char → Bool) (uni : Char → Bool)
    (s rest : List Char) (hq : shouldQuote uni kw s = true) (hs : '\\' ∉ s) (hr : NotFirst '"' rest) :
    readItem bs false res (esc uni kw s ++ rest) = some (.str s, rest) := by
  have h1 := readStr_doubled '"' rest hr s
  have h2 := readStr_doubled_bs '"' rest hr s hs
  unfold esc
  rw [hq]
  cases bs <;> simp [quoted, readItem, h1, h2]

example : shouldQuote (fun _ => false) (fun _ => false) ['m', 'y', ' ', 'c', 'o', 'l'] = true ∧
    '\\' ∉ ['m', 'y', ' ', 'c', 'o', 'l'] := by decide

/-- A reserved word of the backend which the proxy does not know as one is not quoted,
and read as a keyword. -/
theorem C42_fails_reserved (bs ansi : Bool) (res kw : List Char → Bool) (uni : Char → Bool)
    (c : Char) (t rest : List Char) (hq : shouldQuote uni kw (c :: t) = false)
    (hc : letter c = true) (ht : t.all nameChar = true) (hres : res (c :: t) = true)
    (hr : ∀ d, rest.head? = some d → nameChar d = false) :
    readItem bs ansi res (esc uni kw (c :: t) ++ rest) = some (.keyword (c :: t), rest) := by
  have ⟨h1, h2⟩ := takeWhile_all ht hr
  have ⟨q1, q2, q3⟩ := letter_ne hc
  unfold esc
  rw [hq]
  simp only [Bool.false_eq_true, if_false, List.cons_append]
  rw [readItem, if_neg q1, if_neg q2, if_neg q3, if_pos (letter_start hc)]
  simp only [h1, h2, hres, if_true]

/-- A name ending in a newline counts as valid, is not quoted, and is read without it. -/
theorem C42_fails_newline (bs ansi : Bool) (res kw : List Char → Bool) (uni : Char → Bool)
    (c : Char) (t rest : List Char) (hc : letter c = true) (ht : t.all nameChar = true)
    (hw : t.all (word uni) = true) (hk : kw (c :: (t ++ ['\n'])) = false) (hres : res (c :: t) = false) :
    readItem bs ansi res (esc uni kw (c :: (t ++ ['\n'])) ++ rest) = some (.ident (c :: t), '\n' :: rest) := by
  have hq : shouldQuote uni kw (c :: (t ++ ['\n'])) = false := by
    have hv : valid uni (c :: (t ++ ['\n'])) = true := by
      simp [valid, hc, hw]
    simp [shouldQuote, hv, hk]
  have ⟨h1, h2⟩ := takeWhile_all (rest := '\n' :: rest) ht (by intro d hd; simp at hd; subst hd; decide)
  have ⟨q1, q2, q3⟩ := letter_ne hc
  unfold esc
  rw [hq]
  simp only [Bool.false_eq_true, if_false, List.cons_append, List.append_assoc, List.nil_append]
  rw [readItem, if_neg q1, if_neg q2, if_neg q3, if_pos (letter_start hc)]
  simp only [h1, h2, hres, Bool.false_eq_true, if_false]

/-- A dotted name keeps its parts: the text is the parts, each escaped, with dots
between them. -/
theorem C42_dotted_partial (uni : Char → Bool) (kw : List Char → Bool) (n : List Char)
    (ns : List (List Char)) (hn : n ≠ []) (hc : ∀ m ∈ n :: ns, Clean m) :
    escape uni kw (joinField ⟨0, n :: ns⟩) = some (join '.' ((n :: ns).map (esc uni kw))) := by
  unfold escape
  rw [C46_split_join_partial n ns hn hc]
  rfl

/-! ### Incoming string literals -/

theorem rawStr_doubled (q : Char) (rest : List Char) (h : NotFirst q rest) (s : List Char) :
    rawStr q (doubled q s ++ q :: rest) = some (doubled q s, rest) := by
  induction s with
  | nil =>
    cases rest with
    | nil => simp [rawStr, doubled]
    | cons d t =>
      have : d ≠ q := fun hh => h (by simp [hh])
      simp [rawStr, doubled, this]
  | cons c t ih =>
    unfold doubled
    split
    · simp [rawStr, ih]
    · rename_i hc
      obtain ⟨d, u, hu⟩ := List.exists_cons_of_ne_nil (l := doubled q t ++ q :: rest) (by simp)
      rw [List.cons_append, hu, rawStr, if_neg hc, ← hu, ih]
      rfl

/-- Quotes are escaped for Python, the other characters kept. -/
def escaped : List Char → List Char
  | [] => []
  | c :: t => if c = '\'' then '\\' :: '\'' :: escaped t else c :: escaped t

theorem pair_step {c : Char} (t : List Char) (h : c ≠ '\'') :
    pairToEscape (c :: t) = c :: pairToEscape t := by
  cases t with
  | nil => rfl
  | cons d t => rw [pairToEscape, if_neg (fun hh => h hh.1)]

theorem pairToEscape_doubled (s : List Char) : pairToEscape (doubled '\'' s) = escaped s := by
  induction s with
  | nil => rfl
  | cons c t ih =>
    unfold doubled escaped
    split
    · simp [pairToEscape, ih]
    · rename_i hc; rw [pair_step _ hc, ih]

/-- A character that stands for itself in a Python literal. -/
def pyPlain (c : Char) : Prop := c ≠ '\\' ∧ c ≠ '\n' ∧ c ≠ '\r' ∧ c ≠ Char.ofNat 0

theorem pyEval_plain (long : List Char → Option (List Char × List Char)) (n : Nat) {c : Char}
    (t : List Char) (h0 : ¬ (c = '\'' ∨ c = '\n' ∨ c = '\r' ∨ c = Char.ofNat 0)) (h : c ≠ '\\') :
    pyEval long (n + 1) (c :: t) = (pyEval long n t).map (c :: ·) := by
  conv => lhs; unfold pyEval
  simp only [if_neg h0, if_neg h]

theorem pyEval_escaped (long : List Char → Option (List Char × List Char)) :
    ∀ (s : List Char) (n : Nat), (∀ c ∈ s, pyPlain c) → (escaped s).length ≤ n →
      pyEval long n (escaped s) = some s
  | [], n, _, _ => by cases n <;> rfl
  | c :: t, n, h, hn => by
    have hc := h c (by simp)
    have ht : ∀ d ∈ t, pyPlain d := fun d hd => h d (by simp [hd])
    unfold escaped at hn ⊢
    split
    · rename_i hq
      subst hq
      simp only [if_true, List.length_cons] at hn
      obtain ⟨n, rfl⟩ : ∃ k, n = k + 1 := ⟨n - 1, by omega⟩
      have ih := pyEval_escaped long t n ht (by omega)
      have hl : longEscape '\'' = false := by decide
      have he : pyEscape '\'' = some ['\''] := by decide
      have h0 : ¬ ('\\' = '\'' ∨ '\\' = '\n' ∨ '\\' = '\r' ∨ '\\' = Char.ofNat 0) := by decide
      rw [pyEval, if_neg h0, if_pos rfl]
      simp only [hl, Bool.false_eq_true, if_false, he, ih, Option.map_some]
      rfl
    · rename_i hq
      rw [if_neg hq] at hn
      simp only [List.length_cons] at hn
      obtain ⟨n, rfl⟩ : ∃ k, n = k + 1 := ⟨n - 1, by omega⟩
      have ih := pyEval_escaped long t n ht (by omega)
      have h0 : ¬ (c = '\'' ∨ c = '\n' ∨ c = '\r' ∨ c = Char.ofNat 0) := by
        rintro (h | h | h | h)
        · exact hq h
        · exact hc.2.1 h
        · exact hc.2.2.1 h
        · exact hc.2.2.2 h
      rw [pyEval_plain long n _ h0 hc.1, ih]
      rfl

/-- A single-quoted literal without backslashes and line breaks means to the proxy
what it means to MySQL, whatever quotes it contains: for every such string. -/
theorem C57_single_partial (long : List Char → Option (List Char × List Char)) (s rest : List Char)
    (hs : ∀ c ∈ s, pyPlain c) (hr : NotFirst '\'' rest) :
    ∃ t, literalText s ++ rest = '\'' :: t ∧ toString' long '\'' t = some (s, rest) ∧
      readStr true '\'' t = some (s, rest) := by
  refine ⟨doubled '\'' s ++ '\'' :: rest, by simp [literalText, quoted], ?_, ?_⟩
  · unfold toString'
    rw [rawStr_doubled '\'' rest hr s]
    simp only [pairToEscape_doubled]
    rw [pyEval_escaped long s _ hs (Nat.le_refl _)]
    rfl
  · exact readStr_doubled_bs '\'' rest hr s fun h => (hs _ h).1 rfl

example : ∀ c ∈ ['i', 't', '\'', 's', ' ', '"', '%'], pyPlain c := by
  unfold pyPlain; decide

/-- Such a literal passes through the proxy as the same text. -/
theorem C57_passes_partial (long : List Char → Option (List Char × List Char)) (s rest : List Char)
    (hs : ∀ c ∈ s, pyPlain c) (hr : NotFirst '\'' rest) (t : List Char)
    (ht : literalText s ++ rest = '\'' :: t) :
    (toString' long '\'' t).map (fun p => literalText p.1 ++ p.2) = some (literalText s ++ rest) := by
  obtain ⟨t', h1, h2, _⟩ := C57_single_partial long s rest hs hr
  have : t = t' := by
    have := ht.symm.trans h1
    exact (List.cons.inj this).2
  subst this
  simp [h2]

/-- In a double-quoted literal without quotes, backslashes and line breaks as well. -/
theorem C57_double_partial (long : List Char → Option (List Char × List Char)) (s rest : List Char)
    (hs : ∀ c ∈ s, pyPlain c ∧ c ≠ '\'' ∧ c ≠ '"') (hr : NotFirst '"' rest) :
    toString' long '"' (s ++ '"' :: rest) = some (s, rest) ∧
      readStr true '"' (s ++ '"' :: rest) = some (s, rest) := by
  have hd : ∀ q : Char, ∀ l : List Char, q ∉ l → doubled q l = l := by
    intro q l
    induction l with
    | nil => intro _; rfl
    | cons c l ih =>
      intro h
      simp only [List.mem_cons, not_or] at h
      unfold doubled
      rw [if_neg (Ne.symm h.1), ih h.2]
  have h1 : doubled '"' s = s := hd _ _ fun h => (hs _ h).2.2 rfl
  have h2 : doubled '\'' s = s := hd _ _ fun h => (hs _ h).2.1 rfl
  constructor
  · unfold toString'
    have := rawStr_doubled '"' rest hr s
    rw [h1] at this
    rw [this]
    simp only
    rw [← h2, pairToEscape_doubled, pyEval_escaped long s _ (fun c hc => (hs c hc).1) (Nat.le_refl _)]
    simp [h2]
  · have := readStr_doubled_bs '"' rest hr s fun h => (hs _ h).1.1 rfl
    rwa [h1] at this

/-- `'C:\\temp'` means `C:\temp` to MySQL and to the proxy, but the proxy passes it on as
`'C:\temp'`, which MySQL reads as `C:`, a tabulator, `emp`. -/
theorem C57_fails_backslash (long : List Char → Option (List Char × List Char)) (res : List Char → Bool) :
    ∃ (t v w : List Char), readStr true '\'' t = some (v, []) ∧ toString' long '\'' t = some (v, []) ∧
      readItem true false res (literalText v) = some (.str w, []) ∧ w ≠ v :=
  ⟨['C', ':', '\\', '\\', 't', 'e', 'm', 'p', '\''], ['C', ':', '\\', 't', 'e', 'm', 'p'],
    ['C', ':', '\t', 'e', 'm', 'p'], by decide, by rfl, by rfl, by decide⟩

/-- `'it\'s'` is one string to MySQL; to the proxy it ends at the second quote and is
not a Python literal, so the statement is rejected. -/
theorem C57_fails_escaped_quote (long : List Char → Option (List Char × List Char)) :
    readStr true '\'' ['i', 't', '\\', '\'', 's', '\''] = some (['i', 't', '\'', 's'], []) ∧
      toString' long '\'' ['i', 't', '\\', '\'', 's', '\''] = none := ⟨by decide, by rfl⟩

/-- `"it's"` is rejected. -/
theorem C57_fails_apostrophe (long : List Char → Option (List Char × List Char)) :
    readStr true '"' ['i', 't', '\'', 's', '"'] = some (['i', 't', '\'', 's'], []) ∧
      toString' long '"' ['i', 't', '\'', 's', '"'] = none := ⟨by decide, by rfl⟩

/-- A doubled quote in a double-quoted literal is kept double, and two apostrophes
become one. -/
theorem C57_fails_double (long : List Char → Option (List Char × List Char)) :
    readStr true '"' ['a', '"', '"', 'b', '"'] = some (['a', '"', 'b'], []) ∧
      toString' long '"' ['a', '"', '"', 'b', '"'] = some (['a', '"', '"', 'b'], []) ∧
    readStr true '"' ['\'', '\'', '"'] = some (['\'', '\''], []) ∧
      toString' long '"' ['\'', '\'', '"'] = some (['\''], []) :=
  ⟨by decide, by rfl, by decide, by rfl⟩

/-- `'\a'` is the letter a to MySQL and BEL to the proxy; `'\Z'` is one character to
MySQL and two to the proxy. -/
theorem C57_fails_escapes (long : List Char → Option (List Char × List Char)) :
    readStr true '\'' ['\\', 'a', '\''] = some (['a'], []) ∧
      toString' long '\'' ['\\', 'a', '\''] = some ([Char.ofNat 7], []) ∧
    readStr true '\'' ['\\', 'Z', '\''] = some ([Char.ofNat 26], []) ∧
      toString' long '\'' ['\\', 'Z', '\''] = some (['\\', 'Z'], []) :=
  ⟨by decide, by rfl, by decide, by rfl⟩

/-- A line break in a literal makes the proxy reject the statement. -/
theorem C57_fails_line_break (long : List Char → Option (List Char × List Char)) :
    readStr true '\'' ['a', '\n', 'b', '\''] = some (['a', '\n', 'b'], []) ∧
      toString' long '\'' ['a', '\n', 'b', '\''] = none := ⟨by decide, by rfl⟩

/-! ### Literals with escapes -/

/-- The parts of a single-quoted literal as a client writes it. -/
inductive Part
  | ch (c : Char)
  | quote
  | esc (d : Char)
  deriving DecidableEq, Repr

/-- How a part is written. -/
def Part.text : Part → List Char
  | .ch c => [c]
  | .quote => ['\'', '\'']
  | .esc d => ['\\', d]

/-- What it means to MySQL. -/
def Part.value : Part → List Char
  | .ch c => [c]
  | .quote => ['\'']
  | .esc d => unesc d

/-- The escapes that mean the same to MySQL and in a Python literal. -/
def agreed : List Char := ['n', 'r', 't', 'b', '\\', '"', '%', '_']

def Part.Agreed : Part → Prop
  | .ch c => pyPlain c ∧ c ≠ '\''
  | .quote => True
  | .esc d => d ∈ agreed

def written (l : List Part) : List Char := l.flatMap Part.text
def meant (l : List Part) : List Char := l.flatMap Part.value

theorem written_ne {rest : List Char} (l : List Part) : written l ++ '\'' :: rest ≠ [] := by simp

theorem agreed_quote {d : Char} (h : d ∈ agreed) : d ≠ '\'' := by
  rintro rfl; exact absurd h (by decide)

theorem readStr_written (rest : List Char) (hr : NotFirst '\'' rest) : ∀ l : List Part,
    (∀ p ∈ l, p.Agreed) → readStr true '\'' (written l ++ '\'' :: rest) = some (meant l, rest)
  | [], _ => readStr_end _ _ _ hr
  | p :: l, h => by
    have ih := readStr_written rest hr l fun q hq => h q (by simp [hq])
    have hp := h p (by simp)
    have e1 : written (p :: l) = p.text ++ written l := by simp [written]
    have e2 : meant (p :: l) = p.value ++ meant l := by simp [meant]
    rw [e1, e2, List.append_assoc]
    cases p with
    | ch c =>
      obtain ⟨h1, h2⟩ := hp
      simp only [Part.text, Part.value, List.cons_append, List.nil_append]
      rw [readStr_step h2 (Or.inr h1.1) (by simp), ih]
      rfl
    | quote =>
      simp only [Part.text, Part.value, List.cons_append, List.nil_append]
      rw [readStr, if_pos rfl, if_pos rfl, ih]
      rfl
    | esc d =>
      simp only [Part.text, Part.value, List.cons_append, List.nil_append]
      rw [readStr, if_neg (by decide), if_pos (by simp), ih]
      rfl

theorem rawStr_step {q c : Char} {t : List Char} (hc : c ≠ q) (ht : t ≠ []) :
    rawStr q (c :: t) = (rawStr q t).map fun p => (c :: p.1, p.2) := by
  obtain ⟨d, u, rfl⟩ := List.exists_cons_of_ne_nil ht
  rw [rawStr, if_neg hc]

theorem rawStr_written (rest : List Char) (hr : NotFirst '\'' rest) : ∀ l : List Part,
    (∀ p ∈ l, p.Agreed) → rawStr '\'' (written l ++ '\'' :: rest) = some (written l, rest)
  | [], _ => by
    have := rawStr_doubled '\'' rest hr []
    simpa [doubled, written] using this
  | p :: l, h => by
    have ih := rawStr_written rest hr l fun q hq => h q (by simp [hq])
    have hp := h p (by simp)
    have e1 : written (p :: l) = p.text ++ written l := by simp [written]
    rw [e1, List.append_assoc]
    cases p with
    | ch c =>
      simp only [Part.text, List.cons_append, List.nil_append]
      rw [rawStr_step hp.2 (by simp), ih]
      rfl
    | quote =>
      simp only [Part.text, List.cons_append, List.nil_append]
      rw [rawStr, if_pos rfl, if_pos rfl, ih]
      rfl
    | esc d =>
      simp only [Part.text, List.cons_append, List.nil_append]
      rw [rawStr_step (by decide) (by simp), rawStr_step (agreed_quote hp) (by simp), ih]
      rfl

/-- The Python literal the parts become. -/
def Part.python : Part → List Char
  | .quote => ['\\', '\'']
  | p => p.text

theorem pair_written : ∀ l : List Part, (∀ p ∈ l, p.Agreed) →
    pairToEscape (written l) = l.flatMap Part.python
  | [], _ => rfl
  | p :: l, h => by
    have ih := pair_written l fun q hq => h q (by simp [hq])
    have hp := h p (by simp)
    have e1 : written (p :: l) = p.text ++ written l := by simp [written]
    rw [e1, List.flatMap_cons]
    cases p with
    | ch c =>
      simp only [Part.text, Part.python, List.cons_append, List.nil_append]
      rw [pair_step _ hp.2, ih]
    | quote =>
      simp only [Part.text, Part.python, List.cons_append, List.nil_append]
      rw [pairToEscape, if_pos ⟨rfl, rfl⟩, ih]
    | esc d =>
      simp only [Part.text, Part.python, List.cons_append, List.nil_append]
      rw [pair_step _ (by decide), pair_step _ (agreed_quote hp), ih]

theorem pyEval_python (long : List Char → Option (List Char × List Char)) : ∀ (l : List Part) (n : Nat),
    (∀ p ∈ l, p.Agreed) → (l.flatMap Part.python).length ≤ n →
      pyEval long n (l.flatMap Part.python) = some (meant l)
  | [], n, _, _ => by cases n <;> rfl
  | p :: l, n, h, hn => by
    have hl : ∀ q ∈ l, q.Agreed := fun q hq => h q (by simp [hq])
    have hp := h p (by simp)
    have e2 : meant (p :: l) = p.value ++ meant l := by simp [meant]
    rw [List.flatMap_cons, List.length_append] at hn
    rw [List.flatMap_cons, e2]
    cases p with
    | ch c =>
      simp only [Part.text, Part.python, Part.value, List.cons_append, List.nil_append, List.length_cons,
        List.length_nil] at hn ⊢
      obtain ⟨n, rfl⟩ : ∃ k, n = k + 1 := ⟨n - 1, by omega⟩
      obtain ⟨⟨h1, h2, h3, h4⟩, h5⟩ := hp
      rw [pyEval_plain long n _ (by simp [h2, h3, h4, h5]) h1, pyEval_python long l n hl (by omega)]
      rfl
    | quote =>
      simp only [Part.python, Part.value, List.cons_append, List.nil_append, List.length_cons,
        List.length_nil] at hn ⊢
      obtain ⟨n, rfl⟩ : ∃ k, n = k + 1 := ⟨n - 1, by omega⟩
      have h0 : ¬ ('\\' = '\'' ∨ '\\' = '\n' ∨ '\\' = '\r' ∨ '\\' = Char.ofNat 0) := by decide
      have hl' : longEscape '\'' = false := by decide
      have he : pyEscape '\'' = some ['\''] := by decide
      rw [pyEval, if_neg h0, if_pos rfl]
      simp only [hl', Bool.false_eq_true, if_false, he]
      rw [pyEval_python long l n hl (by omega)]
      rfl
    | esc d =>
      simp only [Part.text, Part.python, Part.value, List.cons_append, List.nil_append, List.length_cons,
        List.length_nil] at hn ⊢
      obtain ⟨n, rfl⟩ : ∃ k, n = k + 2 := ⟨n - 2, by omega⟩
      have h0 : ¬ ('\\' = '\'' ∨ '\\' = '\n' ∨ '\\' = '\r' ∨ '\\' = Char.ofNat 0) := by decide
      have ih := fun k hk => pyEval_python long l k hl hk
      have hd : d ∈ agreed := hp
      rw [pyEval, if_neg h0, if_pos rfl]
      simp only [agreed, List.mem_cons, List.not_mem_nil, or_false] at hd
      have hn' : (List.flatMap Part.python l).length ≤ n := by omega
      rcases hd with rfl | rfl | rfl | rfl | rfl | rfl | rfl | rfl
      all_goals
        first
        | (simp (decide := true) only [pyEscape, unesc, if_true, if_false]
           rw [ih (n + 1) (by omega)]; rfl)
        | (simp (decide := true) only [pyEscape, unesc, if_true, if_false]
           rw [pyEval_plain long n _ (by decide) (by decide), ih n hn']; rfl)

/-- C57: a single-quoted literal of plain characters, doubled quotes and the escapes of
`agreed` has for the proxy the value it has for MySQL. -/
theorem C57_escapes_partial (long : List Char → Option (List Char × List Char)) (l : List Part)
    (hl : ∀ p ∈ l, p.Agreed) (rest : List Char) (hr : NotFirst '\'' rest) :
    toString' long '\'' (written l ++ '\'' :: rest) = some (meant l, rest) ∧
      readStr true '\'' (written l ++ '\'' :: rest) = some (meant l, rest) := by
  refine ⟨?_, readStr_written rest hr l hl⟩
  unfold toString'
  rw [rawStr_written rest hr l hl]
  simp only [pair_written l hl]
  rw [pyEval_python long l _ hl (Nat.le_refl _)]
  rfl

/-- `'a\n\"b''\\c\%'` is such a literal. -/
example : ∀ p ∈ [Part.ch 'a', .esc 'n', .esc '"', .ch 'b', .quote, .esc '\\', .ch 'c', .esc '%'], p.Agreed := by
  simp [Part.Agreed, agreed, pyPlain]

/-- C57, exactly for the other escapes of one character: each means something else to the
proxy, or is rejected. -/
theorem C57_escapes_exact (long : List Char → Option (List Char × List Char)) (d : Char)
    (hd : d ≠ '\'') (hl : longEscape d = false) :
    toString' long '\'' ['\\', d, '\''] = some (unesc d, []) ↔ d ∈ agreed := by
  constructor
  · intro h
    have hraw : rawStr '\'' ['\\', d, '\''] = some (['\\', d], []) := by
      rw [rawStr_step (by decide) (by simp), rawStr_step hd (by simp)]
      rfl
    have hpair : pairToEscape ['\\', d] = ['\\', d] := by
      rw [pair_step _ (by decide), pair_step _ hd]; rfl
    unfold toString' at h
    rw [hraw] at h
    simp only [hpair, List.length_cons, List.length_nil] at h
    have h0 : ¬ ('\\' = '\'' ∨ '\\' = '\n' ∨ '\\' = '\r' ∨ '\\' = Char.ofNat 0) := by decide
    rw [pyEval, if_neg h0, if_pos rfl] at h
    simp only [hl, Bool.false_eq_true, if_false] at h
    by_contra hn
    simp only [agreed, List.mem_cons, List.not_mem_nil, or_false, not_or] at hn
    obtain ⟨n1, n2, n3, n4, n5, n6, n7, n8⟩ := hn
    have hl0 : d ≠ '0' := by rintro rfl; exact absurd hl (by decide)
    cases he : pyEscape d with
    | some v =>
      simp only [he, pyEval] at h
      unfold pyEscape at he
      simp only [n1, n2, n3, n4, n5, n6, hd, if_false] at he
      split at he
      · rename_i hx; subst hx
        injection he with he; subst he
        exact absurd h (by decide)
      · split at he
        · rename_i hx; subst hx
          injection he with he; subst he
          exact absurd h (by decide)
        · split at he
          · rename_i hx; subst hx
            injection he with he; subst he
            exact absurd h (by decide)
          · split at he
            · rename_i hx; subst hx
              injection he with he; subst he
              exact absurd h (by decide)
            · cases he
    | none =>
      simp only [he] at h
      rw [pyEval] at h
      split at h
      · simp at h
      · simp only [pyEval, Option.map_some, Option.some.injEq, Prod.mk.injEq, and_true] at h
        unfold unesc at h
        simp only [n1, n2, n3, n4, n7, n8, hl0, if_false] at h
        split at h <;> simp at h
  · intro h
    have := (C57_escapes_partial long [.esc d] (by simpa [Part.Agreed] using h) [] (by simp [NotFirst])).1
    simpa [written, meant, Part.text, Part.value] using this

/-! ### Which names are quoted -/

/-- C42, exactly: a name is left bare if it is `*`, or if it is no keyword of the proxy,
begins with a letter or underscore and goes on with word characters, up to one final
line break. -/
theorem C42_bare_iff (uni : Char → Bool) (kw : List Char → Bool) (s : List Char) :
    shouldQuote uni kw s = false ↔ s = ['*'] ∨ (kw s = false ∧ ∃ c t, (s = c :: t ∨ s = c :: (t ++ ['\n'])) ∧
      letter c = true ∧ ∀ d ∈ t, word uni d = true) := by
  unfold shouldQuote
  simp only [Bool.and_eq_false_iff, bne_eq_false_iff_eq, Bool.or_eq_false_iff, Bool.not_eq_false']
  refine or_congr Iff.rfl ?_
  rw [and_comm]
  refine and_congr Iff.rfl ?_
  cases s with
  | nil => simp [valid]
  | cons c t =>
    simp only [valid, Bool.and_eq_true, Bool.or_eq_true, List.all_eq_true, beq_iff_eq]
    constructor
    · rintro ⟨hc, h | ⟨h1, h2⟩⟩
      · exact ⟨c, t, Or.inl rfl, hc, h⟩
      · refine ⟨c, t.dropLast, Or.inr ?_, hc, h2⟩
        have hne : t ≠ [] := by rintro rfl; simp at h1
        have hg : t.getLast hne = '\n' := by
          rw [List.getLast?_eq_some_getLast hne] at h1
          exact Option.some.inj h1
        rw [← hg, List.dropLast_concat_getLast hne]
    · rintro ⟨c', t', h | h, hc, hw⟩
      · obtain ⟨rfl, rfl⟩ := List.cons.inj h
        exact ⟨hc, Or.inl hw⟩
      · obtain ⟨rfl, rfl⟩ := List.cons.inj h
        exact ⟨hc, Or.inr ⟨by simp, by simpa using hw⟩⟩

/-- C42: with `ANSI_QUOTES`, and if the proxy knows all reserved words of the backend,
every name is read back as itself, provided it is not `*`, does not end in a line break
and has word characters of the basic plane only. -/
theorem C42_names_ansi_partial (bs : Bool) (res kw : List Char → Bool) (uni : Char → Bool)
    (hk : ∀ w, res w = true → kw w = true) (s rest : List Char) (hs : s ≠ ['*'])
    (hn : s.getLast? ≠ some '\n') (hw : ∀ c ∈ s, word uni c = true → nameChar c = true)
    (h1 : NotFirst '"' rest) (h2 : ∀ d, rest.head? = some d → nameChar d = false) :
    readItem bs true res (esc uni kw s ++ rest) = some (.ident s, rest) := by
  cases hq : shouldQuote uni kw s with
  | true => exact C42_quoted_ansi bs res kw uni s rest hq h1
  | false =>
    rcases (C42_bare_iff uni kw s).mp hq with h | ⟨hkw, c, t, h | h, hc, ht⟩
    · exact absurd h hs
    · subst h
      refine C42_name_partial bs true res kw uni c t rest hq hc ?_ ?_ h2
      · rw [List.all_eq_true]
        exact fun d hd => hw d (by simp [hd]) (ht d hd)
      · cases hr : res (c :: t) with
        | false => rfl
        | true => rw [hk _ hr] at hkw; cases hkw
    · subst h
      exfalso
      apply hn
      rw [← List.cons_append, List.getLast?_append]
      rfl

end EulerDB.Format
