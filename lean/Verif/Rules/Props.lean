/-
C76: the type of a statement is found whatever its literals contain.
-/
import Verif.Rules.Quote
import Verif.Rules.Tokens
import Verif.Group.Flatten

namespace EulerDB.Rules

open EulerDB.Lex EulerDB.Group

/-! ### The first word -/

theorem strip_none {c : Char} {w : List Char} (h : c ∉ w) : stripChar c w = w := by
  have d : ∀ l : List Char, c ∉ l → l.dropWhile (· == c) = l := by
    intro l hl
    cases l with
    | nil => rfl
    | cons x l =>
      rw [List.dropWhile_cons, if_neg]
      intro hx
      exact hl (by rw [beq_iff_eq.1 hx]; exact List.mem_cons_self ..)
  rw [stripChar, d w h, d _ (by rwa [List.mem_reverse]), List.reverse_reverse]

theorem unquote_word {w : List Char} (ha : ∀ c ∈ w, c.isAlpha = true) : unquote w = w := by
  have h1 : '`' ∉ w := fun h => absurd (ha _ h) (by decide)
  have h2 : '"' ∉ w := fun h => absurd (ha _ h) (by decide)
  rw [unquote, strip_none h1, strip_none h2]

theorem normalized_word {w : List Char} (ha : ∀ c ∈ w, c.isAlpha = true) : normalized w = upper w := by
  rw [normalized, List.filter_eq_self.2]
  intro c hc
  have := ha c hc
  have n1 : c ≠ ' ' := by rintro rfl; cases this
  have n2 : c ≠ '\n' := by rintro rfl; cases this
  have n3 : c ≠ '\t' := by rintro rfl; cases this
  have n4 : c ≠ '\r' := by rintro rfl; cases this
  simp [n1, n2, n3, n4]

/-- The type of a statement by its first word. -/
def typeByWord (w : List Char) : String := (supported.lookup (upper w)).getD ""

theorem lookup_starter {w : List Char} (hw : upper w ∈ starters) : lookupType (upper w) = .ok (typeByWord w) ∧
    upper w ≠ "CREATE" ∧ upper w ≠ "ALTER" := by
  unfold typeByWord
  generalize upper w = u at hw
  revert u
  decide

theorem queryType_first {p : SqlToken} {r : List SqlToken} (h1 : p.left = false) (h2 : p.comment = false)
    (h3 : upper p.value ∈ starters) (h4 : ∀ c ∈ p.value, c.isAlpha = true) : queryType (p :: r) = .ok (typeByWord p.value) := by
  obtain ⟨g1, g2, g3⟩ := lookup_starter h3
  rw [queryType, List.filter_cons_of_pos (by simp [h2])]
  simp only [h1, Bool.false_eq_true, if_false, typeAt, List.getElem?_cons_zero, normalized_word h4, g2, g3, or_self, g1]

/-! ### The whole path -/

/-- A statement as the theorems take it: blanks, one of the words, and the rest; `s` is the statement without literals. -/
structure Simple (k : Classes) (bl w rest s : List Char) : Prop where
  blanks : ∀ c ∈ bl, asciiSpace c = true ∧ c.toNat < 128
  word : upper w ∈ starters
  letters : ∀ c ∈ w, c.isAlpha = true
  ends : ∀ d ∈ rest.head?, ender d = true
  plain : Plain k none (bl ++ (w ++ rest)) s
  zone : ∀ y, y <:+ bl ++ (w ++ rest) → zoneQuote k y = false

theorem kin_split : ∀ (pre : List Token) {ty : TType} {w : List Char} {x m : List Token}, List.Forall₂ Kin (pre ++ ⟨ty, w⟩ :: x) m →
    ∃ pre' ty' x', m = pre' ++ ⟨ty', w⟩ :: x' ∧ List.Forall₂ Kin pre pre' ∧ Kin ⟨ty, w⟩ ⟨ty', w⟩ ∧ List.Forall₂ Kin x x'
  | [], ty, w, x, m, h => by
    rw [List.nil_append] at h
    cases h with
    | @cons _ b _ x' h1 h2 =>
      obtain ⟨ty', v⟩ := b
      have : v = w := h1.1
      subst this
      exact ⟨[], ty', x', rfl, .nil, h1, h2⟩
  | a :: pre, ty, w, x, m, h => by
    rw [List.cons_append] at h
    cases h with
    | @cons _ b _ m' h1 h2 =>
      obtain ⟨pre', ty', x', r1, r2, r3, r4⟩ := kin_split pre h2
      exact ⟨b :: pre', ty', x', by rw [r1]; rfl, .cons h1 r2, r3, r4⟩

theorem kin_blanks {l m : List Token} (h : List.Forall₂ Kin l m) (hl : ∀ t ∈ l, isBlank t = true) : ∀ t ∈ m, isBlank t = true := by
  induction h with
  | nil => simp
  | @cons a b la lb hab _ ih =>
    intro t ht
    rcases List.mem_cons.1 ht with rfl | ht
    · rw [kin_blank hab]; exact hl a (List.mem_cons_self ..)
    · exact ih (fun t ht => hl t (List.mem_cons_of_mem _ ht)) t ht

theorem Fine.tail {t : Token} {l : List Token} (h : Fine (t :: l)) : Fine l :=
  ⟨chain_tail h.chain, fun u hu => h.kind u (List.mem_cons_of_mem _ hu), fun u hu => h.full u (List.mem_cons_of_mem _ hu)⟩

theorem Fine.right : ∀ {a b : List Token}, Fine (a ++ b) → Fine b
  | [], _, h => h
  | _ :: a, _, h => Fine.right (a := a) h.tail

theorem typeOf_simple {k : Classes} (hk : k.Ok) {kw : List Char → TType} (hkw : KwOk kw) {bl w rest s : List Char}
    (h : Simple k bl w rest s) {t : List Char} (hpre : preprocess t = bl ++ (w ++ rest)) (hb : balanced 0 s = true) :
    typeOf k kw t = .ok (typeByWord w) := by
  obtain ⟨l, hl, _⟩ := C44_lexer k kw (bl ++ (w ++ rest))
  have hsh := lex_shaped hk hkw _ _ (Nat.le_refl _) _ _ _ _ _ h.plain h.zone hl
  obtain ⟨pre, ty, post, e, hpb, hty, hnd⟩ := lex_first hk h.word h.letters h.ends _ bl (Nat.le_refl _) h.blanks _ [] l rfl hl
  have hne : w ≠ [] := by
    intro e
    have := h.word
    rw [e] at this
    exact absurd this (by decide)
  have hwp : parenTok ⟨ty, w⟩ = false := by
    rw [parenTok, Bool.or_eq_false_iff, beq_eq_false_iff_ne, beq_eq_false_iff_ne]
    exact ⟨fun (e : w = _) => absurd (h.letters '(' (by rw [e]; simp)) (by decide), fun (e : w = _) => absurd (h.letters ')' (by rw [e]; simp)) (by decide)⟩
  have hwd : isDot ⟨ty, w⟩ = false := by
    rw [isDot, beq_eq_false_iff_ne]
    exact fun (e : w = _) => absurd (h.letters '.' (by rw [e]; simp)) (by decide)
  have hti : ty ≠ Integer ∧ isIn ty Whitespace = false ∧ isCommentType ty = false := by
    rcases hty with rfl | rfl
    · decide
    · exact ⟨(hkw w).2.2, (hkw w).1, (hkw w).2.1⟩
  -- the first statement
  have hsemi : (pre ++ [(⟨ty, w⟩ : Token)]).all (fun t => !isSemi t) = true := by
    rw [List.all_append, Bool.and_eq_true]
    refine ⟨List.all_eq_true.2 fun t ht => ?_, ?_⟩
    · have := blank_isIn (hpb t ht)
      rw [Bool.not_eq_true', isSemi, Bool.and_eq_false_iff]
      left
      rw [beq_eq_false_iff_ne]
      intro e
      rw [e] at this
      cases this
    · rw [List.all_cons, List.all_nil, Bool.and_true, Bool.not_eq_true', isSemi, Bool.and_eq_false_iff]
      right
      rw [beq_eq_false_iff_ne]
      exact fun (e : w = [';']) => absurd (h.letters ';' (by rw [e]; exact List.mem_singleton.2 rfl)) (by decide)
  obtain ⟨s1, s2, s3⟩ := splitFrom_prefix (pre ++ [⟨ty, w⟩]) .init post rfl hsemi
  obtain ⟨x, more, g1, g2⟩ := splitFrom_head post ((pre ++ [(⟨ty, w⟩ : Token)]).foldl addToken .init) (by
    rw [s3, List.all_append, List.all_append]
    have : isSpace ⟨ty, w⟩ = false := hti.2.1
    simp [this])
  have hsplit : split l = (pre ++ ⟨ty, w⟩ :: x) :: more := by
    have e2 : pre ++ (⟨ty, w⟩ : Token) :: post = (pre ++ [⟨ty, w⟩]) ++ post := by simp
    rw [split, e, e2, s1, g1, s3]
    simp [State.init]
  obtain ⟨y, hy⟩ := g2
  have hll : l = (pre ++ ⟨ty, w⟩ :: x) ++ y := by rw [e, ← hy, List.append_assoc]; rfl
  have hfine : Fine (pre ++ ⟨ty, w⟩ :: x) := (hll ▸ hsh.fine).left
  have hbal : balanced 0 (parens (pre ++ ⟨ty, w⟩ :: x)) = true := by
    have : balanced 0 (parens l) = true := by rw [hsh.parens, balanced_filter, hb]
    rw [hll, parens_append] at this
    exact balanced_prefix _ _ _ this
  have hnx : ∀ t ∈ x.head?, isDot t = false := by
    intro t ht
    refine hnd t ?_
    rw [← hy]
    cases x with
    | nil => cases ht
    | cons _ _ => exact ht
  -- grouping and flattening
  obtain ⟨m, kk, p1, p2, p3⟩ := C75_tokens (pre ++ ⟨ty, w⟩ :: x)
  obtain ⟨f1, f2⟩ := kin_fine p2 hfine
  obtain ⟨pre', ty', x', rfl, q1, q2, q3⟩ := kin_split pre p2
  have hpb' := kin_blanks q1 hpb
  have hti' : ty' ≠ Integer ∧ isBlank ⟨ty', w⟩ = false ∧ isCommentType ty' = false := by
    refine ⟨?_, ?_, ?_⟩
    · rcases q2.2 with e | ⟨_, e⟩
      · rw [show ty' = ty from e]; exact hti.1
      · rw [show ty' = Operator from e]; decide
    · rw [kin_blank q2]
      cases hbl : isBlank ⟨ty, w⟩ with
      | false => rfl
      | true =>
        have := blank_isIn hbl
        rw [show isIn ty Whitespace = false from hti.2.1] at this
        cases this
    · rw [show isCommentType ty' = isCommentType ty from kin_comment q2]
      exact hti.2.2
  obtain ⟨x'', rfl, j1⟩ := joined_first pre' hpb' hti'.1 p3
  obtain ⟨k1, k2⟩ := joined_fine p3 f1
  have fx' : Fine x' := f1.right.tail
  have fx : Fine x'' := k1.right.tail
  have hfil : (pre' ++ ⟨ty', w⟩ :: x'').filter (fun t => !isBlank t) = ⟨ty', w⟩ :: x''.filter fun t => !isBlank t := by
    rw [List.filter_append, List.filter_eq_nil_iff.2 (by intro t ht; simp [hpb' t ht]), List.nil_append,
      List.filter_cons_of_pos (by simp [hti'.2.1])]
  obtain ⟨b1, b2, _⟩ := filter_blank k1
  obtain ⟨_, _, b3⟩ := filter_blank fx
  rw [hfil] at b1 b2
  have hnp : isPart ⟨ty', w⟩ (x''.filter fun t => !isBlank t) = false := by
    rw [isPart.eq_def, Bool.or_eq_false_iff]
    refine ⟨by rw [kin_dot q2]; exact hwd, ?_⟩
    cases hh : x''.filter fun t => !isBlank t with
    | nil => rfl
    | cons u r =>
      simp only
      cases hd : isDot u with
      | false => rfl
      | true =>
        exfalso
        have h1 := b3 u (by rw [hh]; rfl) hd
        have h2 := joined_head j1 fx' u (by rw [h1]; rfl) hd
        cases q3 with
        | nil => cases h2
        | @cons a b _ _ hab _ =>
          cases h2
          have := hnx a rfl
          rw [kin_dot hab, this] at hd
          cases hd
  -- the loop
  have hwp' : parenTok ⟨ty', w⟩ = false := by rw [kin_paren q2]; exact hwp
  obtain ⟨p, bk', o1, o2, o3⟩ := onToken_plain hwp' (unquote w) 0 [] .init
  have hb' : balanced bk'.opens.length (parens (x''.filter fun t => !isBlank t)) = true := by
    rw [parens_cons, hwp'] at b2
    have : parens (x''.filter fun t => !isBlank t) = parens (pre ++ ⟨ty, w⟩ :: x) := by
      rw [← f2, ← k2, ← b2]; rfl
    rw [o2, this]
    exact hbal
  rcases tokensFrom_spec (x''.filter fun t => !isBlank t) [⟨ty', w⟩] false [p] bk' (by simp) (chain_tail b1) with ⟨_, ps, t1⟩ | ⟨t1, _⟩
  · have hps : parserToks (pre' ++ ⟨ty', w⟩ :: x'') = .ok (p :: ps) := by
      rw [parserToks, hfil, tokensFrom, if_neg (by rw [hnp]; simp), if_neg (by simp)]
      simp only [Bool.false_eq_true, if_false, List.length_nil, o1, t1]
    unfold typeOf
    rw [hpre, hl]
    simp only [hsplit, p1, hps]
    rw [List.map_cons, o3, unquote_word h.letters]
    exact queryType_first rfl hti'.2.2 h.word h.letters
  · rw [hb'] at t1; cases t1

/-- A statement that begins with one of the words and has no double quote: its type is found, whatever its literals
and quoted names contain, if no parenthesis outside of them is closed that was not opened. -/
theorem C76_classified_partial {k : Classes} (hk : k.Ok) {kw : List Char → TType} (hkw : KwOk kw) {bl w rest s : List Char}
    (h : Simple k bl w rest s) (hb : balanced 0 s = true) (hq : '"' ∉ bl ++ (w ++ rest)) (hm : ¬ mark <:+: bl ++ (w ++ rest)) :
    typeOf k kw (bl ++ (w ++ rest)) = .ok (typeByWord w) :=
  typeOf_simple hk hkw h (preprocess_id hq hm) hb

/-- The same with double quotes, if they are all within single quotes and each single quote has its partner on its line. -/
theorem C76_double_quotes_partial {k : Classes} (hk : k.Ok) {kw : List Char → TType} (hkw : KwOk kw) {bl w rest s : List Char}
    (h : Simple k bl w rest s) (hb : balanced 0 s = true) {ps : List (Bool × List Char)} (hc : Cut (bl ++ (w ++ rest)) ps)
    (hq : ∀ p ∈ ps, p.1 = false → '"' ∉ p.2) (hm : ¬ mark <:+: bl ++ (w ++ rest)) :
    typeOf k kw (bl ++ (w ++ rest)) = .ok (typeByWord w) :=
  typeOf_simple hk hkw h (preprocess_cut hc hq hm) hb

/-- The same with names in double quotes, if there are no single quotes: they become names in backticks. -/
theorem C76_names_partial {k : Classes} (hk : k.Ok) {kw : List Char → TType} (hkw : KwOk kw) {bl w rest s : List Char}
    (h : Simple k bl w rest s) (hb : balanced 0 s = true) {ps : List (Bool × List Char)} (hp : NamePieces ps) (hs : quotedBy '`' ps = bl ++ (w ++ rest)) :
    typeOf k kw (quotedBy '"' ps) = .ok (typeByWord w) :=
  typeOf_simple hk hkw h ((preprocess_names hp).trans hs) hb

/-- The type depends on the first word only: two such statements that begin with the same word have the same type. -/
theorem C76_by_word {k : Classes} (hk : k.Ok) {kw : List Char → TType} (hkw : KwOk kw) {bl bl' w w' rest rest' s s' : List Char}
    (h : Simple k bl w rest s) (h' : Simple k bl' w' rest' s') (hw : upper w = upper w') (hb : balanced 0 s = true) (hb' : balanced 0 s' = true)
    (hq : '"' ∉ bl ++ (w ++ rest)) (hq' : '"' ∉ bl' ++ (w' ++ rest')) (hm : ¬ mark <:+: bl ++ (w ++ rest))
    (hm' : ¬ mark <:+: bl' ++ (w' ++ rest')) : typeOf k kw (bl ++ (w ++ rest)) = typeOf k kw (bl' ++ (w' ++ rest')) := by
  rw [C76_classified_partial hk hkw h hb hq hm, C76_classified_partial hk hkw h' hb' hq' hm', typeByWord, typeByWord, hw]

/-! ### Where it fails -/

/-- What the tables of keywords.py 101-958 say of the words below. -/
def someWords (v : List Char) : TType :=
  if ["SELECT", "INSERT"].contains (upper v) then ["Keyword", "DML"]
  else if ["INTO"].contains (upper v) then Keyword
  else Name

theorem someWords_ok : KwOk someWords := by
  intro v
  unfold someWords
  split
  · decide
  · split <;> decide

/-- `INSERT INTO t (a,b) VALUES ("", ")")`: an empty string in double quotes, and the rewriting of quotes puts the next
parenthesis outside of a literal. -/
theorem C76_fails_empty_string :
    typeOf ascii someWords "INSERT INTO t (a,b) VALUES (\"\", \")\")".toList = .error .indexError ∧
    typeOf ascii someWords "INSERT INTO t (a,b) VALUES (\"x\", \")\")".toList = .ok "INSERT" := by
  constructor <;> decide +kernel

/-- `insert into t values ("it's", '")')`: an apostrophe in a string in double quotes. -/
theorem C76_fails_apostrophe :
    typeOf ascii someWords "insert into t values (\"it's\", '\")')".toList = .error .indexError := by
  decide +kernel

/-- `SELECT (.5e3)`: the parenthesis before the dot is taken for a part of a name. -/
theorem C76_fails_dot : typeOf ascii someWords "SELECT (.5e3)".toList = .error .indexError ∧
    typeOf ascii someWords "SELECT (0.5e3)".toList = .ok "SELECT" := by
  constructor <;> decide +kernel

/-- `SELECT a #x)`: a comment for MySQL, whose parenthesis is counted. -/
theorem C76_fails_comment : typeOf ascii someWords "SELECT a #x)".toList = .error .indexError ∧
    typeOf ascii someWords "SELECT a # x)".toList = .ok "SELECT" := by
  constructor <;> decide +kernel

/-- On characters: the column `12a` is one token of `SELECT 12a`, and two of `SELECT 12a, b`. -/
theorem C75_fails_text :
    ((lex (rules ascii someWords) "SELECT 12a".toList).bind Group.parserTokens) =
      .ok (Group.selects [⟨Name, "12a".toList⟩]) ∧
    ((lex (rules ascii someWords) "SELECT 12a, b".toList).bind Group.parserTokens) =
      .ok (Group.selects [⟨Integer, "1".toList⟩, ⟨Name, "2a".toList⟩, ⟨Punctuation, ",".toList⟩, ⟨Whitespace, " ".toList⟩,
        ⟨Name, "b".toList⟩]) := by
  constructor <;> decide +kernel

/-! ### The hypotheses can be met -/

/-- The inside of a string of MySQL at the beginning of the text, and what follows its end. -/
def readBody : Nat → List Char → Option (List Char × List Char)
  | 0, _ => none
  | _ + 1, [] => none
  | n + 1, c :: r =>
    if c = '\'' then
      if r.head? = some '\'' then (readBody n r.tail).map fun p => ('\'' :: '\'' :: p.1, p.2) else some ([], r)
    else if c = '\\' then
      match r with
      | [] => none
      | d :: r => (readBody n r).map fun p => ('\\' :: d :: p.1, p.2)
    else (readBody n r).map fun p => (c :: p.1, p.2)

theorem readBody_sound : ∀ (n : Nat) (t v r : List Char), readBody n t = some (v, r) → Body v ∧ t = v ++ '\'' :: r ∧ r.head? ≠ some '\''
  | 0, _, _, _, h => by cases h
  | _ + 1, [], _, _, h => by cases h
  | n + 1, c :: t, v, r, h => by
    rw [readBody.eq_def] at h; dsimp only at h
    split at h
    · rename_i hc
      subst hc
      split at h
      · rename_i hd
        cases t with
        | nil => cases hd
        | cons d t =>
          cases hd
          cases hp : readBody n t with
          | none => rw [List.tail_cons, hp] at h; cases h
          | some p =>
            rw [List.tail_cons, hp] at h
            cases h
            obtain ⟨h1, h2, h3⟩ := readBody_sound n t _ _ hp
            exact ⟨.double h1, by rw [h2]; rfl, h3⟩
      · rename_i hd
        cases h
        exact ⟨.nil, rfl, hd⟩
    · rename_i hc
      split at h
      · rename_i hb
        subst hb
        cases t with
        | nil => cases h
        | cons d t =>
          simp only at h
          cases hp : readBody n t with
          | none => rw [hp] at h; cases h
          | some p =>
            rw [hp] at h
            cases h
            obtain ⟨h1, h2, h3⟩ := readBody_sound n t _ _ hp
            exact ⟨.escaped d h1, by rw [h2]; rfl, h3⟩
      · rename_i hb
        cases hp : readBody n t with
        | none => rw [hp] at h; cases h
        | some p =>
          rw [hp] at h
          cases h
          obtain ⟨h1, h2, h3⟩ := readBody_sound n t _ _ hp
          exact ⟨.char hc hb h1, by rw [h2]; rfl, h3⟩

/-- May a dot follow this character? -/
def dotOk : Option Char → Bool
  | none => false
  | some q => !asciiSpace q && !isParen q

/-- What is left of a statement without literals, if it has no quoted names. -/
def readPlain : Nat → Option Char → List Char → Option (List Char)
  | 0, _, _ => none
  | _ + 1, _, [] => some []
  | n + 1, p, c :: r =>
    if c = '\'' then (readBody n r).bind fun q => readPlain n (some '\'') q.2
    else if plainChar c = true ∧ (∀ d ∈ r.head?, badPair c d = false) ∧
        (c ≠ '.' ∨ dotOk p = true) then
      (readPlain n (some c) r).map (c :: ·)
    else none

theorem readPlain_sound : ∀ (n : Nat) (p : Option Char) (t s : List Char), readPlain n p t = some s → Plain ascii p t s
  | 0, _, _, _, h => by cases h
  | _ + 1, _, [], _, h => by cases h; exact .nil
  | n + 1, p, c :: r, s, h => by
    rw [readPlain.eq_def] at h; dsimp only at h
    split at h
    · rename_i hc
      subst hc
      obtain ⟨⟨v, r'⟩, h1, h2⟩ := Option.bind_eq_some_iff.1 h
      obtain ⟨g1, g2, g3⟩ := readBody_sound _ _ _ _ h1
      rw [g2]
      exact .literal g1 g3 (readPlain_sound n _ _ _ h2)
    · split at h
      · rename_i hh
        obtain ⟨h1, h2, h3⟩ := hh
        obtain ⟨s', hs, rfl⟩ := Option.map_eq_some_iff.1 h
        refine .char h1 h2 ?_ (readPlain_sound n _ _ _ hs)
        intro hd
        rcases h3 with h3 | h3
        · exact absurd hd h3
        · cases p with
          | none => cases h3
          | some q =>
            simp only [dotOk, Bool.and_eq_true, Bool.not_eq_true'] at h3
            exact ⟨q, rfl, h3.1, h3.2⟩
      · cases h

theorem no_zone {t : List Char} (h : ∀ i < t.length + 1, zoneQuote ascii (t.drop i) = false) : ∀ y, y <:+ t → zoneQuote ascii y = false := by
  rintro y ⟨u, rfl⟩
  have := h u.length (by simp; omega)
  rwa [List.drop_left] at this

/-- ` insert into t (a, b) values ('it''s :-)\')', 1.5)` meets the hypotheses. -/
example : ∃ s, Simple ascii " ".toList "insert".toList " into t (a, b) values ('it''s :-)\\')', 1.5)".toList s ∧ balanced 0 s = true ∧
    '"' ∉ " insert into t (a, b) values ('it''s :-)\\')', 1.5)".toList ∧
    typeOf ascii someWords " insert into t (a, b) values ('it''s :-)\\')', 1.5)".toList = .ok "INSERT" := by
  refine ⟨" insert into t (a, b) values (, 1.5)".toList, ⟨by decide, by decide, by decide, by decide, ?_, ?_⟩, by decide, by decide, by decide +kernel⟩
  · exact readPlain_sound 100 _ _ _ (by decide +kernel)
  · exact no_zone (by decide +kernel)

/-- Names in double quotes. -/
example : ∃ s ps, Simple ascii [] "select".toList " `a)` from `t`".toList s ∧ balanced 0 s = true ∧ NamePieces ps ∧
    quotedBy '`' ps = [] ++ ("select".toList ++ " `a)` from `t`".toList) ∧ quotedBy '"' ps = "select \"a)\" from \"t\"".toList := by
  refine ⟨"select  from ".toList, [(false, "select ".toList), (true, "a)".toList), (false, " from ".toList), (true, "t".toList)],
    ⟨by decide, by decide, by decide, by decide, ?_, ?_⟩, by decide, ?_, by decide, by decide⟩
  · have hq : ∀ v : List Char, '`' ∉ v → Quoted v := by
      intro v
      induction v with
      | nil => exact fun _ => .nil
      | cons c v ih => exact fun h => .char (fun e => h (by rw [e]; exact List.mem_cons_self ..)) (ih fun e => h (List.mem_cons_of_mem _ e))
    iterate 7 refine Plain.char (by decide) (by decide) (fun h => absurd h (by decide)) ?_
    refine Plain.name (v := "a)".toList) (r := " from `t`".toList) (hq _ (by decide)) (by decide) ?_
    iterate 6 refine Plain.char (by decide) (by decide) (fun h => absurd h (by decide)) ?_
    exact Plain.name (v := "t".toList) (r := []) (hq _ (by decide)) (by decide) .nil
  · exact no_zone (by decide +kernel)
  · simp [NamePieces]

/-- A word before a dot is a name, with or without blanks between them, even a keyword. -/
theorem C76_before_dot : lex (rules ascii someWords) "select.a".toList = .ok [⟨Name, "select".toList⟩, ⟨Punctuation, ".".toList⟩, ⟨Name, "a".toList⟩] ∧
    lex (rules ascii someWords) "select .a".toList = .ok [⟨Name, "select".toList⟩, ⟨Whitespace, " ".toList⟩, ⟨Punctuation, ".".toList⟩, ⟨Name, "a".toList⟩] := by
  constructor <;> decide +kernel

end EulerDB.Rules
