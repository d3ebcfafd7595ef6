/-
The tokens of a statement whose literals are those of MySQL: the parentheses outside of literals are tokens
of their own, no other token has one, and no parenthesis stands before a dot.
-/
import Verif.Rules.Plain

namespace EulerDB.Rules

open EulerDB.Lex EulerDB.Group

def isParen (c : Char) : Bool := c == '(' || c == ')'

/-- Characters that begin no comment, name in quotes or placeholder. -/
def plainChar (c : Char) : Bool := !(c == '"' || c == '\'' || c == '`' || c == '´' || c == '$' || c == '[' || c == '#')

/-- `--`, `/*` and `%(`. -/
def badPair (c d : Char) : Bool := (c == '-' && d == '-') || (c == '/' && d == '*') || (c == '%' && d == '(')

/-- `ZONE`, blanks and a quote. -/
def zoneQuote (k : Classes) : List Char → Bool
  | z :: o :: n :: e :: s :: r =>
    k.same 'Z' z && k.same 'O' o && k.same 'N' n && k.same 'E' e && k.space s && (r.dropWhile k.space).head? == some '\''
  | _ => false

/-- A statement, with the character before it, and what is left of it without literals and quoted names.
A dot has the end of a name or a digit before it. -/
inductive Plain (k : Classes) : Option Char → List Char → List Char → Prop
  | nil {p : Option Char} : Plain k p [] []
  | literal {p : Option Char} {v r s : List Char} : Body v → r.head? ≠ some '\'' → Plain k (some '\'') r s →
      Plain k p ('\'' :: (v ++ '\'' :: r)) s
  | name {p : Option Char} {v r s : List Char} : Quoted v → r.head? ≠ some '`' → Plain k (some '`') r s →
      Plain k p ('`' :: (v ++ '`' :: r)) s
  | char {p : Option Char} {c : Char} {r s : List Char} : plainChar c = true → (∀ d ∈ r.head?, badPair c d = false) →
      (c = '.' → ∃ q, p = some q ∧ k.space q = false ∧ isParen q = false) → Plain k (some c) r s → Plain k p (c :: r) (c :: s)

/-- The character before what follows `v`. -/
def after (p : Option Char) : List Char → Option Char
  | [] => p
  | c :: v => after (some c) v

theorem after_some : ∀ (v : List Char) (p : Option Char), v ≠ [] → ∃ u x, v = u ++ [x] ∧ after p v = some x
  | [], _, h => absurd rfl h
  | [c], p, _ => ⟨[], c, rfl, rfl⟩
  | c :: d :: v, p, _ => by
    obtain ⟨u, x, h1, h2⟩ := after_some (d :: v) (some c) (by simp)
    exact ⟨c :: u, x, by rw [h1]; rfl, h2⟩

/-- Past a text without quotes. -/
theorem Plain.past {k : Classes} : ∀ (v : List Char) {p : Option Char} {a s : List Char}, Plain k p (v ++ a) s →
    '\'' ∉ v → '`' ∉ v → ∃ s', s = v ++ s' ∧ Plain k (after p v) a s'
  | [], p, a, s, h, _, _ => ⟨s, rfl, h⟩
  | c :: v, p, a, s, h, h1, h2 => by
    generalize he : c :: v ++ a = t at h
    cases h with
    | nil => cases he
    | literal _ _ _ =>
      rw [List.cons_append, List.cons.injEq] at he
      exact absurd (by rw [he.1]; exact List.mem_cons_self ..) h1
    | name _ _ _ =>
      rw [List.cons_append, List.cons.injEq] at he
      exact absurd (by rw [he.1]; exact List.mem_cons_self ..) h2
    | @char _ c' r s _ _ _ hp =>
      rw [List.cons_append, List.cons.injEq] at he
      obtain ⟨rfl, rfl⟩ := he
      obtain ⟨s', e, h'⟩ := Plain.past v hp (fun h => h1 (List.mem_cons_of_mem _ h)) fun h => h2 (List.mem_cons_of_mem _ h)
      exact ⟨s', by rw [e]; rfl, h'⟩

/-! ### What a rule takes of such a text -/

def isChr : Re → Bool
  | .chr _ => true
  | _ => false

/-- It takes no quote, and a parenthesis only by itself. -/
def safe (r : Re) : Bool :=
  !r.takes ascii '\'' && !r.takes ascii '`' && ((!r.takes ascii '(' && !r.takes ascii ')') || isChr r)

def badStart : List Char → Bool
  | [] => false
  | [c] => !plainChar c
  | c :: d :: _ => !plainChar c || badPair c d

def percent : Re := all [one '%', opt (all [one '(', plus (.chr .word), one ')']), word "S"]

theorem entries_sorted : ∀ e ∈ entries, safe e.1 = true ∨ (∀ p ∈ e.1.begins, badStart p.1 = true) ∨ e.1 = timeZone ∨ e.1 = percent := by
  decide +kernel

/-- The text taken is without quotes, and has a parenthesis only if that is all of it. -/
def Tidy (v : List Char) : Prop := '\'' ∉ v ∧ '`' ∉ v ∧ ∀ x ∈ v, isParen x = true → v = [x]

theorem tidy_safe {k : Classes} (hk : k.Ok) {r : Re} (hs : safe r = true) {b a : List Char} {n : Nat}
    (h : r.match' k b a = some n) : Tidy (a.take n) := by
  obtain ⟨v, a', h1, h2, h3, h4, h5, h6⟩ := Re.match'_took h
  have hv : a.take n = v := by rw [h1, ← h2, List.take_left]
  rw [hv]
  simp only [safe, Bool.and_eq_true, Bool.not_eq_true', Bool.or_eq_true] at hs
  obtain ⟨⟨s1, s2⟩, s3⟩ := hs
  have no : ∀ c : Char, c.toNat < 128 → r.takes ascii c = false → c ∉ v := by
    intro c hc ht hm
    have := h4 c hm
    rw [Re.takes_ascii hk r hc, ht] at this
    cases this
  refine ⟨no _ (by decide) s1, no _ (by decide) s2, ?_⟩
  intro x hx hp
  rcases s3 with ⟨t1, t2⟩ | t
  · simp only [isParen, Bool.or_eq_true, beq_iff_eq] at hp
    rcases hp with rfl | rfl
    · exact absurd hx (no _ (by decide) t1)
    · exact absurd hx (no _ (by decide) t2)
  · cases r with
    | chr s =>
      cases a with
      | nil => rw [Re.run] at h6; cases h6
      | cons c t =>
        rw [Re.run] at h6
        split at h6
        · simp only [Option.some.injEq, Prod.mk.injEq] at h6
          have : (c :: t).length = v.length + a'.length := by rw [h1, List.length_append]
          rw [h6.2, List.length_cons] at this
          have hv1 : v.length = 1 := by omega
          obtain ⟨y, rfl⟩ := List.length_eq_one_iff.1 hv1
          rw [List.mem_singleton] at hx
          rw [hx]
        · cases h6
    | _ => simp [isChr] at t

theorem bad_start {c : Char} {r p : List Char} (hc : plainChar c = true) (hd : ∀ d ∈ r.head?, badPair c d = false)
    (hp : p <+: c :: r) : badStart p = false := by
  match p, hp with
  | [], _ => rfl
  | [x], hp =>
    rw [List.cons_prefix_cons] at hp
    rw [badStart, hp.1, hc]
    rfl
  | x :: y :: p, hp =>
    rw [List.cons_prefix_cons] at hp
    obtain ⟨rfl, q, hq⟩ := hp
    have := hd y (by rw [← hq]; rfl)
    rw [badStart, hc, this]
    rfl

theorem percent_tidy {k : Classes} (hk : k.Ok) {c : Char} {b r : List Char} {n : Nat} (hd : ∀ d ∈ r.head?, badPair c d = false)
    (h : percent.match' k b (c :: r) = some n) : Tidy ((c :: r).take n) := by
  obtain ⟨v, a', h1, h2, _, _, _, h6⟩ := Re.match'_took h
  have hv : (c :: r).take n = v := by rw [h1, ← h2, List.take_left]
  rw [hv]
  have hs : word "S" = .chr (.lit 'S') := by decide
  rw [percent, hs] at h6
  simp only [all, opt] at h6
  rw [Re.run] at h6
  by_cases hc : c = '%'
  · subst hc
    rw [run_one, Re.run, Re.run] at h6
    split at h6
    · rename_i z hz
      rw [Re.run] at hz
      cases r with
      | nil => cases hz
      | cons d r =>
        by_cases hd' : d = '('
        · subst hd'
          exact absurd (hd '(' rfl) (by decide)
        · rw [run_one_ne hd'] at hz
          cases hz
    · rw [Re.run] at h6
      cases r with
      | nil => rw [Re.run] at h6; cases h6
      | cons d r =>
        rw [Re.run] at h6
        split at h6
        · rename_i hx
          simp only [Option.some.injEq, Prod.mk.injEq] at h6
          have hl : ('%' :: d :: r).length = v.length + a'.length := by rw [h1, List.length_append]
          rw [← h6.2] at hl
          simp only [List.length_cons] at hl
          have hv2 : v.length = 2 := by omega
          have ev : v = ['%', d] := by
            have : ('%' :: d :: r).take 2 = v := by rw [h1, ← hv2, List.take_left]
            rw [← this]; rfl
          have nd : ∀ y : Char, y.toNat < 128 → y.toUpper ≠ 'S' → d ≠ y := by
            rintro y hy hu rfl
            rw [Set1.has, hk.same _ _ hy] at hx
            exact hu (by simpa using hx)
          have n1 := nd '\'' (by decide) (by decide)
          have n2 := nd '`' (by decide) (by decide)
          have n3 := nd '(' (by decide) (by decide)
          have n4 := nd ')' (by decide) (by decide)
          rw [ev]
          refine ⟨by simp [Ne.symm n1], by simp [Ne.symm n2], ?_⟩
          intro x hx hp
          exfalso
          simp only [isParen, Bool.or_eq_true, beq_iff_eq] at hp
          rcases hp with rfl | rfl
          · simp [Ne.symm n3] at hx
          · simp [Ne.symm n4] at hx
        · cases h6
  · rw [run_one_ne hc] at h6
    cases h6

theorem run_chr {k : Classes} {s : Set1} {y : Re} {b a : List Char} {f : Then} {z : Place}
    (h : (Re.seq (.chr s) y).run k b a f = some z) : ∃ c t, a = c :: t ∧ s.has k c = true ∧ y.run k (c :: b) t f = some z := by
  rw [Re.run] at h
  cases a with
  | nil => rw [Re.run] at h; cases h
  | cons c t =>
    rw [Re.run] at h
    split at h
    · rename_i hc
      exact ⟨c, t, rfl, hc, h⟩
    · cases h

theorem dropWhile_spaces {p : Char → Bool} : ∀ (v : List Char) {c : Char} {t : List Char}, (∀ x ∈ v, p x = true) → p c = false →
    (v ++ c :: t).dropWhile p = c :: t
  | [], c, t, _, h => by simp [h]
  | x :: v, c, t, hv, h => by
    rw [List.cons_append, List.dropWhile_cons, if_pos (hv x (List.mem_cons_self ..))]
    exact dropWhile_spaces v (fun y hy => hv y (List.mem_cons_of_mem _ hy)) h

theorem zone_needed {k : Classes} (hk : k.Ok) {b a : List Char} {n : Nat} (h : timeZone.match' k b a = some n) :
    ∃ y, y <:+ a ∧ zoneQuote k y = true := by
  obtain ⟨v, a', _, _, _, _, _, h6⟩ := Re.match'_took h
  have hz : word "ZONE" = .seq (.chr (.lit 'Z')) (.seq (.chr (.lit 'O')) (.seq (.chr (.lit 'N')) (.chr (.lit 'E')))) := by decide
  rw [timeZone] at h6
  simp only [all] at h6
  rw [Re.run] at h6
  obtain ⟨v1, a1, t1⟩ := Re.took k _ _ _ _ _ h6
  have h6 := t1.then'
  rw [Re.run] at h6
  obtain ⟨v2, a2, t2⟩ := Re.took k _ _ _ _ _ h6
  have h6 := t2.then'
  rw [Re.run] at h6
  obtain ⟨v3, a3, t3⟩ := Re.took k _ _ _ _ _ h6
  have h6 := t3.then'
  rw [Re.run] at h6
  obtain ⟨v4, a4, t4⟩ := Re.took k _ _ _ _ _ h6
  have h6 := t4.then'
  rw [Re.run, hz, Re.run] at h6
  refine ⟨a4, ⟨v1 ++ v2 ++ v3 ++ v4, by rw [t1.text, t2.text, t3.text, t4.text]; simp⟩, ?_⟩
  cases a4 with
  | nil => cases h6
  | cons z a4 =>
  rw [Re.run] at h6
  split at h6
  · rename_i hz
    rw [Re.run] at h6
    cases a4 with
    | nil => cases h6
    | cons o a4 =>
    rw [Re.run] at h6
    split at h6
    · rename_i ho
      rw [Re.run] at h6
      cases a4 with
      | nil => cases h6
      | cons n a4 =>
      rw [Re.run] at h6
      split at h6
      · rename_i hn
        cases a4 with
        | nil => cases h6
        | cons e a4 =>
        rw [Re.run] at h6
        split at h6
        · rename_i he
          rw [Re.run] at h6
          obtain ⟨v5, a5, t5⟩ := Re.took k _ _ _ _ _ h6
          have h6 := t5.then'
          cases v5 with
          | nil => exact absurd t5.len (by decide)
          | cons s v5 =>
            have hsp : ∀ x ∈ s :: v5, k.space x = true := by
              intro x hx
              have := t5.all x hx
              simpa [blanks, plus, Re.takes, Set1.has] using this
            rw [Re.run] at h6
            obtain ⟨q, t, e5, hq⟩ : ∃ q t, a5 = q :: t ∧ q = '\'' := by
              cases a5 with
              | nil => cases h6
              | cons q t =>
                by_cases hq : q = '\''
                · exact ⟨q, t, rfl, hq⟩
                · rw [run_one_ne hq] at h6; cases h6
            subst hq
            rw [t5.text, e5]
            simp only [Set1.has] at hz ho hn he
            simp only [List.cons_append, zoneQuote, hz, ho, hn, he, hsp s (List.mem_cons_self ..), Bool.true_and]
            rw [dropWhile_spaces v5 (fun x hx => hsp x (List.mem_cons_of_mem _ hx))
              (by rw [hk.space _ (by decide)]; decide)]
            rfl
        · cases h6
      · cases h6
    · cases h6
  · cases h6

theorem match_tidy {k : Classes} (hk : k.Ok) {e : Entry} (he : e ∈ entries) {c : Char} {r b : List Char} {n : Nat}
    (hc : plainChar c = true) (hd : ∀ d ∈ r.head?, badPair c d = false) (hz : ∀ y, y <:+ c :: r → zoneQuote k y = false)
    (h : e.1.match' k b (c :: r) = some n) : Tidy ((c :: r).take n) := by
  rcases entries_sorted e he with hs | hs | hs | hs
  · exact tidy_safe hk hs h
  · obtain ⟨v, a', _, _, _, _, _, h6⟩ := Re.match'_took h
    obtain ⟨p, hp, hpa, _⟩ := Re.begins_run k _ _ _ _ _ h6
    exact absurd (bad_start hc hd hpa) (by rw [hs p hp]; simp)
  · rw [hs] at h
    obtain ⟨y, h1, h2⟩ := zone_needed hk h
    rw [hz y h1] at h2
    cases h2
  · rw [hs] at h
    exact percent_tidy hk hd h

/-! ### The first rule that matches -/

def toRule (k : Classes) (kw : List Char → TType) (e : Entry) : Rule :=
  ⟨e.1.match' k, fun v => match e.2 with | some ty => ty | none => kw v⟩

theorem rules_eq (k : Classes) (kw : List Char → TType) : rules k kw = entries.map (toRule k kw) := rfl

theorem firstMatch_mem {k : Classes} {kw : List Char → TType} : ∀ {es : List Entry} {b a : List Char} {n : Nat} {act},
    firstMatch (es.map (toRule k kw)) b a = some (n, act) → ∃ e ∈ es, e.1.match' k b a = some n ∧ act = (toRule k kw e).action
  | [], _, _, _, _, h => by simp [firstMatch] at h
  | e :: es, b, a, n, act, h => by
    rw [List.map_cons, firstMatch] at h
    split at h
    · rename_i m hm
      simp only [Option.some.injEq, Prod.mk.injEq] at h
      exact ⟨e, List.mem_cons_self .., by rw [← h.1]; exact hm, h.2.symm⟩
    · obtain ⟨e', h1, h2⟩ := firstMatch_mem h
      exact ⟨e', List.mem_cons_of_mem _ h1, h2⟩

theorem firstMatch_skip {k : Classes} {kw : List Char → TType} : ∀ {es : List Entry} {b a : List Char} {rs : List Rule},
    (∀ e ∈ es, e.1.match' k b a = none) → firstMatch (es.map (toRule k kw) ++ rs) b a = firstMatch rs b a
  | [], _, _, _, _ => rfl
  | e :: es, b, a, rs, h => by
    rw [List.map_cons, List.cons_append, firstMatch]
    have : (toRule k kw e).match' b a = none := h e (List.mem_cons_self ..)
    rw [this]
    exact firstMatch_skip fun e he => h e (List.mem_cons_of_mem _ he)

theorem no_match {k : Classes} (hk : k.Ok) {r : Re} {c : Char} (hc : c.toNat < 128) (hs : r.starts ascii c = false)
    (hl : 1 ≤ r.least) (b t : List Char) : r.match' k b (c :: t) = none := by
  cases h : r.match' k b (c :: t) with
  | none => rfl
  | some n =>
    exfalso
    obtain ⟨v, a', h1, h2, h3, _, h5, _⟩ := Re.match'_took h
    cases v with
    | nil => simp at h2; omega
    | cons x v =>
      rw [List.cons_append, List.cons.injEq] at h1
      have := h5 x rfl
      rw [← h1.1, Re.starts_ascii hk r hc, hs] at this
      cases this

theorem first_literal {k : Classes} (hk : k.Ok) (kw : List Char → TType) {v r : List Char} (hb : Body v) (hr : r.head? ≠ some '\'')
    (b : List Char) : ∃ act, firstMatch (rules k kw) b ('\'' :: (v ++ '\'' :: r)) = some (v.length + 2, act) ∧ ∀ w, act w = Single := by
  have e : entries = entries.take 26 ++ (string '\'', some Single) :: entries.drop 27 := by decide +kernel
  have h : ∀ x ∈ entries.take 26, x.1.starts ascii '\'' = false ∧ 1 ≤ x.1.least := by decide +kernel
  refine ⟨_, ?_, fun _ => rfl⟩
  rw [rules_eq, e, List.map_append, firstMatch_skip fun x hx => no_match hk (by decide) (h x hx).1 (h x hx).2 b _, List.map_cons,
    firstMatch]
  have : (toRule k kw (string '\'', some Single)).match' b ('\'' :: (v ++ '\'' :: r)) = some (v.length + 2) := string_match k hb hr b
  rw [this]
  rfl

theorem first_name {k : Classes} (hk : k.Ok) (kw : List Char → TType) {v r : List Char} (hb : Quoted v) (hr : r.head? ≠ some '`')
    (b : List Char) : ∃ act, firstMatch (rules k kw) b ('`' :: (v ++ '`' :: r)) = some (v.length + 2, act) ∧ ∀ w, act w = Name := by
  have e : entries = entries.take 9 ++ (quoted '`', some Name) :: entries.drop 10 := by decide +kernel
  have h : ∀ x ∈ entries.take 9, x.1.starts ascii '`' = false ∧ 1 ≤ x.1.least := by decide +kernel
  refine ⟨_, ?_, fun _ => rfl⟩
  rw [rules_eq, e, List.map_append, firstMatch_skip fun x hx => no_match hk (by decide) (h x hx).1 (h x hx).2 b _, List.map_cons,
    firstMatch]
  have : (toRule k kw (quoted '`', some Name)).match' b ('`' :: (v ++ '`' :: r)) = some (v.length + 2) := quoted_match k hb hr b
  rw [this]
  rfl

/-! ### The tokens -/

/-- What the keyword tables say of a word is neither a blank nor a comment nor a number (keywords.py 101-958: names and
keywords only). -/
def KwOk (kw : List Char → TType) : Prop :=
  ∀ v, isIn (kw v) Whitespace = false ∧ isCommentType (kw v) = false ∧ kw v ≠ Integer

theorem blank_isIn {ty : TType} (h : (ty == Whitespace || ty.dropLast == Whitespace) = true) : isIn ty Whitespace = true := by
  rw [Bool.or_eq_true, beq_iff_eq, beq_iff_eq] at h
  rw [isIn, List.isPrefixOf_iff_prefix]
  rcases h with h | h
  · rw [h]; exact List.prefix_refl _
  · rw [← h]; exact List.dropLast_prefix _

theorem blank_rules : ∀ e ∈ entries, ∀ ty ∈ e.2, (ty == Whitespace || ty.dropLast == Whitespace) = true →
    e.1 = eol ∨ e.1 = .seq (.chr .space) (.lazy (.chr .space)) := by decide +kernel

theorem paren_rules : ∀ e ∈ entries, (e.1.starts ascii '(' || e.1.starts ascii ')') = true → e.2 = some Punctuation := by decide +kernel

/-- A step of the lexer. -/
theorem lexFrom_step {rules : List Rule} (hp : Positive rules) {n : Nat} {b : List Char} {c : Char} {t : List Char} {l : List Token}
    (h : lexFrom rules n b (c :: t) = .ok l) : ∃ v a' ty l' m, c :: t = v ++ a' ∧ v ≠ [] ∧ l = ⟨ty, v⟩ :: l' ∧
      lexFrom rules m (v.reverse ++ b) a' = .ok l' ∧
      ((v = [c] ∧ ty = ErrorT ∧ firstMatch rules b (c :: t) = none) ∨ ∃ m act, firstMatch rules b (c :: t) = some (m, act) ∧ v = (c :: t).take m ∧ ty = act v) := by
  cases n with
  | zero => simp [lexFrom] at h
  | succ n =>
    rw [lexFrom] at h
    cases hm : firstMatch rules b (c :: t) with
    | none =>
      simp only [hm] at h
      cases hl : lexFrom rules n (c :: b) t with
      | error e => simp [hl] at h
      | ok l' =>
        simp only [hl] at h
        cases h
        exact ⟨[c], t, ErrorT, l', n, rfl, by simp, rfl, hl, .inl ⟨rfl, rfl, rfl⟩⟩
    | some p =>
      obtain ⟨m, act⟩ := p
      cases m with
      | zero => exact absurd (firstMatch_pos hp hm) (by decide)
      | succ m =>
        simp only [hm] at h
        cases hl : lexFrom rules n (((c :: t).take (m + 1)).reverse ++ b) ((c :: t).drop (m + 1)) with
        | error e => simp only [hl] at h; cases h
        | ok l' =>
          simp only [hl] at h
          cases h
          exact ⟨(c :: t).take (m + 1), (c :: t).drop (m + 1), _, l', n, (List.take_append_drop _ _).symm, by simp, rfl, hl,
            .inr ⟨m + 1, act, rfl, rfl, rfl⟩⟩

/-- A token that is a parenthesis. -/
def parenTok (t : Token) : Bool := t.value == ['('] || t.value == [')']

/-- The parentheses among the tokens. -/
def parens (l : List Token) : List Char := (l.filter parenTok).flatMap Token.value

/-- Before a dot is no blank and no parenthesis. -/
def BeforeDot (t u : Token) : Prop := isDot u = true → isBlank t = false ∧ parenTok t = false

/-- What the tokens of such a text have in common. -/
structure Shaped (k : Classes) (p : Option Char) (s : List Char) (l : List Token) : Prop where
  parens : parens l = s.filter isParen
  chain : l.IsChain BeforeDot
  head : ∀ t ∈ l.head?, isDot t = true → ∃ q, p = some q ∧ k.space q = false ∧ isParen q = false
  kind : ∀ t ∈ l, parenTok t = true → t.ttype ≠ Integer ∧ t.ttype ≠ Name ∧ isBlank t = false
  full : ∀ t ∈ l, t.value ≠ []

/-- A literal or a quoted name before such tokens. -/
theorem Shaped.quote {k : Classes} {p : Option Char} {q : Char} {s v : List Char} {l : List Token} {ty : TType}
    (hq : q = '\'' ∨ q = '`') (h : Shaped k (some q) s l) (hb : isBlank ⟨ty, q :: (v ++ [q])⟩ = false) :
    Shaped k p s (⟨ty, q :: (v ++ [q])⟩ :: l) := by
  have hp : parenTok ⟨ty, q :: (v ++ [q])⟩ = false := by rcases hq with rfl | rfl <;> simp [parenTok]
  have hd : isDot ⟨ty, q :: (v ++ [q])⟩ = false := by rcases hq with rfl | rfl <;> simp [isDot]
  refine ⟨?_, ?_, ?_, ?_, ?_⟩
  · rw [Rules.parens, List.filter_cons_of_neg (by simp [hp])]
    exact h.parens
  · cases l with
    | nil => exact List.IsChain.singleton _
    | cons u l => exact List.isChain_cons_cons.2 ⟨fun _ => ⟨hb, hp⟩, h.chain⟩
  · intro t ht hdot
    simp only [List.head?_cons, Option.mem_some_iff] at ht
    rw [← ht, hd] at hdot
    cases hdot
  · intro t ht hpar
    rcases List.mem_cons.1 ht with rfl | ht
    · rw [hp] at hpar; cases hpar
    · exact h.kind t ht hpar
  · intro t ht
    rcases List.mem_cons.1 ht with rfl | ht
    · simp
    · exact h.full t ht

theorem filter_tidy {v : List Char} (h : Tidy v) : v.filter isParen = if v = ['('] ∨ v = [')'] then v else [] := by
  split
  · rename_i hv
    rcases hv with rfl | rfl <;> rfl
  · rename_i hv
    rw [List.filter_eq_nil_iff]
    intro x hx hp
    have e := h.2.2 x hx hp
    simp only [isParen, Bool.or_eq_true, beq_iff_eq] at hp
    rcases hp with rfl | rfl
    · exact hv (.inl e)
    · exact hv (.inr e)

/-- Another token before such tokens. -/
theorem Shaped.plain {k : Classes} {p : Option Char} {v s : List Char} {l : List Token} {ty : TType} (ht : Tidy v) (hv : v ≠ [])
    (h : Shaped k (after p v) s l) (hb : isBlank ⟨ty, v⟩ = true → ∀ x ∈ v, k.space x = true)
    (hp : parenTok ⟨ty, v⟩ = true → ty ≠ Integer ∧ ty ≠ Name ∧ isBlank ⟨ty, v⟩ = false)
    (hd : v = ['.'] → ∃ q, p = some q ∧ k.space q = false ∧ isParen q = false) : Shaped k p (v ++ s) (⟨ty, v⟩ :: l) := by
  refine ⟨?_, ?_, ?_, ?_, ?_⟩
  · rw [List.filter_append, filter_tidy ht, ← h.parens, Rules.parens, Rules.parens]
    by_cases hc : v = ['('] ∨ v = [')']
    · rw [if_pos hc, List.filter_cons_of_pos (by simpa [parenTok] using hc), List.flatMap_cons]
    · rw [if_neg hc, List.filter_cons_of_neg (by simpa [parenTok] using hc), List.nil_append]
  · cases l with
    | nil => exact List.IsChain.singleton _
    | cons u l =>
      refine List.isChain_cons_cons.2 ⟨fun hu => ?_, h.chain⟩
      obtain ⟨q, h1, h2, h3⟩ := h.head u rfl hu
      obtain ⟨w, x, e1, e2⟩ := after_some v p hv
      rw [e2, Option.some.injEq] at h1
      subst h1
      constructor
      · cases hbl : isBlank ⟨ty, v⟩ with
        | false => rfl
        | true => rw [hb hbl x (by rw [e1]; simp)] at h2; cases h2
      · cases hpt : parenTok ⟨ty, v⟩ with
        | false => rfl
        | true =>
          simp only [parenTok, Bool.or_eq_true, beq_iff_eq] at hpt
          exfalso
          rcases hpt with e | e
          · rw [e] at e1
            have : x = '(' := by
              have := congrArg List.getLast? e1
              simpa using this.symm
            rw [this] at h3; cases h3
          · rw [e] at e1
            have : x = ')' := by
              have := congrArg List.getLast? e1
              simpa using this.symm
            rw [this] at h3; cases h3
  · intro t htt hdot
    simp only [List.head?_cons, Option.mem_some_iff] at htt
    subst htt
    exact hd (by simpa [isDot] using hdot)
  · intro t htt hpar
    rcases List.mem_cons.1 htt with rfl | htt
    · exact hp hpar
    · exact h.kind t htt hpar
  · intro t htt
    rcases List.mem_cons.1 htt with rfl | htt
    · exact hv
    · exact h.full t htt

theorem space_of_blank {k : Classes} (hk : k.Ok) {e : Entry} {b a : List Char} {n : Nat}
    (he : e.1 = eol ∨ e.1 = .seq (.chr .space) (.lazy (.chr .space))) (h : e.1.match' k b a = some n) :
    ∀ x ∈ a.take n, k.space x = true := by
  obtain ⟨v, a', h1, h2, _, h4, _, _⟩ := Re.match'_took h
  have hv : a.take n = v := by rw [h1, ← h2, List.take_left]
  rw [hv]
  intro x hx
  have := h4 x hx
  rcases he with he | he
  · rw [he] at this
    simp only [eol, anyOf, one, Re.takes, Set1.has, Bool.or_eq_true, beq_iff_eq] at this
    have : x = '\r' ∨ x = '\n' := by
      rcases this with (h | h) | h | h
      · exact .inl h
      · exact .inr h
      · exact .inl h
      · exact .inr h
    rcases this with rfl | rfl
    · rw [hk.space _ (by decide)]; decide
    · rw [hk.space _ (by decide)]; decide
  · rw [he] at this
    simpa [Re.takes, Set1.has] using this

theorem tidy_one {c : Char} (h : plainChar c = true) : Tidy [c] := by
  refine ⟨?_, ?_, ?_⟩
  · intro hm
    rw [List.mem_singleton] at hm
    subst hm
    cases h
  · intro hm
    rw [List.mem_singleton] at hm
    subst hm
    cases h
  · intro x hx _
    rw [List.mem_singleton] at hx
    rw [hx]

/-- The tokens of such a text. -/
theorem lex_shaped {k : Classes} (hk : k.Ok) {kw : List Char → TType} (hkw : KwOk kw) :
    ∀ (m : Nat) (a : List Char), a.length ≤ m → ∀ (n : Nat) (b : List Char) (p : Option Char) (s : List Char) (l : List Token),
      Plain k p a s → (∀ y, y <:+ a → zoneQuote k y = false) → lexFrom (rules k kw) n b a = .ok l → Shaped k p s l := by
  intro m
  induction m with
  | zero =>
    intro a ha n b p s l h _ hl
    have : a = [] := List.length_eq_zero_iff.1 (Nat.le_zero.1 ha)
    subst this
    have hl' : l = [] := by cases n <;> (rw [lexFrom] at hl; cases hl; rfl)
    cases h
    rw [hl']
    exact ⟨rfl, List.IsChain.nil, by simp, by simp, by simp⟩
  | succ m ih =>
    intro a ha n b p s l h hz hl
    have hpos := rules_positive k kw
    cases h with
    | nil =>
      have hl' : l = [] := by cases n <;> (rw [lexFrom] at hl; cases hl; rfl)
      rw [hl']
      exact ⟨rfl, List.IsChain.nil, by simp, by simp, by simp⟩
    | @literal _ v r s hb hr hp =>
      obtain ⟨act, h1, h2⟩ := first_literal hk kw hb hr b
      cases n with
      | zero => simp [lexFrom] at hl
      | succ n =>
        rw [lexFrom, h1] at hl
        simp only at hl
        have e1 : ('\'' :: (v ++ '\'' :: r)).take (v.length + 1 + 1) = '\'' :: (v ++ ['\'']) := by
          rw [List.take_succ_cons, show v ++ '\'' :: r = (v ++ ['\'']) ++ r by simp,
            show v.length + 1 = (v ++ ['\'']).length by simp, List.take_left]
        have e2 : ('\'' :: (v ++ '\'' :: r)).drop (v.length + 1 + 1) = r := by
          rw [List.drop_succ_cons, show v ++ '\'' :: r = (v ++ ['\'']) ++ r by simp,
            show v.length + 1 = (v ++ ['\'']).length by simp, List.drop_left]
        rw [e1, e2] at hl
        split at hl
        · cases hl
        · rename_i l' hl'
          cases hl
          rw [h2]
          refine Shaped.quote (.inl rfl) (ih r (by simp at ha; omega) _ _ _ _ _ hp (fun y hy => hz y ?_) hl') rfl
          exact hy.trans ⟨'\'' :: (v ++ ['\'']), by simp⟩
    | @name _ v r s hb hr hp =>
      obtain ⟨act, h1, h2⟩ := first_name hk kw hb hr b
      cases n with
      | zero => simp [lexFrom] at hl
      | succ n =>
        rw [lexFrom, h1] at hl
        simp only at hl
        have e1 : ('`' :: (v ++ '`' :: r)).take (v.length + 1 + 1) = '`' :: (v ++ ['`']) := by
          rw [List.take_succ_cons, show v ++ '`' :: r = (v ++ ['`']) ++ r by simp,
            show v.length + 1 = (v ++ ['`']).length by simp, List.take_left]
        have e2 : ('`' :: (v ++ '`' :: r)).drop (v.length + 1 + 1) = r := by
          rw [List.drop_succ_cons, show v ++ '`' :: r = (v ++ ['`']) ++ r by simp,
            show v.length + 1 = (v ++ ['`']).length by simp, List.drop_left]
        rw [e1, e2] at hl
        split at hl
        · cases hl
        · rename_i l' hl'
          cases hl
          rw [h2]
          refine Shaped.quote (.inr rfl) (ih r (by simp at ha; omega) _ _ _ _ _ hp (fun y hy => hz y ?_) hl') rfl
          exact hy.trans ⟨'`' :: (v ++ ['`']), by simp⟩
    | @char _ c r s hc hd hdot hp =>
      have whole : Plain k p (c :: r) (c :: s) := .char hc hd hdot hp
      obtain ⟨v, a', ty, l', m', e, hv, rfl, hl', hh⟩ := lexFrom_step hpos hl
      have tidy : Tidy v := by
        rcases hh with ⟨rfl, _, _⟩ | ⟨n', act, hm, e', _⟩
        · exact tidy_one hc
        · obtain ⟨en, he, hm', _⟩ := firstMatch_mem hm
          rw [e']
          exact match_tidy hk he hc hd hz hm'
      rw [e] at whole
      obtain ⟨s', es, hp'⟩ := whole.past v tidy.1 tidy.2.1
      rw [es]
      have hlen : a'.length ≤ m := by
        have h1 := congrArg List.length e
        rw [List.length_append] at h1
        have h2 : 0 < v.length := List.length_pos_iff.2 hv
        simp only [List.length_cons] at h1 ha
        omega
      refine Shaped.plain tidy hv (ih a' hlen _ _ _ _ _ hp' (fun y hy => hz y (hy.trans ⟨v, e.symm⟩)) hl') ?_ ?_ ?_
      · intro hb
        rcases hh with ⟨_, rfl, _⟩ | ⟨n', act, hm, e', ht⟩
        · exact absurd hb (by simp [isBlank, ErrorT, Whitespace])
        · obtain ⟨en, he, hm', ha'⟩ := firstMatch_mem hm
          rw [e']
          cases h2 : en.2 with
          | none =>
            exfalso
            have : ty = kw v := by rw [ht, ha']; simp only [toRule, h2]
            rw [isBlank, this] at hb
            have := blank_isIn hb
            rw [(hkw v).1] at this
            cases this
          | some ty' =>
            have : ty = ty' := by rw [ht, ha']; simp only [toRule, h2]
            rw [isBlank, this] at hb
            exact space_of_blank hk (blank_rules en he ty' h2 hb) hm'
      · intro hpt
        have hcp : c = '(' ∨ c = ')' := by
          simp only [parenTok, Bool.or_eq_true, beq_iff_eq] at hpt
          rcases hpt with rfl | rfl
          · simp only [List.cons_append, List.cons.injEq] at e; exact .inl e.1
          · simp only [List.cons_append, List.cons.injEq] at e; exact .inr e.1
        rcases hh with ⟨_, rfl, _⟩ | ⟨n', act, hm, e', ht⟩
        · exact ⟨by decide, by decide, by simp [isBlank, ErrorT, Whitespace]⟩
        · obtain ⟨en, he, hm', ha'⟩ := firstMatch_mem hm
          have hst : (en.1.starts ascii '(' || en.1.starts ascii ')') = true := by
            by_contra hno
            simp only [Bool.or_eq_true, not_or, Bool.not_eq_true] at hno
            have hpos' : 1 ≤ en.1.least := (show ∀ e ∈ entries, 1 ≤ e.1.least by decide +kernel) en he
            rcases hcp with rfl | rfl
            · rw [no_match hk (by decide) hno.1 hpos'] at hm'; cases hm'
            · rw [no_match hk (by decide) hno.2 hpos'] at hm'; cases hm'
          have h2 := paren_rules en he hst
          have : ty = Punctuation := by rw [ht, ha']; simp only [toRule, h2]
          rw [this]
          exact ⟨by decide, by decide, by simp [isBlank, Punctuation, Whitespace]⟩
      · intro hdv
        rw [hdv, List.cons_append, List.cons.injEq] at e
        exact hdot e.1

end EulerDB.Rules
