/-
C85: the limit of a query.
-/
import Verif.Values.Props

namespace EulerDB.Values

open EulerDB.Lex EulerDB.Group EulerDB.Rules

/-- No number comes right after a punctuation; the flag tells it of the token before. -/
def calm : Bool → List Token → Bool
  | _, [] => true
  | b, t :: r => !(t.ttype == Integer && b) && calm (t.ttype == Punctuation) r

/-- Is the last token a punctuation? -/
def endsPunct : Bool → List Token → Bool
  | b, [] => b
  | _, t :: r => endsPunct (t.ttype == Punctuation) r

def semicolon : Token := ⟨Punctuation, [';']⟩
def number (n : Nat) : Token := ⟨Integer, Text.intStr n⟩

theorem limit_skip {prev : Option VTok} {s : Limits} {p : PTok} {ty : TType} {r : List VTok} (h : (ty == Integer) = false) :
    limitFrom prev s (⟨p, ty⟩ :: r) = limitFrom (some ⟨p, ty⟩) s r := by
  rw [limitFrom, show (⟨p, ty⟩ : VTok).integer = false from h, Bool.and_false, if_neg (by simp)]

theorem limit_quiet {prev : Option VTok} {s : Limits} {t : VTok} {r : List VTok} (h1 : t.p.lastKeyword ≠ "LIMIT")
    (h2 : t.p.lastKeyword ≠ "OFFSET") (h3 : (t.integer && prev.any VTok.punct) = false) :
    limitFrom prev s (t :: r) = limitFrom (some t) s r := by
  cases hi : t.integer with
  | false => exact limit_skip (p := t.p) hi
  | true =>
    rw [hi, Bool.true_and] at h3
    rw [limitFrom, beq_eq_false_iff_ne.2 h1, beq_eq_false_iff_ne.2 h2, h3]
    simp only [Bool.false_and, Bool.or_false, Bool.false_eq_true, if_false]
    cases Text.parseInt t.p.value <;> simp

/-- What is before the limit changes nothing if no number in it is after a punctuation. -/
theorem run_calm : ∀ (l : List Token) (pos : Nat) (made : List PTok) (bk bk' : Book) (vs : List VTok) (prev : Option VTok) (b : Bool),
    prev.any VTok.punct = b → calm b l = true → bk.last ≠ "LIMIT" → bk.last ≠ "OFFSET" → (∀ t ∈ l, keyed "LIMIT" t = false) →
    (∀ t ∈ l, keyed "OFFSET" t = false) → run pos made bk l = .ok (vs, bk') → ∃ prev' : Option VTok, prev'.any VTok.punct = endsPunct b l ∧
      ∀ s w, limitFrom prev s (vs ++ w) = limitFrom prev' s w
  | [], _, _, _, _, _, prev, b, hb, _, _, _, _, _, h => by cases h; exact ⟨prev, hb, fun _ _ => rfl⟩
  | t :: r, pos, made, bk, bk', vs, prev, b, hb, hc, h1, h2, k1, k2, h => by
    obtain ⟨p, bk1, l, g1, g2, rfl⟩ := run_cons h
    obtain ⟨g3, _, _, _, b', g4, g5⟩ := onToken_last g1
    rw [calm, Bool.and_eq_true] at hc
    have n1 : bk1.last ≠ "LIMIT" := by rw [g5]; exact lastKeyword_not (k1 t (List.mem_cons_self ..)) (by rw [g4]; exact h1)
    have n2 : bk1.last ≠ "OFFSET" := by rw [g5]; exact lastKeyword_not (k2 t (List.mem_cons_self ..)) (by rw [g4]; exact h2)
    obtain ⟨prev', e1, e2⟩ := run_calm r _ _ _ _ _ (some ⟨p, t.ttype⟩) (t.ttype == Punctuation) rfl hc.2 n1 n2
      (fun u hu => k1 u (List.mem_cons_of_mem _ hu)) (fun u hu => k2 u (List.mem_cons_of_mem _ hu)) g2
    refine ⟨prev', e1, fun s w => ?_⟩
    rw [List.cons_append, limit_quiet (by rw [g3]; exact h1) (by rw [g3]; exact h2), e2]
    rw [hb]
    have := hc.1
    rw [Bool.not_eq_true'] at this
    exact this

/-- Tokens without numbers change nothing. -/
theorem run_noNumber : ∀ (l : List Token) (pos : Nat) (made : List PTok) (bk bk' : Book) (vs : List VTok) (prev : Option VTok) (s : Limits),
    (∀ t ∈ l, t.ttype ≠ Integer) → run pos made bk l = .ok (vs, bk') → limitFrom prev s vs = .ok s
  | [], _, _, _, _, _, _, _, _, h => by cases h; rfl
  | t :: r, pos, made, bk, bk', vs, prev, s, hn, h => by
    obtain ⟨p, bk1, l, _, g2, rfl⟩ := run_cons h
    rw [limit_skip (beq_eq_false_iff_ne.2 (hn t (List.mem_cons_self ..)))]
    exact run_noNumber r _ _ _ _ _ _ _ (fun u hu => hn u (List.mem_cons_of_mem _ hu)) g2

/-- The three ways to write a limit, with what MySQL takes for the limit and the offset. -/
inductive Clause : List Token → Nat → Nat → Prop
  | one {k : Token} (n : Nat) : Word "LIMIT" k → Clause [k, number n] n 0
  | comma {k : Token} (o n : Nat) : Word "LIMIT" k → Clause [k, number o, comma, number n] n o
  | offset {k f : Token} (n o : Nat) : Word "LIMIT" k → Word "OFFSET" f → Clause [k, number n, f, number o] n o

/-- A query as its tokens: what is before the limit, the limit and what follows it. -/
structure Query (st pre lim post : List Token) : Prop where
  toks : st.filter (fun t => !isBlank t) = pre ++ (lim ++ post)
  digits : digits st = false
  first : ∃ t r w, pre = t :: r ∧ Word w t ∧ w ∈ starters
  noLimit : ∀ t ∈ pre, keyed "LIMIT" t = false
  noOffset : ∀ t ∈ pre, keyed "OFFSET" t = false
  closed : ∃ d, closes 0 (parens pre) = some d
  after : ∀ t ∈ post, parenTok t = false ∧ t.ttype ≠ Integer
  dots : ∀ t ∈ pre ++ post, isDot t = false

theorem word_integer {w : String} {t : Token} (h : Word w t) : (t.ttype == Integer) = false :=
  beq_eq_false_iff_ne.2 (h.type Integer rfl)

theorem word_punct {w : String} {t : Token} (h : Word w t) : (t.ttype == Punctuation) = false :=
  beq_eq_false_iff_ne.2 (h.type Punctuation rfl)

theorem number_plain (n : Nat) : parenTok (number n) = false ∧ isDot (number n) = false ∧ isKeywordTok (number n) = false :=
  ⟨(C85_number n).paren, (C85_number n).dot, (C85_number n).key⟩

theorem onToken_number {n : Nat} {pos : Nat} {made : List PTok} {bk bk' : Book} {p : PTok}
    (h : onToken (number n) (unquote (number n).value) pos made bk = .ok (p, bk')) :
    bk' = bk ∧ p.lastKeyword = bk.last ∧ (⟨p, (number n).ttype⟩ : VTok).open' = true ∧ Text.parseInt p.value = .ok (n : Int) := by
  obtain ⟨h1, _, h2, h3⟩ := onToken_cell (number_plain n).1 (number_plain n).2.2 h
  exact ⟨h1, h2, cell_open (C85_number n) h, by rw [h3]; exact (unquote_int n).symm ▸ Text.parseInt_intStr n⟩

theorem limit_number {prev : Option VTok} {s : Limits} {t : VTok} {r : List VTok} {n : Int} (ho : t.open' = true) (hi : t.integer = true)
    (hn : Text.parseInt t.p.value = .ok n) :
    limitFrom prev s (t :: r) =
      if t.p.lastKeyword == "LIMIT" && unset s.limit then limitFrom (some t) { s with limit := some n } r
      else if t.p.lastKeyword == "OFFSET" then limitFrom (some t) { s with offset := some n } r
      else if prev.any VTok.punct then limitFrom (some t) ⟨some n, s.limit⟩ r
      else limitFrom (some t) s r := by
  rw [limitFrom, ho, hi, hn]
  simp

/-- The clause, whatever was before it. -/
theorem run_clause {lim : List Token} {n o : Nat} (hc : Clause lim n o) {post : List Token} (hp : ∀ t ∈ post, t.ttype ≠ Integer) {pos : Nat}
    {made : List PTok} {bk bk' : Book} {vs : List VTok} (h : run pos made bk (lim ++ post) = .ok (vs, bk')) (prev : Option VTok) :
    ∃ s, limitFrom prev ⟨none, none⟩ vs = .ok s ∧ s.result = some ((n : Int), (o : Int)) := by
  cases hc with
  | @one k n hk =>
    obtain ⟨p1, b1, l1, h1, h2, rfl⟩ := run_cons h
    obtain ⟨a1, _, _⟩ := onToken_word hk (by decide) (by decide) (by decide) (by decide) h1
    obtain ⟨p2, b2, l2, h3, h4, rfl⟩ := run_cons h2
    obtain ⟨rfl, c2, c3, c4⟩ := onToken_number h3
    rw [limit_skip (word_integer hk), limit_number c3 rfl c4, c2, a1]
    refine ⟨⟨some n, none⟩, ?_, rfl⟩
    rw [if_pos (by rfl)]
    exact run_noNumber post _ _ _ _ _ _ _ hp h4
  | @comma k o n hk =>
    obtain ⟨p1, b1, l1, h1, h2, rfl⟩ := run_cons h
    obtain ⟨a1, _, _⟩ := onToken_word hk (by decide) (by decide) (by decide) (by decide) h1
    obtain ⟨p2, b2, l2, h3, h4, rfl⟩ := run_cons h2
    obtain ⟨rfl, c2, c3, c4⟩ := onToken_number h3
    obtain ⟨p3, b3, l3, h5, h6, rfl⟩ := run_cons h4
    obtain ⟨rfl, _, _, _⟩ := onToken_cell (show parenTok Values.comma = false by decide) key_comma h5
    obtain ⟨p4, b4, l4, h7, h8, rfl⟩ := run_cons h6
    obtain ⟨rfl, e2, e3, e4⟩ := onToken_number h7
    rw [limit_skip (word_integer hk), limit_number c3 rfl c4, c2, a1, if_pos (by rfl), limit_skip rfl, limit_number e3 rfl e4, e2, a1]
    by_cases ho : o = 0
    · subst ho
      refine ⟨⟨some n, none⟩, ?_, rfl⟩
      rw [if_pos (by rfl)]
      exact run_noNumber post _ _ _ _ _ _ _ hp h8
    · refine ⟨⟨some n, some o⟩, ?_, rfl⟩
      have : unset (some (o : Int)) = false := by
        rw [unset, beq_eq_false_iff_ne]; omega
      rw [this, if_neg (by simp), if_neg (by decide), if_pos (by rfl)]
      exact run_noNumber post _ _ _ _ _ _ _ hp h8
  | @offset k f n o hk hf =>
    obtain ⟨p1, b1, l1, h1, h2, rfl⟩ := run_cons h
    obtain ⟨a1, _, _⟩ := onToken_word hk (by decide) (by decide) (by decide) (by decide) h1
    obtain ⟨p2, b2, l2, h3, h4, rfl⟩ := run_cons h2
    obtain ⟨rfl, c2, c3, c4⟩ := onToken_number h3
    obtain ⟨p3, b3, l3, h5, h6, rfl⟩ := run_cons h4
    obtain ⟨d1, _, _⟩ := onToken_word hf (by decide) (by decide) (by decide) (by decide) h5
    obtain ⟨p4, b4, l4, h7, h8, rfl⟩ := run_cons h6
    obtain ⟨rfl, e2, e3, e4⟩ := onToken_number h7
    rw [limit_skip (word_integer hk), limit_number c3 rfl c4, c2, a1, if_pos (by rfl), limit_skip (word_integer hf), limit_number e3 rfl e4, e2, d1]
    refine ⟨⟨some n, some o⟩, ?_, rfl⟩
    rw [if_neg (by simp), if_pos (by rfl)]
    exact run_noNumber post _ _ _ _ _ _ _ hp h8

theorem clause_plain {lim : List Token} {n o : Nat} (h : Clause lim n o) : ∀ t ∈ lim, parenTok t = false ∧ isDot t = false := by
  have hn : ∀ n, parenTok (number n) = false ∧ isDot (number n) = false := fun n => ⟨(number_plain n).1, (number_plain n).2.1⟩
  have hcm : parenTok comma = false ∧ isDot comma = false := by decide
  cases h with
  | one n hk => simp [hk.paren, hk.dot, hn]
  | comma o n hk => simp [hk.paren, hk.dot, hn, hcm]
  | offset n o hk hf => simp [hk.paren, hk.dot, hf.paren, hf.dot, hn]

/-- The loop over such a query. -/
theorem Query.toksOf {st pre lim post : List Token} (h : Query st pre lim post) (hlim : ∀ t ∈ lim, parenTok t = false ∧ isDot t = false) :
    ∃ vp bk1 vr bk2 us, run 0 [] .init pre = .ok (vp, bk1) ∧
      run (0 + pre.length) ((vp.map VTok.p).reverse ++ []) bk1 (lim ++ post) = .ok (vr, bk2) ∧
      tokensOf st = .ok us ∧ List.Forall₂ VKin (vp ++ vr) us := by
  obtain ⟨d, hd⟩ := h.closed
  obtain ⟨vp, b1, r1, r2⟩ := run_closes pre 0 [] .init hd
  have hn : ∀ t ∈ lim ++ post, parenTok t = false := by
    intro t ht
    rcases List.mem_append.1 ht with ht | ht
    · exact (hlim t ht).1
    · exact (h.after t ht).1
  obtain ⟨vr, b2, r3, _⟩ := run_closes (lim ++ post) (0 + pre.length) ((vp.map VTok.p).reverse ++ []) b1 (d := b1.opens.length)
    (by rw [parens_none hn]; rfl)
  have h1 : run 0 [] .init (pre ++ (lim ++ post)) = .ok (vp ++ vr, b2) := by rw [run_append pre 0 [] .init _ r1, r3]; rfl
  have hdot : ∀ u ∈ pre ++ (lim ++ post), isDot u = false := by
    intro u hu
    rcases List.mem_append.1 hu with hu | hu
    · exact h.dots u (List.mem_append_left _ hu)
    · rcases List.mem_append.1 hu with hu | hu
      · exact (hlim u hu).2
      · exact h.dots u (List.mem_append_right _ hu)
  obtain ⟨t, r, w, e, hw, hs⟩ := h.first
  have hq : queryType (((vp ++ vr).map VTok.p).map PTok.sql) = .ok (typeByWord t.value) := by
    have h1' := h1
    rw [e, List.cons_append] at h1'
    exact queryType_run h1' (by rw [hw.upper]; exact hs) hw.letters hw.comment
  obtain ⟨us, g1, g2⟩ := tokensOf_run h.toks h.digits hdot h1 hq
  exact ⟨vp, b1, vr, b2, us, r1, r3, g1, g2⟩

/-- A query with a limit, if no number before it follows a punctuation: the limit and the offset are those of MySQL. -/
theorem C85_limit_partial {st pre lim post : List Token} {n o : Nat} (h : Query st pre lim post) (hc : Clause lim n o)
    (hcalm : calm false pre = true) : limits st = .ok (some ((n : Int), (o : Int))) := by
  obtain ⟨vp, b1, vr, b2, us, r1, r2, g1, g2⟩ := h.toksOf (clause_plain hc)
  obtain ⟨prev', _, e⟩ := run_calm pre _ _ _ _ _ none false rfl hcalm (by decide) (by decide) h.noLimit h.noOffset r1
  obtain ⟨s, e1, e2⟩ := run_clause hc (fun t ht => (h.after t ht).2) r2 prev'
  rw [limits, g1]
  dsimp only
  rw [vkin_limits g2 none none _ rfl, e, e1]
  dsimp only
  rw [e2]

/-- And without a limit none is found. -/
theorem C85_no_limit_partial {st pre : List Token} (h : Query st pre [] []) (hcalm : calm false pre = true) : limits st = .ok none := by
  obtain ⟨vp, b1, vr, b2, us, r1, r2, g1, g2⟩ := h.toksOf (by simp)
  obtain ⟨prev', _, e⟩ := run_calm pre _ _ _ _ _ none false rfl hcalm (by decide) (by decide) h.noLimit h.noOffset r1
  cases r2
  rw [limits, g1]
  dsimp only
  rw [vkin_limits g2 none none _ rfl, e]
  rfl

/-! ### Where it fails -/

/-- Numbers are spelled as the lexer spells them. -/
def Spelled (l : List Token) : Prop := ∀ t ∈ l, t.ttype = Integer → ∃ z : Int, t.value = Text.intStr z

/-- Whatever is before, the loop ends. -/
theorem run_spelled : ∀ (l : List Token) (pos : Nat) (made : List PTok) (bk bk' : Book) (vs : List VTok) (prev : Option VTok) (s : Limits),
    Spelled l → run pos made bk l = .ok (vs, bk') → ∃ prev' s', prev'.any VTok.punct = endsPunct (prev.any VTok.punct) l ∧
      ∀ w, limitFrom prev s (vs ++ w) = limitFrom prev' s' w
  | [], _, _, _, _, _, prev, s, _, h => by cases h; exact ⟨prev, s, rfl, fun _ => rfl⟩
  | t :: r, pos, made, bk, bk', vs, prev, s, hs, h => by
    obtain ⟨p, bk1, l, g1, g2, rfl⟩ := run_cons h
    have ih : ∀ s, ∃ prev' s', prev'.any VTok.punct = endsPunct (t.ttype == Punctuation) r ∧
        ∀ w, limitFrom (some ⟨p, t.ttype⟩) s (l ++ w) = limitFrom prev' s' w := fun s =>
      run_spelled r _ _ _ _ _ (some ⟨p, t.ttype⟩) s (fun u hu => hs u (List.mem_cons_of_mem _ hu)) g2
    by_cases hi : t.ttype = Integer
    · obtain ⟨z, hz⟩ := hs t (List.mem_cons_self ..) hi
      have ht : t = ⟨Integer, Text.intStr z⟩ := by rw [← hi, ← hz]
      have hcell := C85_number z
      rw [← ht] at hcell
      obtain ⟨_, _, _, k3⟩ := onToken_cell hcell.paren hcell.key g1
      have hn : Text.parseInt (⟨p, t.ttype⟩ : VTok).p.value = .ok z := by
        rw [show (⟨p, t.ttype⟩ : VTok).p.value = p.value from rfl, k3, hz, unquote_int, Text.parseInt_intStr]
      have key : ∃ s1, ∀ w, limitFrom prev s (⟨p, t.ttype⟩ :: w) = limitFrom (some ⟨p, t.ttype⟩) s1 w := by
        have e := fun w => limit_number (prev := prev) (s := s) (r := w) (cell_open hcell g1) (show (t.ttype == Integer) = true by rw [hi]; decide) hn
        generalize (VTok.mk p t.ttype) = v at e ⊢
        by_cases c1 : (v.p.lastKeyword == "LIMIT" && unset s.limit) = true
        · exact ⟨_, fun w => (e w).trans (if_pos c1)⟩
        · by_cases c2 : (v.p.lastKeyword == "OFFSET") = true
          · exact ⟨_, fun w => ((e w).trans (if_neg c1)).trans (if_pos c2)⟩
          · by_cases c3 : prev.any VTok.punct = true
            · exact ⟨_, fun w => (((e w).trans (if_neg c1)).trans (if_neg c2)).trans (if_pos c3)⟩
            · exact ⟨_, fun w => (((e w).trans (if_neg c1)).trans (if_neg c2)).trans (if_neg c3)⟩
      obtain ⟨s1, hs1⟩ := key
      obtain ⟨prev', s', e1, e2⟩ := ih s1
      exact ⟨prev', s', e1, fun w => by rw [List.cons_append, hs1, e2]⟩
    · obtain ⟨prev', s', e1, e2⟩ := ih s
      refine ⟨prev', s', e1, fun w => ?_⟩
      rw [List.cons_append, limit_skip (beq_eq_false_iff_ne.2 hi), e2]

theorem endsPunct_append : ∀ (a b : List Token) (f : Bool), endsPunct f (a ++ b) = endsPunct (endsPunct f a) b
  | [], _, _ => rfl
  | _ :: a, b, _ => endsPunct_append a b _

/-- A number that is not 0 after a punctuation, as in `IN (1, 2)`, is taken for the limit, whatever limit follows. -/
theorem C85_fails_list {st a b : List Token} {q k : Token} {z : Int} {n : Nat} (hq : q.ttype = Punctuation) (hz : z ≠ 0) (hk : Word "LIMIT" k)
    (h : Query st (a ++ q :: ⟨Integer, Text.intStr z⟩ :: b) [k, number n] []) (ha : Spelled a) (hb : calm false b = true) :
    ∃ o, limits st = .ok (some (z, o)) := by
  obtain ⟨vp, b1, vr, b2, us, r1, r2, g1, g2⟩ := h.toksOf (clause_plain (.one n hk))
  have r1' := r1
  -- the tokens before the number
  have hsplit : a ++ q :: ⟨Integer, Text.intStr z⟩ :: b = (a ++ [q]) ++ (⟨Integer, Text.intStr z⟩ :: b) := by simp
  rw [hsplit] at r1'
  obtain ⟨d, hd⟩ := h.closed
  have hcl : ∃ d1, closes 0 (parens (a ++ [q])) = some d1 := by
    rw [hsplit, parens_append, closes_append] at hd
    cases hc : closes 0 (parens (a ++ [q])) with
    | none => rw [hc] at hd; cases hd
    | some d1 => exact ⟨d1, rfl⟩
  obtain ⟨d1, hd1⟩ := hcl
  obtain ⟨va, ba, ra, _⟩ := run_closes (a ++ [q]) 0 [] .init hd1
  rw [run_append _ 0 [] .init _ ra] at r1'
  cases hr : run (0 + (a ++ [q]).length) ((va.map VTok.p).reverse ++ []) ba (⟨Integer, Text.intStr z⟩ :: b) with
  | error e => rw [hr] at r1'; cases r1'
  | ok x =>
    obtain ⟨vx, bx⟩ := x
    rw [hr] at r1'
    cases r1'
    have hsp : Spelled (a ++ [q]) := by
      intro t ht hti
      rcases List.mem_append.1 ht with ht | ht
      · exact ha t ht hti
      · rw [List.mem_singleton.1 ht, hq] at hti
        exact absurd hti (by decide)
    obtain ⟨prev1, s1, p1, e1⟩ := run_spelled (a ++ [q]) _ _ _ _ _ none ⟨none, none⟩ hsp ra
    rw [endsPunct_append, endsPunct, endsPunct, hq] at p1
    have nk : ∀ w, (∀ t ∈ a ++ q :: ⟨Integer, Text.intStr z⟩ :: b, keyed w t = false) → (∀ t ∈ a ++ [q], keyed w t = false) ∧
        ∀ t ∈ b, keyed w t = false := fun w hw =>
      ⟨fun t ht => hw t (by rw [hsplit]; exact List.mem_append_left _ ht),
        fun t ht => hw t (by rw [hsplit]; exact List.mem_append_right _ (List.mem_cons_of_mem _ ht))⟩
    have n1 := (run_not _ "LIMIT" _ _ _ _ _ (by decide) (nk _ h.noLimit).1 ra).1
    have n2 := (run_not _ "OFFSET" _ _ _ _ _ (by decide) (nk _ h.noOffset).1 ra).1
    -- the number
    obtain ⟨p, bp, l, h1, h2, rfl⟩ := run_cons hr
    obtain ⟨rfl, _, k2, k3⟩ := onToken_cell (C85_number z).paren (C85_number z).key h1
    have hn : Text.parseInt p.value = .ok z := by rw [k3]; exact (unquote_int z).symm ▸ Text.parseInt_intStr z
    obtain ⟨prev2, _, e2⟩ := run_calm b _ _ _ _ _ (some ⟨p, Integer⟩) false rfl hb n1 n2 (nk _ h.noLimit).2 (nk _ h.noOffset).2 h2
    -- the limit
    obtain ⟨p3, b3, l3, h3, h4, rfl⟩ := run_cons r2
    obtain ⟨a1, _, _⟩ := onToken_word hk (by decide) (by decide) (by decide) (by decide) h3
    obtain ⟨p4, b4, l4, h5, h6, rfl⟩ := run_cons h4
    obtain ⟨rfl, c2, c3, c4⟩ := onToken_number h5
    cases h6
    refine ⟨s1.limit.getD 0, ?_⟩
    rw [limits, g1]
    dsimp only
    rw [vkin_limits g2 none none _ rfl, List.append_assoc, e1, List.cons_append, limit_number (cell_open (C85_number z) h1) rfl hn,
      if_neg (by rw [k2, beq_eq_false_iff_ne.2 n1]; simp), if_neg (by rw [k2, beq_eq_false_iff_ne.2 n2]; simp), if_pos (by rw [p1]; decide), e2,
      limit_skip (word_integer hk), limit_number c3 rfl c4, c2, a1]
    have : unset (some z) = false := by rw [unset, beq_eq_false_iff_ne]; exact hz
    rw [this, if_neg (by simp), if_neg (by decide), if_neg (by rw [Option.any_some, VTok.punct, word_punct hk]; simp)]
    rfl

end EulerDB.Values
