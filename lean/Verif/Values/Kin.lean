/-
That grouping may turn a `*` into an operator does not matter for the values and the limit.
-/
import Verif.Values.Rows

namespace EulerDB.Values

open EulerDB.Lex EulerDB.Group EulerDB.Rules

theorem kin_type {a b : Token} (h : Kin a b) (ty : TType) (h1 : ty ≠ Operator) (h2 : ty ≠ Wildcard) : (b.ttype == ty) = (a.ttype == ty) := by
  rcases h.2 with e | ⟨e, e'⟩
  · rw [e]
  · rw [e', beq_eq_false_iff_ne.2 (Ne.symm h1)]
    rcases e with e | e
    · rw [e, beq_eq_false_iff_ne.2 (Ne.symm h1)]
    · rw [e, beq_eq_false_iff_ne.2 (Ne.symm h2)]

theorem kin_key {a b : Token} (h : Kin a b) : isKeywordTok b = isKeywordTok a := by
  rcases h.2 with e | ⟨e, e'⟩
  · rw [isKeywordTok, isKeywordTok, e]
  · rw [isKeywordTok, isKeywordTok, e']
    rcases e with e | e
    · rw [e]
    · rw [e]; decide

theorem kin_lastKeyword {a b : Token} (h : Kin a b) (v : List Char) (made : List PTok) (bk : Book) :
    lastKeyword b v made bk = lastKeyword a v made bk := by
  rw [lastKeyword, lastKeyword, kin_key h]

theorem kin_onToken {a b : Token} (h : Kin a b) (v : List Char) (pos : Nat) (made : List PTok) (bk : Book) :
    onToken b v pos made bk = onToken a v pos made bk := by
  simp only [onToken, kin_lastKeyword h, h.1, kin_comment h, kin_type h Keyword (by decide) (by decide)]

theorem kin_isPart {a b : Token} {l m : List Token} (h : Kin a b) (g : List.Forall₂ Kin l m) : isPart b m = isPart a l := by
  rw [isPart.eq_def, isPart.eq_def, kin_dot h]
  cases g with
  | nil => rfl
  | cons hc _ => simp only [kin_dot hc]

theorem kin_tokensFrom : ∀ {l m : List Token}, List.Forall₂ Kin l m → ∀ (p q : List Token) (flag : Bool) (made : List PTok) (bk : Book),
    List.Forall₂ Kin p q → tokensFrom q flag made bk m = tokensFrom p flag made bk l
  | [], _, h, _, _, _, _, _, _ => by cases h; rfl
  | a :: l, _, h, p, q, flag, made, bk, hpq => by
    cases h with
    | @cons _ b _ m hab hlm =>
      have hn : (q = []) ↔ (p = []) := by cases hpq <;> simp
      rw [tokensFrom, tokensFrom, kin_isPart hab hlm, kin_combine p q _ hpq, hab.1, hpq.length_eq, kin_onToken hab]
      simp only [ne_eq, hn]
      rw [kin_tokensFrom hlm (a :: p) (b :: q) true made bk (.cons hab hpq)]
      cases onToken a (if flag = true then combine p (unquote a.value) else unquote a.value) q.length made bk with
      | error e => rfl
      | ok x => simp only [kin_tokensFrom hlm (a :: p) (b :: q) false (x.1 :: made) x.2 (.cons hab hpq)]

/-- Two tokens of the parser that differ at most as grouping makes them differ. -/
def VKin (a b : VTok) : Prop :=
  b.p = a.p ∧ (b.ttype = a.ttype ∨ ((a.ttype = Operator ∨ a.ttype = Wildcard) ∧ b.ttype = Operator))

theorem vkin_type {a b : VTok} (h : VKin a b) (ty : TType) (h1 : ty ≠ Operator) (h2 : ty ≠ Wildcard) : (b.ttype == ty) = (a.ttype == ty) :=
  kin_type (a := ⟨a.ttype, []⟩) (b := ⟨b.ttype, []⟩) ⟨rfl, h.2⟩ ty h1 h2

theorem vkin_typed {l m : List Token} (h : List.Forall₂ Kin l m) (ps : List PTok) : List.Forall₂ VKin (typed l ps) (typed m ps) := by
  induction ps with
  | nil => exact .nil
  | cons p ps ih =>
    refine .cons ⟨rfl, ?_⟩ ih
    dsimp only
    by_cases hp : p.position < l.length
    · have hp' : p.position < m.length := by rw [← h.length_eq]; exact hp
      rw [List.getElem?_eq_getElem hp, List.getElem?_eq_getElem hp']
      exact (List.forall₂_iff_get.1 h).2 _ hp hp' |>.2
    · have hp' : ¬ p.position < m.length := by rw [← h.length_eq]; exact hp
      rw [List.getElem?_eq_none (by omega), List.getElem?_eq_none (by omega)]
      exact .inl rfl

theorem vkin_open {a b : VTok} (h : VKin a b) : b.open' = a.open' := by rw [VTok.open', VTok.open', h.1]
theorem vkin_punct {a b : VTok} (h : VKin a b) : b.punct = a.punct := vkin_type h _ (by decide) (by decide)
theorem vkin_integer {a b : VTok} (h : VKin a b) : b.integer = a.integer := vkin_type h _ (by decide) (by decide)

theorem vkin_readVal {a b : VTok} (h : VKin a b) : readVal b.ttype b.p.value = readVal a.ttype a.p.value := by
  rw [readVal, readVal, vkin_type h Integer (by decide) (by decide), vkin_type h Group.Float (by decide) (by decide), h.1]

theorem vkin_values : ∀ {l m : List VTok}, List.Forall₂ VKin l m → valuesFrom m = valuesFrom l
  | [], _, h => by cases h; rfl
  | a :: l, _, h => by
    cases h with
    | @cons _ b _ m hab hlm =>
      have hn : nextPunct m = nextPunct l := by
        cases hlm with
        | nil => rfl
        | cons h1 _ => exact vkin_punct h1
      rw [valuesFrom, valuesFrom, vkin_readVal hab, vkin_open hab, hab.1, hn, vkin_values hlm]

theorem vkin_limits : ∀ {l m : List VTok}, List.Forall₂ VKin l m → ∀ (p q : Option VTok) (s : Limits),
    q.any VTok.punct = p.any VTok.punct → limitFrom q s m = limitFrom p s l
  | [], _, h, _, _, _, _ => by cases h; rfl
  | a :: l, _, h, p, q, s, hp => by
    cases h with
    | @cons _ b _ m hab hlm =>
      have ih : ∀ s, limitFrom (some b) s m = limitFrom (some a) s l := fun s => vkin_limits hlm _ _ s (vkin_punct hab)
      rw [limitFrom, limitFrom, vkin_open hab, vkin_integer hab, hab.1, hp]
      simp only [ih]

/-- The tokens of a statement without a number right before a name: those of the loop over the tokens of the lexer, but for the types
of the `*`. -/
theorem tokensOf_kin {st : List Token} (hd : digits st = false) {ps : List PTok} {ty : String} (h1 : parserToks st = .ok ps)
    (h2 : queryType (ps.map PTok.sql) = .ok ty) :
    ∃ vs, tokensOf st = .ok vs ∧ List.Forall₂ VKin (typed (st.filter fun t => !isBlank t) ps) vs := by
  obtain ⟨_, k, h3, _, _⟩ := C75_tokens st
  have h4 := C75_each_token h3 hd
  have h5 : parserToks k = parserToks st := kin_tokensFrom (kin_filter h4) [] [] false [] .init .nil
  refine ⟨typed (k.filter fun t => !isBlank t) ps, ?_, vkin_typed (kin_filter h4) ps⟩
  rw [tokensOf, h3]
  dsimp only
  rw [h5, h1]
  dsimp only
  rw [h2]

/-- The same from the loop for tokens without dots. -/
theorem tokensOf_run {st l : List Token} (hl : st.filter (fun t => !isBlank t) = l) (hd : digits st = false) (hdot : ∀ t ∈ l, isDot t = false)
    {vs : List VTok} {bk : Book} (h : run 0 [] .init l = .ok (vs, bk)) {ty : String} (hq : queryType ((vs.map VTok.p).map PTok.sql) = .ok ty) :
    ∃ us, tokensOf st = .ok us ∧ List.Forall₂ VKin vs us := by
  have h1 : parserToks st = .ok (vs.map VTok.p) := by
    rw [parserToks, hl, tokensFrom_run l [] [] .init hdot (by simp), List.length_nil, h]
    rfl
  obtain ⟨us, g1, g2⟩ := tokensOf_kin hd h1 hq
  rw [hl, run_typed l 0 [] .init l h rfl] at g2
  exact ⟨us, g1, g2⟩

/-- A statement that begins with one of the words has a type. -/
theorem queryType_run {t : Token} {r : List Token} {vs : List VTok} {bk : Book} (h : run 0 [] .init (t :: r) = .ok (vs, bk))
    (hw : upper t.value ∈ starters) (ha : ∀ c ∈ t.value, c.isAlpha = true) (hc : isCommentType t.ttype = false) :
    queryType ((vs.map VTok.p).map PTok.sql) = .ok (typeByWord t.value) := by
  have hp : parenTok t = false := by
    rw [parenTok, Bool.or_eq_false_iff, beq_eq_false_iff_ne, beq_eq_false_iff_ne]
    exact ⟨fun e => absurd (ha '(' (by rw [e]; simp)) (by decide), fun e => absurd (ha ')' (by rw [e]; simp)) (by decide)⟩
  obtain ⟨p, bk1, l, h1, h2, rfl⟩ := run_cons h
  obtain ⟨p', bk', h3, _, h4⟩ := onToken_plain hp (unquote t.value) 0 [] .init
  rw [h1] at h3
  cases h3
  rw [List.map_cons, List.map_cons]
  rw [unquote_word ha] at h4
  rw [show (⟨p, t.ttype⟩ : VTok).p.sql = _ from h4]
  exact queryType_first rfl hc hw ha

end EulerDB.Values
