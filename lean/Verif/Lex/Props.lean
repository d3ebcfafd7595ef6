/-
C44: tokenising and splitting lose nothing.
-/
import Verif.Lex.Model

namespace EulerDB.Lex

theorem Rx.min_le {r : Rx} {n : Nat} (h : Rx.Len r n) : r.min ≤ n := by
  induction h with
  | eps => simp [Rx.min]
  | one => simp [Rx.min]
  | seq _ _ h1 h2 => simp only [Rx.min]; omega
  | altL _ h => exact Nat.le_trans (Nat.min_le_left _ _) h
  | altR _ h => exact Nat.le_trans (Nat.min_le_right _ _) h
  | starNil => simp [Rx.min]
  | starCons _ _ _ _ => simp [Rx.min]

/-- Every one of the 47 rules of the code matches at least one character. -/
theorem C44_rules_nonempty : sqlRules.length = 47 ∧
    ∀ r ∈ sqlRules, ∀ n, Rx.Len r n → 1 ≤ n := by
  refine ⟨by decide, fun r hr n hn => Nat.le_trans ?_ (Rx.min_le hn)⟩
  have h : ∀ r ∈ sqlRules, 1 ≤ r.min := by decide
  exact h r hr

/-- No rule matches the empty text. -/
def Positive (rules : List Rule) : Prop :=
  ∀ r ∈ rules, ∀ b a n, r.match' b a = some n → 1 ≤ n

theorem firstMatch_pos {rules : List Rule} (h : Positive rules) {b a n act}
    (hm : firstMatch rules b a = some (n, act)) : 1 ≤ n := by
  induction rules with
  | nil => simp [firstMatch] at hm
  | cons r rs ih =>
    simp only [firstMatch] at hm
    cases hr : r.match' b a with
    | some k =>
      simp only [hr, Option.some.injEq, Prod.mk.injEq] at hm
      have := h r (by simp) b a k hr
      omega
    | none =>
      simp only [hr] at hm
      exact ih (fun r' hr' => h r' (List.mem_cons_of_mem _ hr')) hm

theorem lexFrom_text {rules : List Rule} : ∀ {fuel before after l},
    lexFrom rules fuel before after = .ok l →
      l.flatMap Token.value = after ∧ ∀ t ∈ l, t.value ≠ [] := by
  intro fuel
  induction fuel with
  | zero =>
    intro before after l h
    cases after with
    | nil => simp only [lexFrom, Except.ok.injEq] at h; subst h; simp
    | cons c t => simp [lexFrom] at h
  | succ fuel ih =>
    intro before after l h
    cases after with
    | nil => simp only [lexFrom, Except.ok.injEq] at h; subst h; simp
    | cons c t =>
      simp only [lexFrom] at h
      split at h
      · split at h
        · cases h
        · rename_i l' hl
          cases h
          obtain ⟨h1, h2⟩ := ih hl
          refine ⟨by simp [h1], ?_⟩
          intro x hx
          rcases List.mem_cons.1 hx with rfl | hx
          · simp
          · exact h2 x hx
      · cases h
      · split at h
        · cases h
        · rename_i l' hl
          cases h
          obtain ⟨h1, h2⟩ := ih hl
          refine ⟨by simp [h1], ?_⟩
          intro x hx
          rcases List.mem_cons.1 hx with rfl | hx
          · simp
          · exact h2 x hx

theorem lexFrom_total {rules : List Rule} (hp : Positive rules) : ∀ fuel before after,
    after.length ≤ fuel → ∃ l, lexFrom rules fuel before after = .ok l := by
  intro fuel
  induction fuel with
  | zero =>
    intro before after h
    cases after with
    | nil => exact ⟨[], by simp [lexFrom]⟩
    | cons c t => simp at h
  | succ fuel ih =>
    intro before after h
    cases after with
    | nil => exact ⟨[], by simp [lexFrom]⟩
    | cons c t =>
      simp only [lexFrom]
      simp only [List.length_cons] at h
      cases hm : firstMatch rules before (c :: t) with
      | none =>
        obtain ⟨l, hl⟩ := ih (c :: before) t (by omega)
        exact ⟨⟨ErrorT, [c]⟩ :: l, by simp only [hl]⟩
      | some p =>
        obtain ⟨n, act⟩ := p
        cases n with
        | zero => exact absurd (firstMatch_pos hp hm) (by decide)
        | succ n =>
          obtain ⟨l, hl⟩ := ih (((c :: t).take (n + 1)).reverse ++ before)
            ((c :: t).drop (n + 1)) (by simp; omega)
          exact ⟨⟨act ((c :: t).take (n + 1)), (c :: t).take (n + 1)⟩ :: l, by simp only [hl]⟩

/-- Whatever the rules, the tokens of a text make up the text and none is empty. -/
theorem C44_tokens_make_text {rules : List Rule} {text : List Char} {l : List Token}
    (h : lex rules text = .ok l) :
    l.flatMap Token.value = text ∧ ∀ t ∈ l, t.value ≠ [] :=
  lexFrom_text h

/-- Rules that match at least one character tokenise every text. -/
theorem C44_tokens_total {rules : List Rule} (hp : Positive rules) (text : List Char) :
    ∃ l, lex rules text = .ok l :=
  lexFrom_total hp _ _ _ (Nat.le_refl _)

/-- A rule that matches the empty text stops the tokeniser with an error: the hypothesis
above is needed. -/
theorem C44_empty_match_raises {rules : List Rule} {c : Char} {t : List Char} {act}
    (h : firstMatch rules [] (c :: t) = some (0, act)) :
    lex rules (c :: t) = .error .valueError := by
  simp only [lex, List.length_cons, lexFrom, h]

/-- Where no rule applies the character becomes a token of its own. -/
theorem C44_unknown_kept (text : List Char) :
    lex [] text = .ok (text.map fun c => ⟨ErrorT, [c]⟩) := by
  have h : ∀ n before, text.length ≤ n →
      lexFrom [] n before text = .ok (text.map fun c => ⟨ErrorT, [c]⟩) := by
    induction text with
    | nil => intro n b _; simp [lexFrom]
    | cons c t ih =>
      intro n b hn
      cases n with
      | zero => simp at hn
      | succ n =>
        simp only [lexFrom, firstMatch, ih n (c :: b) (by simpa using hn), List.map_cons]
  exact h _ _ (Nat.le_refl _)

/-! ### Splitting -/

theorem changeLevel_tokens (s : State) (t : Token) : (changeLevel s t).1.tokens = s.tokens := by
  unfold changeLevel
  dsimp only
  repeat' split
  all_goals rfl

theorem changeLevel_consume (s : State) (t : Token) :
    (changeLevel s t).1.consumeWs = s.consumeWs := by
  unfold changeLevel
  dsimp only
  repeat' split
  all_goals rfl

theorem addToken_tokens (s : State) (t : Token) : (addToken s t).tokens = s.tokens ++ [t] := by
  simp only [addToken]
  split <;> simp [changeLevel_tokens]

theorem addToken_consume (s : State) (t : Token) (h : isSemi t = false) :
    (addToken s t).consumeWs = s.consumeWs := by
  simp [addToken, h, changeLevel_consume]

theorem splitFrom_spec : ∀ (stream : List Token) (s : State),
    ∃ tail, (splitFrom s stream).flatten ++ tail = s.tokens ++ stream ∧
      tail.all isSpace = true := by
  intro stream
  induction stream with
  | nil =>
    intro s
    simp only [splitFrom]
    split
    · exact ⟨[], by simp, rfl⟩
    · rename_i h
      refine ⟨s.tokens, by simp, ?_⟩
      by_cases he : s.tokens = []
      · simp [he]
      · cases ha : s.tokens.all isSpace with
        | true => rfl
        | false => exact absurd ⟨he, ha⟩ h
  | cons t r ih =>
    intro s
    simp only [splitFrom]
    split
    · obtain ⟨tail, h1, h2⟩ := ih (addToken .init t)
      refine ⟨tail, ?_, h2⟩
      rw [addToken_tokens] at h1
      simp only [List.flatten_cons, List.append_assoc, h1]
      simp [State.init]
    · obtain ⟨tail, h1, h2⟩ := ih (addToken s t)
      refine ⟨tail, ?_, h2⟩
      rw [h1, addToken_tokens]
      simp

/-- The statements of a stream are the stream, up to trailing blank tokens. -/
theorem C44_statements_make_stream (stream : List Token) :
    ∃ tail, (split stream).flatten ++ tail = stream ∧ tail.all isSpace = true := by
  obtain ⟨tail, h1, h2⟩ := splitFrom_spec stream .init
  exact ⟨tail, by simpa [split, State.init] using h1, h2⟩

/-- Text to statements: nothing is lost but trailing blanks. -/
theorem C44_statements_make_text {rules : List Rule} (hp : Positive rules) (text : List Char) :
    ∃ (l tail : List Token), lex rules text = .ok l ∧ tail.all isSpace = true ∧
      (split l).flatten.flatMap Token.value ++ tail.flatMap Token.value = text := by
  obtain ⟨l, hl⟩ := C44_tokens_total hp text
  obtain ⟨tail, h1, h2⟩ := C44_statements_make_stream l
  refine ⟨l, tail, hl, h2, ?_⟩
  rw [← List.flatMap_append, h1, (C44_tokens_make_text hl).1]

/-- A statement that is complete: a semicolon, then only blanks and line comments. -/
def Closed (st : List Token) : Prop :=
  ∃ a t b, st = a ++ t :: b ∧ isSemi t = true ∧ b.all isEos = true

theorem addToken_closed {s : State} {t : Token}
    (hc : s.consumeWs = true → Closed s.tokens)
    (ht : s.consumeWs = true → isEos t = true) :
    (addToken s t).consumeWs = true → Closed (addToken s t).tokens := by
  intro h
  rw [addToken_tokens]
  cases hs : isSemi t with
  | true => exact ⟨s.tokens, t, [], rfl, hs, rfl⟩
  | false =>
    rw [addToken_consume s t hs] at h
    obtain ⟨a, u, b, h1, h2, h3⟩ := hc h
    exact ⟨a, u, b ++ [t], by rw [h1]; simp, h2, by simp [h3, ht h]⟩

theorem splitFrom_closed : ∀ (stream : List Token) (s : State),
    (s.consumeWs = true → Closed s.tokens) →
    ∀ st ∈ (splitFrom s stream).dropLast, Closed st := by
  intro stream
  induction stream with
  | nil =>
    intro s _ st h
    simp only [splitFrom] at h
    split at h <;> simp at h
  | cons t r ih =>
    intro s hc st h
    simp only [splitFrom] at h
    split at h
    · rename_i hh
      have hi : (addToken .init t).consumeWs = true → Closed (addToken .init t).tokens :=
        addToken_closed (by simp [State.init]) (by simp [State.init])
      cases hr : splitFrom (addToken .init t) r with
      | nil => rw [hr] at h; simp at h
      | cons x xs =>
        rw [hr, List.dropLast_cons_cons] at h
        rcases List.mem_cons.1 h with rfl | h
        · exact hc hh.1
        · exact ih _ hi st (by rw [hr]; exact h)
    · rename_i hh
      refine ih _ (addToken_closed hc ?_) st h
      intro hcw
      cases he : isEos t with
      | true => rfl
      | false => exact absurd ⟨hcw, he⟩ hh

/-- Every statement but the last ends with a semicolon, followed only by blanks and line
comments: a cut is never made anywhere else. -/
theorem C44_cut_after_semicolon (stream : List Token) :
    ∀ st ∈ (split stream).dropLast, Closed st :=
  splitFrom_closed stream .init (by simp [State.init])

theorem splitFrom_ne : ∀ (stream : List Token) (s : State),
    (s.consumeWs = true → s.tokens ≠ []) → ∀ st ∈ splitFrom s stream, st ≠ [] := by
  intro stream
  induction stream with
  | nil =>
    intro s _ st h
    simp only [splitFrom] at h
    split at h
    · rename_i hh
      simp only [List.mem_singleton] at h
      exact h ▸ hh.1
    · simp at h
  | cons t r ih =>
    intro s hc st h
    simp only [splitFrom] at h
    split at h
    · rename_i hh
      rcases List.mem_cons.1 h with rfl | h
      · exact hc hh.1
      · exact ih _ (by simp [addToken_tokens]) st h
    · exact ih _ (by simp [addToken_tokens]) st h

/-- No statement is empty. -/
theorem C44_statement_nonempty (stream : List Token) : ∀ st ∈ split stream, st ≠ [] :=
  splitFrom_ne stream .init (by simp [State.init])

theorem splitFrom_whole : ∀ (stream : List Token) (s : State), s.consumeWs = false →
    stream.all (fun t => !isSemi t) = true →
    (s.tokens ++ stream).all isSpace = false → splitFrom s stream = [s.tokens ++ stream] := by
  intro stream
  induction stream with
  | nil =>
    intro s hs _ hb
    simp only [List.append_nil] at hb ⊢
    simp only [splitFrom]
    rw [if_pos ⟨by rintro he; simp [he] at hb, hb⟩]
  | cons t r ih =>
    intro s hs hn hb
    simp only [List.all_cons, Bool.and_eq_true, Bool.not_eq_true'] at hn
    simp only [splitFrom]
    rw [if_neg (by simp [hs]), ih _ (by rw [addToken_consume s t hn.1, hs]) hn.2 (by
      rw [addToken_tokens]; simpa using hb), addToken_tokens]
    simp

/-- A stream without semicolon tokens is one statement; semicolons inside literals, names
and comments are no such tokens. -/
theorem C44_one_statement (stream : List Token) (hn : stream.all (fun t => !isSemi t) = true)
    (hb : stream.all isSpace = false) : split stream = [stream] := by
  have := splitFrom_whole stream .init rfl hn (by simpa [State.init] using hb)
  simpa [split, State.init] using this

/-- A complete statement at level zero is cut off before any token that is neither a blank
nor a line comment, and what follows is split by itself. -/
theorem C44_cut (s : State) (t : Token) (r : List Token) (hs : s.consumeWs = true)
    (ht : isEos t = false) : splitFrom s (t :: r) = s.tokens :: split (t :: r) := by
  have h2 : split (t :: r) = splitFrom (addToken .init t) r := by
    simp [split, splitFrom, State.init]
  rw [h2]
  simp [splitFrom, hs, ht]

/-- By how much a parenthesis changes the level. -/
def par (t : Token) : Int :=
  if t.ttype = Punctuation ∧ t.value = ['('] then 1 else if t.ttype = Punctuation ∧ t.value = [')'] then -1 else 0

/-- The token does not change the level unless it is a parenthesis: it is no keyword, or none of those with a meaning for the splitter. -/
def Quiet (t : Token) : Prop := ∀ s, changeLevel s t = (s, par t)

theorem quiet_of_no_keyword {t : Token} (h : isIn t.ttype Keyword = false) : Quiet t := by
  intro s
  unfold changeLevel par
  split
  · rfl
  · split
    · rfl
    · rfl

/-- The parentheses that are open at the end. -/
def depth : List Token → Int
  | [] => 0
  | t :: r => par t + depth r

theorem par_semi {t : Token} (h : isSemi t = true) : par t = 0 := by
  unfold isSemi at h
  simp only [Bool.and_eq_true, beq_iff_eq] at h
  simp [par, h.2]

/-- Tokens whose semicolons are all inside parentheses are not cut. -/
theorem C44_parentheses : ∀ (g : List Token) (s : State) (r : List Token), (∀ t ∈ g, Quiet t) → s.consumeWs = false →
    (∀ p t q, g = p ++ t :: q → isSemi t = true → 0 < s.level + depth p) →
    splitFrom s (g ++ r) = splitFrom { s with tokens := s.tokens ++ g, level := s.level + depth g } r
  | [], s, r, _, _, _ => by simp [depth]
  | t :: g, s, r, hq, hc, hl => by
    have hadd : addToken s t = { s with tokens := s.tokens ++ [t], level := s.level + par t } := by
      unfold addToken
      rw [hq t (by simp) s]
      simp only
      split
      · rename_i h
        have := hl [] t g rfl h.2
        simp only [depth, par_semi h.2] at this h
        omega
      · rfl
    rw [List.cons_append, splitFrom, if_neg (by simp [hc]), hadd,
      C44_parentheses g _ r (fun t ht => hq t (by simp [ht])) (by exact hc) (by
        intro p u q hg hu
        have := hl (t :: p) u q (by simp [hg]) hu
        simp only [depth] at this
        simp only
        omega)]
    simp [depth, Int.add_assoc]

/-- A semicolon outside parentheses ends the statement: it is cut off, and what follows is split by itself. -/
theorem C44_cut_outside (g r : List Token) (t u : Token) (hq : ∀ t ∈ g, Quiet t) (hd : depth g ≤ 0) (ht : isSemi t = true) (hu : isEos u = false)
    (hl : ∀ p t q, g = p ++ t :: q → isSemi t = true → 0 < depth p) :
    split (g ++ t :: u :: r) = (g ++ [t]) :: split (u :: r) := by
  unfold split
  rw [C44_parentheses g .init _ hq rfl (by simpa [State.init] using hl), splitFrom, if_neg (by simp [State.init])]
  have hk : isIn t.ttype Keyword = false := by
    unfold isSemi at ht
    simp only [Bool.and_eq_true, beq_iff_eq] at ht
    rw [ht.1]
    decide
  have hadd : (addToken { State.init with tokens := State.init.tokens ++ g, level := State.init.level + depth g } t).consumeWs = true ∧
      (addToken { State.init with tokens := State.init.tokens ++ g, level := State.init.level + depth g } t).tokens = g ++ [t] := by
    unfold addToken
    rw [quiet_of_no_keyword hk]
    simp only [State.init, par_semi ht, Int.add_zero, Int.zero_add, List.nil_append]
    rw [if_pos ⟨hd, ht⟩]
    exact ⟨rfl, rfl⟩
  rw [C44_cut _ u r hadd.1 hu, hadd.2]
  rfl

def word (s : String) : Token := ⟨["Name"], s.toList⟩
def semi : Token := ⟨Punctuation, [';']⟩
def opening : Token := ⟨Punctuation, ['(']⟩
def closing : Token := ⟨Punctuation, [')']⟩
def blank : Token := ⟨Whitespace, [' ']⟩
def newline : Token := ⟨Newline, ['\n']⟩

/-- A rule that reads a run of one given character. -/
def runRule (c : Char) (ty : TType) : Rule :=
  ⟨fun _ a => match (a.takeWhile (· == c)).length with | 0 => none | n + 1 => some (n + 1), fun _ => ty⟩

theorem runRule_positive (c : Char) (ty : TType) : Positive [runRule c ty] := by
  intro r hr b a n h
  simp only [List.mem_singleton] at hr
  subst hr
  simp only [runRule] at h
  split at h
  · cases h
  · simp only [Option.some.injEq] at h; omega

/-- The hypotheses of the theorems above can be met. -/
example : Positive [runRule 'a' ["Name"]] ∧
    lex [runRule 'a' ["Name"]] ['a', 'a', 'b'] = .ok [⟨["Name"], ['a', 'a']⟩, ⟨ErrorT, ['b']⟩] :=
  ⟨runRule_positive _ _, by rfl⟩

example : split [word "a", semi, blank, word "b", newline] =
    [[word "a", semi, blank], [word "b", newline]] := by decide

/-- Parentheses hold a semicolon back. -/
example : split ([opening, semi, closing] ++ semi :: word "b" :: []) = ([opening, semi, closing] ++ [semi]) :: split [word "b"] := by
  refine C44_cut_outside _ _ _ _ ?_ (by decide) (by decide) (by decide) ?_
  · intro t ht
    simp only [List.mem_cons, List.not_mem_nil, or_false] at ht
    rcases ht with rfl | rfl | rfl <;> exact quiet_of_no_keyword (by decide)
  · intro p t q h ht
    match p, h with
    | [], h => simp only [List.nil_append, List.cons.injEq] at h; rw [← h.1] at ht; exact absurd ht (by decide)
    | [a], h => simp only [List.cons_append, List.nil_append, List.cons.injEq] at h; rw [← h.1]; decide
    | [a, b], h => simp only [List.cons_append, List.nil_append, List.cons.injEq] at h; rw [← h.2.2.1] at ht; exact absurd ht (by decide)
    | a :: b :: c :: p, h => simp at h

/-- Parentheses hold a semicolon back, and trailing blanks are dropped. -/
example : split [opening, semi, closing, semi, newline] = [[opening, semi, closing, semi]] := by
  decide

end EulerDB.Lex
