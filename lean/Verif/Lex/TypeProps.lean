/-
C58: the type of a statement is that of its first word.
-/
import Verif.Lex.Props

namespace EulerDB.Lex

/-- Every token carries its own place as its position. -/
def Numbered (tokens : List SqlToken) : Prop :=
  ∀ (i : Nat) (t : SqlToken), tokens[i]? = some t → t.position = i

theorem sqlFrom_numbered : ∀ (l before : List Token) (made : Bool),
    l.all (fun t => !isDot t) = true → (made = false → before = []) →
    ∃ r, sqlFrom before false made l = .ok r ∧ r.length = l.length ∧
      ∀ (i : Nat) (t : SqlToken), r[i]? = some t → t.position = before.length + i := by
  intro l
  induction l with
  | nil => intro b m _ _; exact ⟨[], rfl, rfl, by simp⟩
  | cons t r ih =>
    intro b m hd hm
    simp only [List.all_cons, Bool.and_eq_true, Bool.not_eq_true'] at hd
    have hp : isPart t r = false := by
      cases r with
      | nil => simp [isPart, hd.1]
      | cons u v =>
        have hu := hd.2
        simp only [List.all_cons, Bool.and_eq_true, Bool.not_eq_true'] at hu
        simp [isPart, hd.1, hu.1]
    obtain ⟨l', h1, h2, h3⟩ := ih (t :: b) true hd.2 (by simp)
    refine ⟨⟨unquote t.value, t.value == ['('], isCommentType t.ttype, b.length⟩ :: l', ?_, ?_, ?_⟩
    · have hne : ¬ (m = false ∧ b ≠ []) := fun h => h.2 (hm h.1)
      simp [sqlFrom, hp, hne, h1]
    · simp [h2]
    · intro i x hx
      cases i with
      | zero => simp at hx; subst hx; rfl
      | succ i =>
        simp only [List.getElem?_cons_succ] at hx
        have := h3 i x hx
        simp only [List.length_cons] at this
        omega

/-- A statement without dots gives tokens numbered by their places. -/
theorem C58_numbered (st : List Token) (h : st.all (fun t => !isDot t) = true) :
    ∃ l, sqlTokens st = .ok l ∧ Numbered l := by
  obtain ⟨r, h1, _, h3⟩ := sqlFrom_numbered (st.filter fun t => !isBlank t) [] false
    (by
      rw [List.all_eq_true] at h ⊢
      intro x hx
      exact h x (List.mem_filter.1 hx).1) (fun _ => rfl)
  exact ⟨r, h1, fun i t hi => by simpa using h3 i t hi⟩

theorem nearest_append {ls : List SqlToken} {t : SqlToken} {r : List SqlToken}
    (hl : ls.all (·.left) = true) (ht : t.left = false) : nearest (ls ++ t :: r) = some t := by
  induction ls with
  | nil => simp [nearest, ht]
  | cons x xs ih =>
    simp only [List.all_cons, Bool.and_eq_true] at hl
    simp [nearest, hl.1, ih hl.2]

theorem dropWhile_comments {cs : List SqlToken} {p : SqlToken} {r : List SqlToken}
    (hc : cs.all (·.comment) = true) (hp : p.comment = false) :
    (cs ++ p :: r).dropWhile (·.comment) = p :: r := by
  induction cs with
  | nil => simp [hp]
  | cons x xs ih =>
    simp only [List.all_cons, Bool.and_eq_true] at hc
    simp [hc.1, ih hc.2]

theorem filter_comments {cs : List SqlToken} (hc : cs.all (·.comment) = true) :
    cs.filter (fun t => !t.comment) = [] := by
  rw [List.filter_eq_nil_iff]
  intro x hx
  rw [List.all_eq_true] at hc
  simp [hc x hx]

/-- Which word decides: after comments and opening parentheses the code looks at the place
the first other token has among all tokens, but in the list without comments. -/
theorem C58_looked_at {cs ls r : List SqlToken} {p t : SqlToken}
    (hn : Numbered (cs ++ p :: (ls ++ t :: r)))
    (hc : cs.all (·.comment) = true) (hp : p.comment = false) (hpl : p.left = true)
    (hl : ls.all (·.left) = true) (hlc : ls.all (fun x => !x.comment) = true)
    (ht : t.left = false) :
    queryType (cs ++ p :: (ls ++ t :: r)) =
      typeAt (p :: (ls ++ (t :: r).filter (fun x => !x.comment))) (cs.length + 1 + ls.length) := by
  have hls : ls.filter (fun x => !x.comment) = ls := by
    rw [List.filter_eq_self]
    intro x hx
    rw [List.all_eq_true] at hlc
    exact hlc x hx
  have hk : (cs ++ p :: (ls ++ t :: r)).filter (fun x => !x.comment)
      = p :: (ls ++ (t :: r).filter (fun x => !x.comment)) := by
    rw [List.filter_append, filter_comments hc, List.nil_append,
      List.filter_cons_of_pos (by simp [hp]), List.filter_append, hls]
  have hpos : t.position = cs.length + 1 + ls.length := by
    refine hn _ t ?_
    rw [List.getElem?_append_right (by omega)]
    have : cs.length + 1 + ls.length - cs.length = ls.length + 1 := by omega
    rw [this, List.getElem?_cons_succ, List.getElem?_append_right (Nat.le_refl _)]
    simp
  simp only [queryType, hk, hpl, if_true, dropWhile_comments hc hp, List.tail_cons,
    nearest_append hl ht, hpos]

/-- With no comment before the opening parentheses the first word after them decides. -/
theorem C58_parentheses_partial {ls r : List SqlToken} {p t : SqlToken}
    (hn : Numbered (p :: (ls ++ t :: r))) (hp : p.comment = false) (hpl : p.left = true)
    (hl : ls.all (·.left) = true) (hlc : ls.all (fun x => !x.comment) = true)
    (ht : t.left = false) (htc : t.comment = false)
    (hk : normalized t.value ≠ "CREATE" ∧ normalized t.value ≠ "ALTER") :
    queryType (p :: (ls ++ t :: r)) = lookupType (normalized t.value) := by
  have h := C58_looked_at (cs := []) hn rfl hp hpl hl hlc ht
  simp only [List.nil_append, List.length_nil, Nat.zero_add] at h
  rw [h, List.filter_cons_of_pos (by simp [htc])]
  have hg : (p :: (ls ++ t :: r.filter (fun x => !x.comment)))[1 + ls.length]? = some t := by
    rw [Nat.add_comm, List.getElem?_cons_succ, List.getElem?_append_right (Nat.le_refl _)]
    simp
  simp only [typeAt, hg]
  rw [if_neg (by simp [hk.1, hk.2])]

/-- Without a leading parenthesis comments play no part, wherever they stand. -/
theorem C58_comments_partial {tokens : List SqlToken} {first : SqlToken} {more : List SqlToken}
    (hk : tokens.filter (fun t => !t.comment) = first :: more) (hf : first.left = false) :
    queryType tokens = typeAt (first :: more) 0 := by
  simp [queryType, hk, hf]

/-- Nothing but comments: rejected. -/
theorem C58_empty {tokens : List SqlToken} (h : tokens.all (·.comment) = true) :
    queryType tokens = .error .valueError := by
  simp [queryType, filter_comments h]

/-- A comment before a parenthesised query makes the code look one place too far: the word
after the first word decides. -/
theorem C58_fails_comment {c p t u : SqlToken} {r : List SqlToken}
    (hn : Numbered (c :: p :: t :: u :: r)) (hc : c.comment = true) (hp : p.comment = false)
    (hpl : p.left = true) (ht : t.left = false) (htc : t.comment = false)
    (huc : u.comment = false)
    (hk : normalized u.value ≠ "CREATE" ∧ normalized u.value ≠ "ALTER") :
    queryType (c :: p :: t :: u :: r) = lookupType (normalized u.value) := by
  have h := C58_looked_at (cs := [c]) (ls := []) (p := p) (t := t) (r := u :: r) hn
    (by simp [hc]) hp hpl rfl rfl ht
  simp only [List.cons_append, List.nil_append, List.length_cons, List.length_nil] at h
  rw [h, List.filter_cons_of_pos (by simp [htc]), List.filter_cons_of_pos (by simp [huc])]
  simp only [typeAt, Nat.zero_add, Nat.add_zero, List.getElem?_cons_succ, List.getElem?_cons_zero]
  rw [if_neg (by simp [hk.1, hk.2])]

def note : Token := ⟨["Comment", "Multiline"], "/* c */".toList⟩
def hint : Token := ⟨["Comment", "Multiline", "Hint"], "/*+ c */".toList⟩
def dml (s : String) : Token := ⟨["Keyword", "DML"], s.toList⟩

def typeOf (st : List Token) : Except PyErr String :=
  match sqlTokens st with
  | .error e => .error e
  | .ok l => queryType l

/-- The same query is accepted without and rejected with a comment; and a word that is not
the first can decide. -/
theorem C58_fails_comment_witness :
    typeOf [opening, dml "select", blank, word "x", closing] = .ok "SELECT" ∧
    typeOf [note, opening, dml "select", blank, word "x", closing] = .error .valueError ∧
    typeOf [note, opening, dml "select", blank, word "delete", closing] = .ok "DELETE" := by
  refine ⟨?_, ?_, ?_⟩ <;> decide

/-- A hint is not taken for a comment, so a query behind a hint is rejected. -/
theorem C58_fails_hint : typeOf [hint, dml "select", blank, word "x"] = .error .valueError := by
  decide

/-- A quoted name counts as the keyword it spells, with either kind of quotes. -/
theorem C58_fails_quoted_name : typeOf [word "`select`", blank, word "x"] = .ok "SELECT" ∧
    typeOf [word "\"select\"", blank, word "x"] = .ok "SELECT" := by
  constructor <;> decide

/-- Any statement that begins with DROP is taken for DROP TABLE. -/
theorem C58_fails_drop (t : SqlToken) (r : List SqlToken) (hl : t.left = false)
    (hc : t.comment = false) (hd : normalized t.value = "DROP") :
    queryType (t :: r) = .ok "DROP TABLE" := by
  rw [C58_comments_partial (first := t) (more := r.filter (fun x => !x.comment))
    (by rw [List.filter_cons_of_pos (by simp [hc])]) hl]
  simp [typeAt, hd, lookupType, supported, List.lookup]

/-- A statement that begins with a dotted name raises an index error. -/
theorem C58_fails_dotted : typeOf [word "a", ⟨Punctuation, ['.']⟩, word "b"] = .error .indexError := by
  decide

/-! ### Only the first statement counts -/

theorem splitFrom_prefix : ∀ (a : List Token) (s : State) (r : List Token),
    s.consumeWs = false → a.all (fun t => !isSemi t) = true →
    splitFrom s (a ++ r) = splitFrom (a.foldl addToken s) r ∧
      (a.foldl addToken s).consumeWs = false ∧ (a.foldl addToken s).tokens = s.tokens ++ a := by
  intro a
  induction a with
  | nil => intro s r hs _; simp [hs]
  | cons x xs ih =>
    intro s r hs ha
    simp only [List.all_cons, Bool.and_eq_true, Bool.not_eq_true'] at ha
    have hc : (addToken s x).consumeWs = false := by rw [addToken_consume s x ha.1, hs]
    obtain ⟨h1, h2, h3⟩ := ih (addToken s x) r hc ha.2
    refine ⟨?_, h2, ?_⟩
    · rw [List.cons_append, splitFrom, if_neg (by simp [hs]), h1]
      rfl
    · simp only [List.foldl_cons]
      rw [h3, addToken_tokens]
      simp

theorem addToken_semi (s : State) (h : s.level ≤ 0) : (addToken s semi).consumeWs = true := by
  have hc : changeLevel s semi = (s, 0) := by
    simp [changeLevel, semi, Punctuation, isIn, Keyword, List.isPrefixOf]
  have hs : isSemi semi = true := by decide
  simp [addToken, hc, h, hs]

/-- Where the first statement ends: at the first semicolon token outside parentheses and
blocks. -/
theorem C58_first_statement (a : List Token) (t : Token) (r : List Token)
    (ha : a.all (fun t => !isSemi t) = true) (hl : (a.foldl addToken .init).level ≤ 0)
    (ht : isEos t = false) :
    split (a ++ semi :: t :: r) = (a ++ [semi]) :: split (t :: r) := by
  obtain ⟨h1, h2, h3⟩ := splitFrom_prefix a .init (semi :: t :: r) rfl ha
  rw [split, h1, splitFrom, if_neg (by simp [h2]), C44_cut _ t r (addToken_semi _ hl) ht,
    addToken_tokens, h3]
  simp [State.init]

/-- The type given to a token stream, that of its first statement. -/
def streamType (stream : List Token) : Except PyErr String :=
  match split stream with
  | [] => .error .valueError
  | st :: _ => typeOf st

theorem textType_eq (rules : List Rule) (text : List Char) : textType rules text =
    match lex rules text with
    | .error e => .error e
    | .ok stream => streamType stream := by
  unfold textType streamType typeOf
  cases lex rules text with
  | error e => rfl
  | ok l => cases split l <;> rfl

/-- Whatever follows the first statement has no influence on the type: any statement at
all can ride behind an accepted one. -/
theorem C58_fails_later_statements (a : List Token) (t t' : Token) (r r' : List Token)
    (ha : a.all (fun t => !isSemi t) = true) (hl : (a.foldl addToken .init).level ≤ 0)
    (ht : isEos t = false) (ht' : isEos t' = false) :
    streamType (a ++ semi :: t :: r) = streamType (a ++ semi :: t' :: r') := by
  simp only [streamType, C58_first_statement a t r ha hl ht, C58_first_statement a t' r' ha hl ht']

example : streamType [dml "select", blank, word "x", semi, ⟨DDL, "drop".toList⟩, blank, word "t"]
    = .ok "SELECT" := by decide

/-- The hypotheses of the theorems on parentheses and comments can be met. -/
example : ∃ l, sqlTokens [opening, dml "select", blank, word "x", closing] = .ok l ∧ Numbered l :=
  C58_numbered _ (by decide)

end EulerDB.Lex
