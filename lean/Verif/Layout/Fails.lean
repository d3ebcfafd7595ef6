/-
C99: statements that the options of `format` turn into others.
-/
import Verif.Layout.Props
import Verif.Strip.Fails

namespace EulerDB.Layout

open EulerDB.Lex EulerDB.Group EulerDB.Rules

/-- `format(sql, use_space_around_operators=True)`. -/
def spaced (s : String) : Except PyErr (List Char) := format (rules ascii Strip.words) spaces asciiSpace s.toList

/-- `format(sql, strip_whitespace=True)`. -/
def tight (s : String) : Except PyErr (List Char) := format (rules ascii Strip.words) fewerSpaces asciiSpace s.toList

/-! ### Blanks around operators -/

/-- **C99 (false: operators of several tokens).** `a->'$.b'` becomes `a - > '$.b'`, and the variable `@x` becomes `@ x`: both are errors for MySQL. -/
theorem C99_fails_operators : spaced "SELECT a->'$.b' FROM t" = .ok "SELECT a - > '$.b' FROM t".toList ∧ spaced "SELECT @x" = .ok "SELECT @ x".toList := by
  constructor <;> decide +kernel

example : spaced "SELECT a FROM t WHERE a=1 AND b<=c" = .ok "SELECT a FROM t WHERE a = 1 AND b <= c".toList := by decide +kernel

/-! ### Fewer blanks -/

/-- Line breaks that are white space are gone. -/
theorem single_line : ∀ (last first : Bool) (l : List Tok), (∀ t ∈ l, t.isWhitespace = false → '\n' ∉ text t) → '\n' ∉ textAll (single last first l)
  | _, _, [], _ => by simp [single, textAll]
  | last, first, t :: r, h => by
    have ih := single_line t.isWhitespace false r fun x hx => h x (List.mem_cons_of_mem _ hx)
    rw [single, textAll, List.flatMap_cons, List.mem_append, not_or]
    refine ⟨?_, ih⟩
    split
    · next ht =>
      rw [text_setValue ht]
      split <;> decide
    · next ht => exact h t List.mem_cons_self (by simpa using ht)

/-- **C99 (false: the end of a comment).** A number sign directly before a word begins a comment in MySQL and a name for the lexer. The line break that ends the comment is white
space, and with it every line break between tokens: what followed the comment becomes part of it. -/
theorem C99_fails_comment_end : tight "DELETE FROM t #all\nWHERE a = 1" = .ok "DELETE FROM t #all WHERE a = 1".toList ∧
    ∀ l : List Tok, (∀ t ∈ l, t.isWhitespace = false → '\n' ∉ text t) → '\n' ∉ textAll (single false true l) :=
  ⟨by decide +kernel, single_line false true⟩

/-- **C99 (false: an error).** Two colons between parentheses: grouping moves them into a group with a parenthesis (C74_fails_cast), and `tokens[1]` is asked for where there is one
token. -/
theorem C99_fails_error : tight "SELECT (::) FROM t" = .error .indexError := by decide +kernel

example : tight "  SELECT  a ,\n b\nFROM (  SELECT 1 )  t  " = .ok "SELECT a, b FROM (SELECT 1) t".toList := by decide +kernel
example : tight "SELECT a, -- b\n  c FROM t" = .ok "SELECT a, -- b\n c FROM t".toList := by decide +kernel

/-! ### Case of names -/

/-- **C99 (false: names in backticks).** Only names in double quotes, which MySQL takes for literals, keep their case; a name in backticks changes, and names of tables differ
in case. -/
theorem C99_fails_backticks {off : Char → Bool} (conv : List Char → List Char) (s : List Char) (h : off '`' = false) :
    identifierCase off conv [⟨Name, '`' :: s⟩] = .ok [⟨Name, conv ('`' :: s)⟩] := by
  simp [identifierCase, h]

example : identifierCase (· == ' ') capitals [⟨Name, "`card`".toList⟩, ⟨Symbol, "\"card\"".toList⟩] = .ok [⟨Name, "`CARD`".toList⟩, ⟨Symbol, "\"card\"".toList⟩] := by decide

/-! ### Cutting literals -/

/-- **C99 (false: a quote at the cut).** When the cut falls between the two characters of a doubled quote, the literal ends there and the mark stands outside. -/
theorem C99_fails_truncate {width : Nat} {mark s r : List Char} (hs : ∀ c ∈ s, c ≠ '\'' ∧ c ≠ '\\') (hne : s ≠ []) (hw : width = s.length + 1) (hm : ∀ m, mark ≠ '\'' :: m) (hmn : mark ≠ []) :
    ∃ t, cut width mark ('\'' :: (s ++ '\'' :: '\'' :: r) ++ ['\'']) = '\'' :: t ∧ readLit t = some (s, mark ++ ['\'']) := by
  cases s with
  | nil => exact absurd rfl hne
  | cons c s =>
    refine ⟨(c :: s) ++ '\'' :: (mark ++ ['\'']), ?_, ?_⟩
    · have h := cut_plain (width := width) (mark := mark) (s := s ++ '\'' :: '\'' :: r) (hs c List.mem_cons_self).1
      rw [if_pos (by simp [hw])] at h
      have h1 : ((c :: s) ++ '\'' :: '\'' :: r).take width = (c :: s) ++ ['\''] := by
        rw [hw, List.take_append, List.take_of_length_le (by omega)]
        simp
      rw [List.cons_append] at h1
      rw [h1] at h
      refine Eq.trans h ?_
      simp
    · rw [readLit_plain _ _ hs (by simp)]
      cases mark with
      | nil => exact absurd rfl hmn
      | cons d m =>
        have hd : d ≠ '\'' := fun h => hm m (by rw [h])
        simp [readLit, hd]

example : cut 3 "[...]".toList "'it''s'".toList = "'it'[...]'".toList := by decide

/-! ### The literal of Python -/

/-- **C99 (false: backslashes).** A quote that the statement escapes with a backslash ends the literal of Python: what follows in the statement is read as Python. -/
theorem C99_fails_python (name : List Char) (l : List (List Char × Bool)) {s r : List Char} (hl : ∀ t ∈ l, '\n' ∉ t.1) (ht : l.flatMap Prod.fst = s ++ '\\' :: '\'' :: r)
    (hs : ∀ c ∈ s, c ≠ '\\' ∧ c ≠ '\n') :
    ∃ b, python name false l = name ++ [' ', '=', ' ', '\''] ++ b ∧ readPy b = some (s ++ ['\\'], escaped r ++ ['\'']) := by
  refine ⟨pythonBody name l ++ ['\''], by simp [python], ?_⟩
  rw [pythonBody_line name l hl, ht]
  have key : ∀ (s : List Char), (∀ c ∈ s, c ≠ '\\' ∧ c ≠ '\n') → readPy (escaped (s ++ '\\' :: '\'' :: r) ++ ['\'']) = some (s ++ ['\\'], escaped r ++ ['\'']) := by
    intro s
    induction s with
    | nil =>
      intro _
      have h1 : escaped ('\\' :: '\'' :: r) = '\\' :: '\\' :: '\'' :: escaped r := rfl
      rw [List.nil_append, h1, List.cons_append, List.cons_append, List.cons_append, readPy, if_neg (by decide), if_neg (by decide), if_pos rfl, if_pos (.inr rfl)]
      cases h2 : escaped r ++ ['\''] with
      | nil => simp at h2
      | cons d x => simp [readPy]
    | cons c s ih =>
      intro h
      have ih := ih fun x hx => h x (List.mem_cons_of_mem _ hx)
      have hc := h c List.mem_cons_self
      have he : escaped ((c :: s) ++ '\\' :: '\'' :: r) = (if c = '\'' then ['\\', '\''] else [c]) ++ escaped (s ++ '\\' :: '\'' :: r) := rfl
      rw [he]
      by_cases hq : c = '\''
      · subst hq
        rw [if_pos rfl, List.append_assoc, List.cons_append, List.cons_append, List.nil_append, readPy, if_neg (by decide), if_neg (by decide), if_pos rfl, if_pos (.inl rfl), ih]
        rfl
      · rw [if_neg hq, List.append_assoc, List.cons_append, List.nil_append, readPy_cons hq hc.2 hc.1 (by simp), ih]
        rfl
  exact key s hs

/-- `SELECT '\'x'`: the literal of Python ends after the backslash. -/
example : python "sql".toList false [("SELECT".toList, false), (" ".toList, true), ("'\\'x'".toList, false)] = "sql = 'SELECT \\'\\\\'x\\''".toList := by decide

end EulerDB.Layout
