import Verif.Regex.Model

/-!
# White space and comments between the tokens of a statement

Transcribed from /repo/parsing/whitespaces.py: `Whitespace` 20-35, `add_ignore` 114-126, `skip` 137-162, `__regex__` 164-173; and /repo/sql_parsing/sql_parser.py 73-76, which ignores
`Literal("--") + restOfLine`, `Literal("#") + restOfLine` and `Literal("/*") + SkipTo("*/", include=True)`. `restOfLine` is `[^\n]*` (parsing/helpers.py 789-790),
`SkipTo.__regex__` 503-509 of parsing/enhancement.py gives `(.*?\*/)`, `And.__regex__` (parsing/expressions.py 307-308) joins, all compiled with DOTALL. So the pattern is
`(?:[\t-\n\r ]*(?:\-\-(?:[^\n]*)|\#(?:[^\n]*)|/\*(.*?\*/)))*[\t-\n\r ]*`.

Simplifications. The text from a position on is a list of characters, and what is left of it takes the place of the end of the match. `pattern` is the pattern in the meaning of regular
expressions of C92, with all ways to match in the order of backtracking; `skipWs` is the same as a function (`C97_pattern` proves it). The cache of `skip` is modelled separately; a
text is recognised by its content, where the code asks for the same object.
-/

namespace EulerDB.Comment

/-- `white_chars` -/
def white (c : Char) : Bool := c == ' ' || c == '\n' || c == '\r' || c == '\t'

/-- `[^\n]*` -/
def eol : List Char → List Char
  | [] => []
  | c :: l => if c = '\n' then c :: l else eol l

/-- `.*?\*/`: what is left behind the first `*/`. -/
def close : List Char → Option (List Char)
  | [] => none
  | [_] => none
  | c :: d :: l => if c = '*' ∧ d = '/' then some l else close (d :: l)

/-- Behind a dash. -/
def dash : List Char → Option (List Char)
  | [] => none
  | d :: m => if d = '-' then some (eol m) else none

/-- Behind a slash. -/
def slash : List Char → Option (List Char)
  | [] => none
  | d :: m => if d = '*' then close m else none

/-- A comment at the beginning of the text: what is left behind it. -/
def comment : List Char → Option (List Char)
  | [] => none
  | c :: l =>
    if c = '#' then some (eol l)
    else if c = '-' then dash l
    else if c = '/' then slash l
    else none

/-- The pattern; every round takes a character at least, so the length of the text is enough. -/
def skipN : Nat → List Char → List Char
  | 0, l => l
  | _ + 1, [] => []
  | n + 1, c :: l =>
    if white c then skipN n l
    else match comment (c :: l) with
      | some r => skipN n r
      | none => c :: l

/-- `whitespace.skip`: what is left behind white space and comments. -/
def skipWs (l : List Char) : List Char := skipN l.length l

/-! ## The pattern as a regular expression -/

open EulerDB.Regex (Re iter)

/-- `[\t-\n\r ]*` -/
def wsRe : Re := .rep 0 none (.set false [('\t', '\n'), ('\r', '\r'), (' ', ' ')])

/-- `(?:[^\n]*)` -/
def lineRe : Re := .rep 0 none (.set true [('\n', '\n')])

def dashRe : Re := .seq (.chr '-') (.seq (.chr '-') lineRe)

def hashRe : Re := .seq (.chr '#') lineRe

def openRe : Re := .seq (.chr '/') (.chr '*')

def closeRe : Re := .seq (.chr '*') (.chr '/')

/-- `.*?`: as few characters as possible first. -/
def lazy : List Char → List (List Char)
  | [] => [[]]
  | c :: l => (c :: l) :: lazy l

/-- `\-\-(?:[^\n]*)|\#(?:[^\n]*)|/\*(.*?\*/)` -/
def ignored (s : List Char) : List (List Char) := dashRe.den s ++ (hashRe.den s ++ (openRe.den s).flatMap fun t => (lazy t).flatMap closeRe.den)

/-- The whole pattern: what may be left, in the order of backtracking; the first is the match. -/
def pattern (s : List Char) : List (List Char) := (iter (fun t => (wsRe.den t).flatMap ignored) (s.length + 1) 0 none s).flatMap wsRe.den

/-! ## The cache of `skip` -/

/-- `content` and `skips` -/
structure Cache where
  content : Option (List Char)
  skips : List (Option Nat)

/-- The position behind white space and comments, without the cache. -/
def pos (s : List Char) (start : Nat) : Nat := start + ((s.drop start).length - (skipWs (s.drop start)).length)

/-- `skip(string, start)` for whitespace with ignored expressions: the answer and the new cache; -1 is `none`. -/
def Cache.skip (k : Cache) (s : List Char) (start : Nat) : Nat × Cache :=
  if k.content = some s then
    match k.skips[start]? with
    | none => (start, k)
    | some (some e) => (e, k)
    | some none => (pos s start, { k with skips := k.skips.set start (some (pos s start)) })
  else if s.length ≤ start then (start, ⟨some s, List.replicate s.length none⟩)
  else (pos s start, ⟨some s, (List.replicate s.length none).set start (some (pos s start))⟩)

/-- Many calls, on any texts. -/
def Cache.skips' (k : Cache) : List (List Char × Nat) → List Nat
  | [] => []
  | (s, i) :: l => (k.skip s i).1 :: (k.skip s i).2.skips' l

/-! ## What is meant -/

/-- `*/` is not in the text. -/
def Free (x : List Char) : Prop := ∀ u v, x ≠ u ++ '*' :: '/' :: v

/-- `Blank l r`: the text `l` is white space and comments (of a line: to its end; in `/*` and `*/`: to the first `*/`), and then `r`. -/
inductive Blank : List Char → List Char → Prop where
  | nil (r : List Char) : Blank r r
  | white {c : Char} {l r : List Char} : white c = true → Blank l r → Blank (c :: l) r
  | hash {x l r : List Char} : '\n' ∉ x → (l = [] ∨ l.head? = some '\n') → Blank l r → Blank ('#' :: (x ++ l)) r
  | dashes {x l r : List Char} : '\n' ∉ x → (l = [] ∨ l.head? = some '\n') → Blank l r → Blank ('-' :: '-' :: (x ++ l)) r
  | block {x l r : List Char} : Free x → Blank l r → Blank ('/' :: '*' :: (x ++ '*' :: '/' :: l)) r

/-- The text begins with something else than white space or a comment (or it begins a comment that does not end). -/
def Begins (r : List Char) : Prop :=
  r = [] ∨ ∃ c l, r = c :: l ∧ white c = false ∧ c ≠ '#' ∧ (c = '-' → l.head? ≠ some '-') ∧ (c = '/' → ∀ m, l = '*' :: m → Free m)

end EulerDB.Comment
