/-
Model of the choice of one of several words.

Code: /repo/parsing/infix.py `one_of` 46-121; /repo/parsing/tokens.py `Literal` 112-150 (126-127: the class of a
literal of one character), `SingleCharLiteral` 153-175, `Keyword` 176-227, `CaselessKeyword` 229-240,
`CaselessLiteral` 243-268.

Simplifications:
  * the words are given as a list (78-79 splits a text into it);
  * `upper` works character by character and is a parameter `f`; `f = id` is the choice that distinguishes case;
  * a pattern made of escaped words joined by `|`, and the class made of single characters, are tried as written
    (C92 is about these patterns); that `Regex` refuses a pattern that begins with `|` (the empty word and no longer one,
    regex.py 254-258, 279) is left out;
  * the white space before a word is skipped before this code is reached; a match is the word found;
  * that a choice through the lookup table is the choice in order is C89.
-/
import Verif.Py

namespace EulerDB.OneOf

/-- `other.upper().startswith(cur.upper())`, lines 70 and 74. -/
def masks (f : Char → Char) (a b : List Char) : Bool := (a.map f).isPrefixOf (b.map f)

/-- `isequal`, lines 69 and 73. -/
def isEqual (f : Char → Char) (a b : List Char) : Bool := a.map f == b.map f

/-- The loop over `symbols[i + 1:]`, lines 97-104: the first word that is equal to or begins with `cur`, with what stands
before and after it. -/
def firstMasked (f : Char → Char) (cur : List Char) : List (List Char) → Option (List (List Char) × List Char × List (List Char))
  | [] => none
  | o :: r =>
    if isEqual f o cur || masks f cur o then some ([], o, r)
    else match firstMasked f cur r with
      | none => none
      | some (pre, x, post) => some (o :: pre, x, post)

/-- The loop of lines 94-106; `done` are the words before the index. -/
def reorder (f : Char → Char) : Nat → List (List Char) → List (List Char) → Except PyErr (List (List Char))
  | 0, _, _ => .error .nonterm
  | _ + 1, done, [] => .ok done
  | fuel + 1, done, cur :: rest =>
    match firstMasked f cur rest with
    | none => reorder f fuel (done ++ [cur]) rest
    | some (pre, x, post) =>
      if isEqual f x cur then reorder f fuel done (cur :: (pre ++ post))
      else reorder f fuel done (x :: cur :: (pre ++ post))

/-- The length of the longest word. -/
def longest (l : List (List Char)) : Nat := l.foldr (fun s n => max s.length n) 0

/-- The words in the order in which they are tried. -/
def ordered (f : Char → Char) (l : List (List Char)) : Except PyErr (List (List Char)) :=
  reorder f ((l.length + 1) * (longest l + 1) + 1) [] l

/-- `CaselessLiteral(sym)` at the text: a literal of one character has become a `SingleCharLiteral`. -/
def caselessLiteral (f : Char → Char) (text sym : List Char) : Bool :=
  if sym.length = 1 then sym.isPrefixOf text else (sym.map f).isPrefixOf (text.map f)

/-- `Literal(sym)`, and what `CaselessLiteral` is meant to be. -/
def literal (f : Char → Char) (text sym : List Char) : Bool := (sym.map f).isPrefixOf (text.map f)

/-- `Keyword(sym)` and `CaselessKeyword(sym)`: the word, and then none of the characters of words. -/
def keyword (f : Char → Char) (ident : Char → Bool) (text sym : List Char) : Bool :=
  (sym.map f).isPrefixOf (text.map f) && (match text.drop sym.length with | [] => true | c :: _ => !ident c)

/-- `MatchFirst(...)`: the first word that is there. -/
def first (p : List Char → Bool) (l : List (List Char)) : Option (List Char) := l.find? p

/-- `one_of(strs, caseless=True)`. -/
def caseless (f : Char → Char) (l : List (List Char)) (text : List Char) : Except PyErr (Option (List Char)) :=
  match ordered f l with
  | .error e => .error e
  | .ok k => .ok (first (caselessLiteral f text) k)

/-- `one_of(strs, as_keyword=True)`: the words in the order given. -/
def keywords (f : Char → Char) (ident : Char → Bool) (l : List (List Char)) (text : List Char) : Option (List Char) :=
  first (keyword f ident text) l

/-- Lines 112-119: longer words first, then the class of the words of one character. -/
def pattern (k : List (List Char)) : List (List Char) :=
  (k.filter (fun s => s.length != 1)).mergeSort (fun a b => decide (b.length ≤ a.length)) ++ k.filter (fun s => s.length == 1)

/-- `one_of(strs)`. -/
def exact (l : List (List Char)) (text : List Char) : Except PyErr (Option (List Char)) :=
  match ordered id l with
  | .error e => .error e
  | .ok k => .ok (first (literal id text) (pattern k))

end EulerDB.OneOf
