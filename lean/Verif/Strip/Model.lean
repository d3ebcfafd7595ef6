/-
Model of taking the comments out of a text.

Code: /repo/scheduler/compile/generalizator.py `without_comments` 42-51 up to the call of `format`;
/repo/scheduler/compile/parse/__init__.py `format` 39-53 with `strip_comments=True`;
/repo/scheduler/compile/parse/formatter.py 157-159 (`build_filter_stack`);
/repo/scheduler/compile/parse/engine/filter_stack.py `run` 25-44;
/repo/scheduler/compile/parse/filters/others.py `StripCommentsFilter` 15-57, `SerializerUnicode` 133-137;
/repo/scheduler/compile/parse/utils.py `SPLIT_REGEX` 21-31, `LINE_MATCH` 33, `split_unquoted_newlines` 36-52.

Simplifications:
  * a token made by the filter has the identity 0: nothing asks for it;
  * `tokens.remove(token)` takes away the token at the index it was found at: tokens are equal only to
    themselves (sql.py 39-120 defines no `__eq__`) and no token is in a list twice (C73_each_token_once);
  * `token.value` of a group is what it was when the group was made (sql.py 161, 325): the text of its
    leaves before the filter took the comments out of it.  So each token of a list goes with its `value`;
  * the characters that `rstrip()` takes off are a parameter (`off`);
  * the recursion limit of Python is left out.
-/
import Verif.Group.Model

namespace EulerDB.Strip

open EulerDB.Lex EulerDB.Group

/-! ### `StripCommentsFilter` -/

def isBreak (c : Char) : Bool := c == '\r' || c == '\n'

/-- `$`: the end, or the line feed at the end. -/
def atEnd (s : List Char) : Bool := s == [] || s == ['\n']

/-- `re.search(r'((\r|\n)+) *$', value).groups()[0]`, line 29-31: at each place the whole run of line
breaks; a shorter part of it is followed by a line break, and then the run up to the end fits as well. -/
def lineBreaks : List Char → Option (List Char)
  | [] => none
  | c :: r =>
    if isBreak c && atEnd (((c :: r).dropWhile isBreak).dropWhile (· == ' ')) then some ((c :: r).takeWhile isBreak)
    else lineBreaks r

/-- `_get_insert_token(token)`, lines 23-33, for the value of the token. -/
def insertToken (value : List Char) : Tok :=
  match lineBreaks value with
  | some b => .leaf 0 Newline Newline b
  | none => .leaf 0 Whitespace Whitespace [' ']

/-- `imt(token, i=sql.Comment, t=T.Comment)`, line 21. -/
def isComment (t : Tok) : Bool := t.isInst .comment || below t Comment

def isOpen (t : Tok) : Bool := isMatch t Punctuation ["("]
def isClose (t : Tok) : Bool := isMatch t Punctuation [")"]

/-- `token.value` and the token. -/
abbrev Item := List Char × Tok

/-- `token_prev(tidx, skip_ws=False)`, sql.py 276-300 with 235-241. -/
def before (l : List Item) (i : Nat) : Option Tok := if i = 0 then none else (l[i - 1]?).map Prod.snd

/-- `token_next(tidx, skip_ws=False)`. -/
def after (l : List Item) (i : Nat) : Option Tok := (l[i + 1]?).map Prod.snd

/-- The condition of lines 41-43. -/
def alone (prev next : Option Tok) : Bool :=
  match prev, next with
  | some p, some n => p.isWhitespace || isOpen p || n.isWhitespace || isClose n
  | _, _ => true

/-- Lines 37-50 for the comment with the value `v` at the index `i`. -/
def strip1 (l : List Item) (i : Nat) (v : List Char) : List Item :=
  let new : Item := ((insertToken v).value, insertToken v)
  if alone (before l i) (after l i) then
    match before l i with
    | none => l.eraseIdx i
    | some p => if isOpen p then l.eraseIdx i else (l.take i ++ new :: l.drop i).eraseIdx (i + 1)
  else l.set i new

/-- Lines 35-52; `fuel` bounds the rounds of the loop. -/
def stripLoop : Nat → List Item → Except PyErr (List Item)
  | 0, _ => .error .nonterm
  | fuel + 1, l =>
    match l.findIdx? (fun x => isComment x.2) with
    | none => .ok l
    | some i =>
      match l[i]? with
      | none => .error .indexError
      | some x => stripLoop fuel (strip1 l i x.1)

mutual
/-- `process(stmt)`, lines 54-57. -/
def process : Tok → Except PyErr Tok
  | .leaf i m t v => .ok (.leaf i m t v)
  | .grp i c t l =>
    match processAll l with
    | .error e => .error e
    | .ok k =>
      match stripLoop (k.length + 1) k with
      | .error e => .error e
      | .ok k' => .ok (.grp i c t (k'.map Prod.snd))
/-- The list comprehension of line 55: the groups of a list one by one. -/
def processAll : List Tok → Except PyErr (List Item)
  | [] => .ok []
  | t :: r =>
    match process t with
    | .error e => .error e
    | .ok t' =>
      match processAll r with
      | .error e => .error e
      | .ok r' => .ok ((text t, t') :: r')
end

/-! ### `SerializerUnicode` -/

/-- `(?:[^q\\]|\\.)*q` after a quote `q`: what it matches, and the rest. -/
def quotedTail (q : Char) : List Char → Option (List Char × List Char)
  | [] => none
  | [c] => if c = q then some ([c], []) else none
  | c :: d :: r =>
    if c = q then some ([c], d :: r)
    else if c = '\\' then
      if d = '\n' then none
      else match quotedTail q r with
        | none => none
        | some (s, rest) => some (c :: d :: s, rest)
    else match quotedTail q (d :: r) with
      | none => none
      | some (s, rest) => some (c :: s, rest)

/-- `split_unquoted_newlines`, utils.py 36-52: `cur` is the line that is being read.  What `SPLIT_REGEX`
finds is a line break, a quoted string or characters that are neither quote nor line break; a
quote that begins no string stands between what it finds. -/
def lines : Nat → List Char → List Char → List (List Char)
  | 0, cur, _ => [cur]
  | _ + 1, cur, [] => [cur]
  | fuel + 1, cur, c :: r =>
    if c = '\r' then
      match r with
      | [] => cur :: lines fuel [] []
      | d :: r' => if d = '\n' then cur :: lines fuel [] r' else cur :: lines fuel [] (d :: r')
    else if c = '\n' then cur :: lines fuel [] r
    else if c = '"' ∨ c = '\'' then
      match quotedTail c r with
      | some (s, rest) => lines fuel (cur ++ c :: s) rest
      | none => lines fuel (cur ++ [c]) r
    else lines fuel (cur ++ [c]) r

def splitLines (s : List Char) : List (List Char) := lines (s.length + 1) [] s

/-- `rstrip()`. -/
def rstrip (off : Char → Bool) (s : List Char) : List Char := (s.reverse.dropWhile off).reverse

/-- `'\n'.join(lines)`. -/
def joinLines : List (List Char) → List Char
  | [] => []
  | [l] => l
  | l :: r => l ++ '\n' :: joinLines r

/-- `SerializerUnicode.process`. -/
def serialize (off : Char → Bool) (s : List Char) : List Char := joinLines ((splitLines s).map (rstrip off))

/-! ### `format(sql, strip_comments=True)` -/

/-- What `run` yields for one statement, filter_stack.py 34-44. -/
def formatStatement (off : Char → Bool) (l : List Token) : Except PyErr (List Char) :=
  match group l with
  | .error e => .error e
  | .ok t =>
    match process t with
    | .error e => .error e
    | .ok t' => .ok (serialize off (text t'))

def formatAll (off : Char → Bool) : List (List Token) → Except PyErr (List Char)
  | [] => .ok []
  | l :: r =>
    match formatStatement off l with
    | .error e => .error e
    | .ok s =>
      match formatAll off r with
      | .error e => .error e
      | .ok rest => .ok (s ++ rest)

/-- `format(sql, strip_comments=True)`. -/
def format (rules : List Rule) (off : Char → Bool) (sql : List Char) : Except PyErr (List Char) :=
  match lex rules sql with
  | .error e => .error e
  | .ok l => formatAll off (split l)

end EulerDB.Strip
