/-
Model of the other options of `format`: case of words, cutting of literals, blanks around operators, fewer blanks,
and the statement as a literal of Python.

Code: /repo/scheduler/compile/parse/filters/tokens.py 11-59 (the whole file);
/repo/scheduler/compile/parse/filters/others.py `StripWhitespaceFilter` 60-102, `SpacesAroundOperatorsFilter` 105-127;
/repo/scheduler/compile/parse/filters/output.py `OutputFilter` 12-31, `OutputPythonFilter` 34-75;
/repo/scheduler/compile/parse/formatter.py `build_filter_stack` 132-198 (the order of the filters);
/repo/scheduler/compile/parse/engine/filter_stack.py `run` 25-44;
/repo/scheduler/compile/parse/sql.py `insert_before` 359-364, `insert_after` 366-375.

Simplifications:
  * the function that changes the case (`str.upper`, `str.lower`, `str.capitalize`) and the characters that `strip()`
    takes off are parameters;
  * a token made by a filter has the identity 0: nothing asks for it;
  * `tokens.remove(last_nl)` takes away the token just before the one looked at: tokens are equal only to themselves;
  * `is_whitespace` is set when a token is made (sql.py 57), as in the model of grouping;
  * for the literal of Python, the tokens of the statement are its `value`s with `is_whitespace`;
  * the recursion limit of Python is left out.
-/
import Verif.Strip.Model

namespace EulerDB.Layout

open EulerDB.Lex EulerDB.Group

/-! ### Filters on the tokens of the lexer, tokens.py -/

/-- `KeywordCaseFilter`, lines 11-26. -/
def keywordCase (conv : List Char → List Char) (l : List Token) : List Token :=
  l.map fun t => if isIn t.ttype Keyword then { t with value := conv t.value } else t

/-- `IdentifierCaseFilter`, lines 29-36: `ttype in self.ttype` is membership in a pair, hence equality; `strip()[0]` of a
blank text is an error. -/
def identifierCase (off : Char → Bool) (conv : List Char → List Char) : List Token → Except PyErr (List Token)
  | [] => .ok []
  | t :: r =>
    match identifierCase off conv r with
    | .error e => .error e
    | .ok r' =>
      if t.ttype = Name ∨ t.ttype = Symbol then
        match t.value.dropWhile off with
        | [] => .error .indexError
        | c :: _ => if c = '"' then .ok (t :: r') else .ok ({ t with value := conv t.value } :: r')
      else .ok (t :: r')

/-- `value[n:-n]`. -/
def inside (n : Nat) (s : List Char) : List Char := (s.take (s.length - n)).drop n

/-- Lines 50-58 for the text of a literal. -/
def cut (width : Nat) (mark value : List Char) : List Char :=
  let two : Bool := value.take 2 == ['\'', '\'']
  let inner := if two then inside 2 value else inside 1 value
  let quote := if two then ['\'', '\''] else ['\'']
  if width < inner.length then quote ++ inner.take width ++ mark ++ quote else value

/-- `TruncateStringFilter`, lines 39-59. -/
def truncate (width : Nat) (mark : List Char) (l : List Token) : List Token :=
  l.map fun t => if t.ttype = Single then { t with value := cut width mark t.value } else t

/-! ### `SpacesAroundOperatorsFilter`, others.py 105-127 -/

def blank : Tok := .leaf 0 Whitespace Whitespace [' ']

/-- `token_next_by(t=ttypes)`, line 110: the types are given as a tuple. -/
def isOp (t : Tok) : Bool := among t [Operator, Comparison]

/-- `tokens.insert(n, token)`. -/
def put (l : List Tok) (n : Nat) (t : Tok) : List Tok := l.take n ++ t :: l.drop n

/-- `insert_after(i, token)` with `skip_ws=True`. -/
def putAfter (l : List Tok) (i : Nat) (t : Tok) : List Tok :=
  match tokenNext l i with
  | none => l ++ [t]
  | some n => put l n t

/-- `next_ and next_.ttype != T.Whitespace`. -/
def needs (t : Option Tok) : Bool :=
  match t with
  | none => false
  | some t => t.ttype? != some Whitespace

def behind (l : List Tok) (i : Nat) : List Tok := if needs l[i + 1]? then putAfter l i blank else l

def previous (l : List Tok) (i : Nat) : Option Tok := if i = 0 then none else l[i - 1]?

/-- Lines 112-119 for the operator at `i`: the tokens and the index of the operator afterwards. -/
def around (l : List Tok) (i : Nat) : List Tok × Nat :=
  if needs (previous (behind l i) i) then (put (behind l i) i blank, i + 1) else (behind l i, i)

/-- Lines 110-122; `fuel` bounds the rounds of the loop, `start` is where the next search begins. -/
def spaceLoop : Nat → List Tok → Nat → Except PyErr (List Tok)
  | 0, _, _ => .error .nonterm
  | fuel + 1, l, start =>
    match findFrom isOp l start with
    | none => .ok l
    | some i => spaceLoop fuel (around l i).1 ((around l i).2 + 1)

mutual
/-- `process(stmt)`, lines 124-127. -/
def spaces : Tok → Except PyErr Tok
  | .leaf i m t v => .ok (.leaf i m t v)
  | .grp i c t l =>
    match spacesAll l with
    | .error e => .error e
    | .ok k =>
      match spaceLoop (k.length + 1) k 0 with
      | .error e => .error e
      | .ok k' => .ok (.grp i c t k')
def spacesAll : List Tok → Except PyErr (List Tok)
  | [] => .ok []
  | t :: r =>
    match spaces t with
    | .error e => .error e
    | .ok t' =>
      match spacesAll r with
      | .error e => .error e
      | .ok r' => .ok (t' :: r')
end

/-! ### `StripWhitespaceFilter`, others.py 60-102 -/

/-- `token.value = v`. -/
def setValue (v : List Char) : Tok → Tok
  | .leaf i m t _ => .leaf i m t v
  | .grp i c t l => .grp i c t l

/-- `_stripws_default`, lines 67-74. -/
def single (last first : Bool) : List Tok → List Tok
  | [] => []
  | t :: r => (if t.isWhitespace then setValue (if last || first then [] else [' ']) t else t) :: single t.isWhitespace false r

def isComma (t : Tok) : Bool := isMatch t Punctuation [","]

/-- The loop of `_stripws_identifierlist`, lines 78-82. -/
def noGapBeforeComma : List Tok → List Tok
  | [] => []
  | [t] => [t]
  | t :: u :: r => if t.isWhitespace && isComma u then noGapBeforeComma (u :: r) else t :: noGapBeforeComma (u :: r)

/-- `while tokens[1].is_whitespace: tokens.pop(1)`, lines 91-92; with the tokens in reverse, lines 93-94. -/
def popSecond (a : Tok) : List Tok → Except PyErr (List Tok)
  | [] => .error .indexError
  | b :: r => if b.isWhitespace then popSecond a r else .ok (a :: b :: r)

def popGaps : List Tok → Except PyErr (List Tok)
  | [] => .error .indexError
  | a :: r => popSecond a r

/-- `_stripws_parenthesis`, lines 90-95. -/
def trimmed (l : List Tok) : Except PyErr (List Tok) :=
  match popGaps l with
  | .error e => .error e
  | .ok l1 =>
    match popGaps l1.reverse with
    | .error e => .error e
    | .ok l2 => .ok (single false true l2.reverse)

/-- `_stripws`, lines 61-64. -/
def stripList (c : Cls) (l : List Tok) : Except PyErr (List Tok) :=
  if c = .identifierList then .ok (single false true (noGapBeforeComma l))
  else if c = .parenthesis then trimmed l
  else .ok (single false true l)

mutual
/-- `process(stmt, depth)` below the statement, lines 97-99. -/
def fewer : Tok → Except PyErr Tok
  | .leaf i m t v => .ok (.leaf i m t v)
  | .grp i c t l =>
    match fewerAll l with
    | .error e => .error e
    | .ok k =>
      match stripList c k with
      | .error e => .error e
      | .ok k' => .ok (.grp i c t k')
def fewerAll : List Tok → Except PyErr (List Tok)
  | [] => .ok []
  | t :: r =>
    match fewer t with
    | .error e => .error e
    | .ok t' =>
      match fewerAll r with
      | .error e => .error e
      | .ok r' => .ok (t' :: r')
end

/-- `if stmt.tokens and stmt.tokens[-1].is_whitespace: stmt.tokens.pop(-1)`, lines 100-101. -/
def noLastGap (l : List Tok) : List Tok :=
  match l.getLast? with
  | none => l
  | some t => if t.isWhitespace then l.dropLast else l

/-- `process(stmt)`. -/
def fewerSpaces (t : Tok) : Except PyErr Tok :=
  match fewer t with
  | .error e => .error e
  | .ok (.leaf i m ty v) => .ok (.leaf i m ty v)
  | .ok (.grp i c ty l) => .ok (.grp i c ty (noLastGap l))

/-! ### `format` with one of these filters -/

def formatStatement (work : Tok → Except PyErr Tok) (off : Char → Bool) (l : List Token) : Except PyErr (List Char) :=
  match group l with
  | .error e => .error e
  | .ok t =>
    match work t with
    | .error e => .error e
    | .ok t' => .ok (Strip.serialize off (text t'))

def formatAll (work : Tok → Except PyErr Tok) (off : Char → Bool) : List (List Token) → Except PyErr (List Char)
  | [] => .ok []
  | l :: r =>
    match formatStatement work off l with
    | .error e => .error e
    | .ok s =>
      match formatAll work off r with
      | .error e => .error e
      | .ok rest => .ok (s ++ rest)

/-- `format(sql, use_space_around_operators=True)` with `work = spaces`, `format(sql, strip_whitespace=True)` with
`work = fewerSpaces`. -/
def format (rules : List Rule) (work : Tok → Except PyErr Tok) (off : Char → Bool) (sql : List Char) : Except PyErr (List Char) :=
  match lex rules sql with
  | .error e => .error e
  | .ok l => formatAll work off (split l)

/-! ### `OutputPythonFilter`, output.py 34-75 -/

/-- `token.value.replace("'", "\\'")`, lines 66-67. -/
def escaped (s : List Char) : List Char := s.flatMap fun c => if c = '\'' then ['\\', '\''] else [c]

/-- `token.value.split('\n', 1)[1]`. -/
def afterBreak (s : List Char) : List Char := (s.dropWhile (· != '\n')).drop 1

/-- Lines 48-70: `value` and `is_whitespace` of each token. -/
def pythonBody (name : List Char) : List (List Char × Bool) → List Char
  | [] => []
  | (v, w) :: r =>
    if w && v.contains '\n' then
      [' ', '\'', '\n'] ++ List.replicate (name.length + 4) ' ' ++ ['\''] ++ afterBreak v ++ pythonBody name r
    else escaped v ++ pythonBody name r

/-- `_process`, lines 35-75, for the first statement; `multi` is `has_nl`. -/
def python (name : List Char) (multi : Bool) (l : List (List Char × Bool)) : List Char :=
  name ++ [' ', '=', ' '] ++ (if multi then ['('] else []) ++ ['\''] ++ pythonBody name l ++ ['\''] ++ (if multi then [')'] else [])

end EulerDB.Layout
