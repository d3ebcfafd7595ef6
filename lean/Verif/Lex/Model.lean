/-
Model of the tokeniser, the statement splitter and the classification of statements.

Code: /repo/scheduler/compile/parse/lexer.py `get_tokens` 28-73;
/repo/scheduler/compile/parse/utils.py `consume` 105-107;
/repo/scheduler/compile/parse/keywords.py `is_keyword` 13-19, `SQL_REGEX` 22-97;
/repo/scheduler/compile/parse/engine/statement_splitter.py 12-108;
/repo/scheduler/compile/parse/engine/filter_stack.py `run` 25-44;
/repo/scheduler/compile/parse/tokens.py (token types as paths), sql.py `Token` 50-58;
/repo/scheduler/compile/token.py 28-50, `normalized` 105-110, `find_nearest_token` 523-542;
/repo/scheduler/compile/parser.py `query_type` 87-124, `tokens` 126-181, dotted names
979-1010, `_get_sqlparse_tokens` 1012-1023;
/repo/scheduler/compile/keywords_lists.py 67-79, 97-107.

Simplifications:
  * a token rule is a function of the text before and after the position: the number
    of characters it matches, or nothing; regular expressions enter only through the
    least number of characters they match (`Rx`, `sqlRules`);
  * the text is a string (not a file or bytes);
  * `upper` works on ASCII letters only;
  * grouping (`Verif/Group`, C73) keeps the leaves of a statement in order and is left out here,
    as is the joining of names that begin with digits (parser.py 1027-1050, C75);
  * the quote rewriting of `_preprocess_query` (parser.py 934-960) is left out: the
    tokens are those of the rewritten query;
  * the parenthesis bookkeeping of `tokens` (161-172) is left out; it does not change
    values or positions, but it can raise. The rules, the quote rewriting and this
    bookkeeping are in `Verif/Rules` (C76).
-/
import Verif.Py

namespace EulerDB.Lex

/-- A token type: its path below `Token`. -/
abbrev TType := List String

def Punctuation : TType := ["Punctuation"]
def Keyword : TType := ["Keyword"]
def DDL : TType := ["Keyword", "DDL"]
def Whitespace : TType := ["Text", "Whitespace"]
def Newline : TType := ["Text", "Whitespace", "Newline"]
def Comment : TType := ["Comment"]
def CommentSingle : TType := ["Comment", "Single"]
def ErrorT : TType := ["Error"]

/-- `item in ttype`, tokens.py 18-19. -/
def isIn (item ttype : TType) : Bool := ttype.isPrefixOf item

structure Token where
  ttype : TType
  value : List Char
  deriving DecidableEq, Repr

/-- A rule: from the text before (nearest character first) and after the position, the
number of characters matched; and the type given to the matched text (a constant or the
`is_keyword` lookup). -/
structure Rule where
  match' : List Char → List Char → Option Nat
  action : List Char → TType

/-- The first rule that matches, lexer.py 60-71. -/
def firstMatch : List Rule → List Char → List Char → Option (Nat × (List Char → TType))
  | [], _, _ => none
  | r :: rs, before, after =>
    match r.match' before after with
    | some n => some (n, r.action)
    | none => firstMatch rs before after

/-- lexer.py 58-73.  An empty match makes `consume` raise (`islice` of a negative
count).  The number bounds the steps; the length of the text suffices (`lex_fuel`). -/
def lexFrom (rules : List Rule) : Nat → List Char → List Char → Except PyErr (List Token)
  | _, _, [] => .ok []
  | 0, _, _ :: _ => .error .nonterm
  | fuel + 1, before, c :: t =>
    match firstMatch rules before (c :: t) with
    | none =>
      match lexFrom rules fuel (c :: before) t with
      | .error e => .error e
      | .ok l => .ok (⟨ErrorT, [c]⟩ :: l)
    | some (0, _) => .error .valueError
    | some (n + 1, action) =>
      let v := (c :: t).take (n + 1)
      match lexFrom rules fuel (v.reverse ++ before) ((c :: t).drop (n + 1)) with
      | .error e => .error e
      | .ok l => .ok (⟨action v, v⟩ :: l)

def lex (rules : List Rule) (text : List Char) : Except PyErr (List Token) :=
  lexFrom rules text.length [] text

/-! ### The statement splitter -/

structure State where
  inDeclare : Bool
  isCreate : Bool
  beginDepth : Nat
  consumeWs : Bool
  tokens : List Token
  level : Int
  deriving DecidableEq, Repr

/-- `_reset` 18-26. -/
def State.init : State := ⟨false, false, 0, false, [], 0⟩

def upper (s : List Char) : String := String.ofList (s.map Char.toUpper)

/-- `_change_splitlevel` 28-78. -/
def changeLevel (s : State) (t : Token) : State × Int :=
  if t.ttype = Punctuation ∧ t.value = ['('] then (s, 1)
  else if t.ttype = Punctuation ∧ t.value = [')'] then (s, -1)
  else if isIn t.ttype Keyword = false then (s, 0)
  else
    let u := upper t.value
    if t.ttype = DDL ∧ "CREATE".toList.isPrefixOf u.toList = true then ({ s with isCreate := true }, 0)
    else if u = "DECLARE" ∧ s.isCreate = true ∧ s.beginDepth = 0 then ({ s with inDeclare := true }, 1)
    else if u = "BEGIN" then
      ({ s with beginDepth := s.beginDepth + 1 }, if s.isCreate then 1 else 0)
    else if u = "END" then ({ s with beginDepth := s.beginDepth - 1 }, -1)
    else if (u = "IF" ∨ u = "FOR" ∨ u = "WHILE" ∨ u = "CASE") ∧ s.isCreate = true ∧ 0 < s.beginDepth then (s, 1)
    else if u = "END IF" ∨ u = "END FOR" ∨ u = "END WHILE" then (s, -1)
    else (s, 0)

/-- `ttype in EOS_TTYPE` 82, 90: membership in a tuple, hence equality. -/
def isEos (t : Token) : Bool := t.ttype == Whitespace || t.ttype == CommentSingle

/-- A semicolon that ends a statement if the level allows, 103. -/
def isSemi (t : Token) : Bool := t.ttype == Punctuation && t.value == [';']

/-- Lines 96-104: the token joins the current statement. -/
def addToken (s : State) (t : Token) : State :=
  let (s1, d) := changeLevel s t
  let s2 := { s1 with level := s1.level + d, tokens := s1.tokens ++ [t] }
  if s2.level ≤ 0 ∧ isSemi t = true then { s2 with consumeWs := true } else s2

/-- `token.is_whitespace`, sql.py 57. -/
def isSpace (t : Token) : Bool := isIn t.ttype Whitespace

/-- `process` 80-108. -/
def splitFrom : State → List Token → List (List Token)
  | s, [] => if s.tokens ≠ [] ∧ s.tokens.all isSpace = false then [s.tokens] else []
  | s, t :: r =>
    if s.consumeWs = true ∧ isEos t = false then s.tokens :: splitFrom (addToken .init t) r
    else splitFrom (addToken s t) r

def split (stream : List Token) : List (List Token) := splitFrom .init stream

/-! ### The type of a statement -/

/-- A token of `Parser.tokens` with what the classification uses. -/
structure SqlToken where
  value : List Char
  left : Bool
  comment : Bool
  position : Nat
  deriving DecidableEq, Repr

/-- `is_comment`, token.py 42: the type is `Comment` or a direct child of it. -/
def isCommentType (t : TType) : Bool := t == Comment || (t.length == 2 && t.dropLast == Comment)

def stripChar (c : Char) (s : List Char) : List Char :=
  ((s.dropWhile (· == c)).reverse.dropWhile (· == c)).reverse

/-- ``value.strip("`").strip('"')``, token.py 32 and parser.py 1007. -/
def unquote (s : List Char) : List Char := stripChar '"' (stripChar '`' s)

/-- `normalized`, token.py 105-110. -/
def normalized (v : List Char) : String :=
  upper (v.filter fun c => !(c == ' ' || c == '\n' || c == '\t' || c == '\r'))

/-- parser.py 1018-1022. -/
def isBlank (t : Token) : Bool := t.ttype == Whitespace || t.ttype.dropLast == Whitespace

def isDot (t : Token) : Bool := t.value == ['.']

/-- `_combine_qualified_names` 991-1010; the tokens before, nearest first. -/
def combine : List Token → List Char → List Char
  | d :: p :: rest, v => if isDot d = true then combine rest (unquote p.value ++ '.' :: v) else v
  | _, v => v

/-- `_is_token_part_of_complex_identifier` 979-989. -/
def isPart (t : Token) (rest : List Token) : Bool :=
  isDot t || (match rest with | [] => false | u :: _ => isDot u)

/-- The loop of parser.py 142-173: `made` tells whether a token was appended already;
if not and the index is positive, `tokens[-1]` (157) raises. -/
def sqlFrom (before : List Token) (flag made : Bool) : List Token → Except PyErr (List SqlToken)
  | [] => .ok []
  | t :: r =>
    if isPart t r = true then sqlFrom (t :: before) true made r
    else if made = false ∧ before ≠ [] then .error .indexError
    else
      match sqlFrom (t :: before) false true r with
      | .error e => .error e
      | .ok l =>
        .ok (⟨if flag then combine before (unquote t.value) else unquote t.value,
              t.value == ['('], isCommentType t.ttype, before.length⟩ :: l)

def sqlTokens (statement : List Token) : Except PyErr (List SqlToken) :=
  sqlFrom [] false false (statement.filter fun t => !isBlank t)

/-- `find_nearest_token(False, "is_left_parenthesis", "right")` over the tokens to the
right, comments included.  `none` is the empty token after the last one. -/
def nearest : List SqlToken → Option SqlToken
  | [] => none
  | t :: r => if t.left = true then nearest r else some t

/-- `SUPPORTED_QUERY_TYPES`, keywords_lists.py 97-107. -/
def supported : List (String × String) :=
  [("INSERT", "INSERT"), ("REPLACE", "REPLACE"), ("UPDATE", "UPDATE"), ("SELECT", "SELECT"),
   ("DELETE", "DELETE"), ("WITH", "SELECT"), ("CREATETABLE", "CREATE TABLE"),
   ("ALTERTABLE", "ALTER TABLE"), ("DROP", "DROP TABLE")]

def lookupType (k : String) : Except PyErr String :=
  match supported.lookup k with
  | none => .error .valueError
  | some ty => .ok ty

/-- parser.py 116-124 for the token at a place of the list without comments. -/
def typeAt (kept : List SqlToken) (i : Nat) : Except PyErr String :=
  match kept[i]? with
  | none => .error .indexError
  | some t =>
    if normalized t.value = "CREATE" ∨ normalized t.value = "ALTER" then
      match kept[i + 1]? with
      | none => .error .indexError
      | some u => lookupType (normalized t.value ++ normalized u.value)
    else lookupType (normalized t.value)

/-- parser.py `query_type` 87-124.  The position of the empty token is -1, which Python
reads as the last place. -/
def queryType (tokens : List SqlToken) : Except PyErr String :=
  match tokens.filter (fun t => !t.comment) with
  | [] => .error .valueError
  | first :: more =>
    if first.left = true then
      match nearest (tokens.dropWhile (·.comment)).tail with
      | none => typeAt (first :: more) more.length
      | some t => typeAt (first :: more) t.position
    else typeAt (first :: more) 0

/-- The type of a text: of its first statement, parser.py 134-139, 1016. -/
def textType (rules : List Rule) (text : List Char) : Except PyErr String :=
  match lex rules text with
  | .error e => .error e
  | .ok stream =>
    match split stream with
    | [] => .error .valueError
    | st :: _ =>
      match sqlTokens st with
      | .error e => .error e
      | .ok l => queryType l

/-! ### How much a rule matches at least -/

/-- Regular expressions as far as lengths go: `one` is one character of any class. -/
inductive Rx
  | eps | one
  | seq (a b : Rx) | alt (a b : Rx)
  | star (a : Rx)

/-- The lengths a regular expression can match. -/
inductive Rx.Len : Rx → Nat → Prop
  | eps : Rx.Len .eps 0
  | one : Rx.Len .one 1
  | seq {a b m n} : Rx.Len a m → Rx.Len b n → Rx.Len (.seq a b) (m + n)
  | altL {a b n} : Rx.Len a n → Rx.Len (.alt a b) n
  | altR {a b n} : Rx.Len b n → Rx.Len (.alt a b) n
  | starNil {a} : Rx.Len (.star a) 0
  | starCons {a m n} : Rx.Len a m → Rx.Len (.star a) n → Rx.Len (.star a) (m + n)

def Rx.min : Rx → Nat
  | .eps => 0
  | .one => 1
  | .seq a b => a.min + b.min
  | .alt a b => Nat.min a.min b.min
  | .star _ => 0

def Rx.opt (a : Rx) : Rx := .alt .eps a
def Rx.plus (a : Rx) : Rx := .seq a (.star a)
/-- `n` characters. -/
def Rx.word : Nat → Rx
  | 0 => .eps
  | n + 1 => .seq .one (Rx.word n)
def Rx.all : List Rx → Rx
  | [] => .eps
  | r :: rs => .seq r (Rx.all rs)
def Rx.any : List Rx → Rx
  | [] => .eps
  | [r] => r
  | r :: rs => .alt r (Rx.any rs)

open Rx in
/-- The rules of keywords.py 24-96 in order.  Look-ahead and look-behind match nothing;
a back reference is taken as any text. -/
def sqlRules : List Rx :=
  let spaces := plus one
  let eol := any [word 2, one, one, eps]
  let name := seq one (star one)
  [ all [word 2, one, star one, eol], all [word 3, star one, word 2],
    all [word 2, star one, eol], all [word 2, star one, word 2],
    any [word 2, one, one], plus one,
    word 2, word 2,
    one,
    all [one, star (alt (word 2) one), one], all [one, star (alt (word 2) one), one],
    all [one, opt name, one, star one, star one],
    one, all [one, opt (all [one, plus one, one]), one], seq one (plus one),
    seq one (plus one), seq (opt (seq (word 3) spaces)) (word 2),
    any [word 4, word 2, word 6, word 5, word 4, word 2],
    all [any [one, word 2, one], one, plus one],
    name, name, name,
    all [opt one, word 2, plus one],
    all [opt one, plus one, opt (seq one (plus one)), one, opt one, plus one],
    all [opt one, alt (all [plus one, one, star one]) (seq one (plus one))],
    seq (opt one) (plus one),
    all [one, star (any [word 2, word 2, word 2, one]), one],
    all [one, star (any [word 2, word 2, word 2, one]), one],
    alt (word 2) (all [one, star one, one, one]),
    all [one, plus one, one],
    seq (opt (alt (seq (opt (any [seq (word 4) spaces, seq (word 5) spaces, seq (word 4) spaces]))
        (opt (any [seq (word 5) spaces, seq (word 5) spaces, seq (word 8) spaces])))
      (opt (alt (seq (word 5) spaces) (seq (word 7) spaces))))) (word 4),
    seq (word 3) (opt (any [seq spaces (word 2), seq spaces (word 4), seq spaces (word 5)])),
    all [word 3, spaces, word 4], all [word 5, spaces, alt (word 5) (word 4)],
    all [word 5, spaces, word 3],
    seq (word 6) (opt (all [spaces, word 2, spaces, word 7])),
    all [word 6, spaces, word 9], all [word 5, spaces, word 2], all [word 5, spaces, word 2],
    all [word 7, spaces, word 3],
    all [word 7, spaces, word 4, spaces, any [word 7, word 6, word 15, word 10, word 5]],
    all [alt (word 2) (word 5), spaces, word 4, spaces, word 4, spaces, one, plus one, one],
    seq (opt (seq (word 3) spaces)) (any [word 4, word 5, word 5]),
    name, one, plus one, plus one ]

end EulerDB.Lex
