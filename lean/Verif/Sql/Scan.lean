/-
Model of the terminals of the SQL grammar: what is skipped between tokens, keywords,
punctuation, identifiers, numbers and strings.

Code: /repo/sql_parsing/sql_parser.py 21-37 (`no_dashes`, `simple_ident`), 48-57 (`mysql_parser`,
used by /repo/scheduler/handers/rewrite_hander.py 3), 74-78 (the comments that are skipped, `var_name`);
/repo/sql_parsing/utils.py `IDENT_CHAR`, `FIRST_IDENT_CHAR` 30-31, `keyword` 37-40, `unquote` 569-582,
`to_string` 585-588, the patterns 591-618; /repo/sql_parsing/keywords.py `RESERVED` 160-223;
/repo/parsing/whitespaces.py 22, 124-166; /repo/parsing/tokens.py `Literal` 103-140, `Keyword` 167-215;
/repo/parsing/helpers.py 790 (`restOfLine`); /repo/parsing/enhancement.py `NotAny` 125-178,
`SkipTo.__regex__` 505-511, `Combine` 676-700; /repo/parsing/expressions.py `And.parse_impl` 232-264.

Simplifications:
  * a position in the text is the list of characters that follow it;
  * the engine skips whitespace and comments after every element that consumed something (`And` 240-246,
    `Many` 242-247) and before the first (core.py 139); here every terminal skips before itself.
    Skipping twice is skipping once;
  * `\d` is an ASCII digit;
  * parse results carry only their value: names and positions are resolved where the values are combined
    (`Parser.lean`);
  * names in square brackets, and backslashes or line breaks in a back-quoted name, are outside the model
    (`R.unmod`).
-/
import Verif.Format.Literal

namespace EulerDB.Sql

/-- The outcome of a parser at a position: a value and what follows, a `ParseException`, any other exception,
or a construct that is outside this model. -/
inductive R (α : Type) where
  | ok (a : α) (rest : List Char)
  | fail
  | crash
  | unmod
  deriving Repr

/-- whitespaces.py 22. -/
def white (c : Char) : Bool := c == ' ' || c == '\n' || c == '\r' || c == '\t'

/-- Inside what `skip` is. -/
inductive Mode where
  | code | line | opening | block | closing
  deriving DecidableEq, Repr

/-- Does a `*/` follow? -/
def closed : List Char → Bool
  | [] => false
  | c :: r => (c == '*' && r.head? == some '/') || closed r

/-- sql_parser.py 74-76 and whitespaces.py 166, `(?:white*(?:--[^\n]*|#[^\n]*|/\*.*?\*/))*white*`. -/
def skipM : Mode → List Char → List Char
  | _, [] => []
  | .code, c :: r =>
    if white c then skipM .code r
    else if c = '#' then skipM .line r
    else if c = '-' ∧ r.head? = some '-' then skipM .line r
    else if c = '/' ∧ r.head? = some '*' ∧ closed r.tail = true then skipM .opening r
    else c :: r
  | .line, c :: r => if c = '\n' then skipM .code r else skipM .line r
  | .opening, _ :: r => skipM .block r
  | .block, c :: r => if c = '*' ∧ r.head? = some '/' then skipM .closing r else skipM .block r
  | .closing, _ :: r => skipM .code r

def skip (s : List Char) : List Char := skipM .code s

/-- The whitespace without comments that the compound keywords of keywords.py are built with. -/
def skipWhite (s : List Char) : List Char := s.dropWhile white

/-- whitespaces.py 24: the characters that end no keyword. -/
def keyChar (c : Char) : Bool := c.isAlphanum || c == '_' || c == '$'

/-- tokens.py 187: `($|(?![..]))`. -/
def boundary : List Char → Bool
  | [] => true
  | c :: _ => !keyChar c

/-- A keyword in any case, at this very position; `w` is in lower case. -/
def kwAt : List Char → List Char → Option (List Char)
  | [], s => if boundary s then some s else none
  | _ :: _, [] => none
  | d :: w, c :: s => if c.toLower = d then kwAt w s else none

/-- A keyword. -/
def kw (w : String) (s : List Char) : Option (List Char) := kwAt w.toList (skip s)

/-- Further keywords, with whitespace but no comments between them. -/
def kwsTail : List String → List Char → Option (List Char)
  | [], s => some s
  | w :: ws, s =>
    match kwAt w.toList (skipWhite s) with
    | some r => kwsTail ws r
    | none => none

/-- utils.py 37-40 and keywords.py 126-157: several keywords; the whitespace of keywords.py knows no comments. -/
def kws : List String → List Char → Option (List Char)
  | [], s => some s
  | w :: ws, s =>
    match kw w s with
    | some r => kwsTail ws r
    | none => none

/-- The first of some keywords. -/
def anyKw (ws : List String) (s : List Char) : Bool := ws.any fun w => (kw w s).isSome

/-- A text at this very position. -/
def litAt : List Char → List Char → Option (List Char)
  | [], s => some s
  | _ :: _, [] => none
  | d :: w, c :: s => if c = d then litAt w s else none

/-- A text. -/
def lit (w : String) (s : List Char) : Option (List Char) := litAt w.toList (skip s)

/-! ### Identifiers -/

/-- utils.py 30. -/
def identChar (c : Char) : Bool :=
  c.isAlphanum || c == '@' || c == '_' || c == '$' || (decide (0xC0 ≤ c.toNat) && decide (c.toNat ≤ 0xD6)) ||
    (decide (0xD8 ≤ c.toNat) && decide (c.toNat ≤ 0xF6)) || (decide (0xF8 ≤ c.toNat) && decide (c.toNat ≤ 0x1BF))

/-- utils.py 31. -/
def firstChar (c : Char) : Bool := identChar c && !c.isDigit

/-- `[^ 0-9]`. -/
def dashSide (c : Char) : Bool := c != ' ' && !c.isDigit

/-- sql_parser.py 32-36: the characters after the first; `p` is the one before. -/
def simpleTail : Char → List Char → List Char × List Char
  | _, [] => ([], [])
  | p, c :: r =>
    if identChar c then (c :: (simpleTail c r).1, (simpleTail c r).2)
    else if c = '-' ∧ dashSide p = true ∧ (r.head?.map dashSide) = some true then (c :: (simpleTail c r).1, (simpleTail c r).2)
    else ([], c :: r)

/-- sql_parser.py 21-36: a plain name; one with a dash is refused. -/
def simple : List Char → R (List Char)
  | [] => .fail
  | c :: r =>
    if firstChar c then
      if '-' ∈ (simpleTail c r).1 then .fail else .ok (c :: (simpleTail c r).1) (simpleTail c r).2
    else .fail

/-- `s.replace(".", "\\.")`. -/
def dotEscape : List Char → List Char
  | [] => []
  | c :: r => if c = '.' then '\\' :: '.' :: dotEscape r else c :: dotEscape r

/-- ``s.replace("``", "`")``. -/
def undouble : List Char → List Char
  | [] => []
  | [c] => [c]
  | c :: d :: r => if c = '`' ∧ d = '`' then '`' :: undouble r else c :: undouble (d :: r)

/-- Characters of a back-quoted name that `ast.literal_eval` leaves as they are. -/
def namePlain (c : Char) : Bool := c != '\\' && c != '\n' && c != '\r' && c != Char.ofNat 0

/-- One part of a name: mysql_backtick_ident | sqlserver_ident | simple_ident. -/
def part : List Char → R (List Char)
  | [] => .fail
  | c :: r =>
    if c = '`' then
      match Format.rawStr '`' r with
      | none => .fail
      | some (raw, rest) => if raw.all namePlain then .ok (dotEscape (undouble raw)) rest else .unmod
    else if c = '[' then .unmod
    else simple (c :: r)

/-- The further parts `.x` of a name (at most `n`), whitespace around the dots. -/
def moreParts : Nat → List Char → R (List Char)
  | 0, s => .ok [] s
  | n + 1, s =>
    match skipWhite s with
    | c :: r =>
      if c = '.' then
        match part (skipWhite r) with
        | .ok p r1 =>
          match moreParts n r1 with
          | .ok ps r2 => .ok ('.' :: (p ++ ps)) r2
          | x => x
        | .fail => .ok [] s
        | x => x
      else .ok [] s
    | [] => .ok [] s

/-- `mysql_ident`, at this very position. -/
def identAt (s : List Char) : R (List Char) :=
  match part s with
  | .ok p r =>
    match moreParts r.length r with
    | .ok ps r1 => .ok (p ++ ps) r1
    | x => x
  | x => x

/-- keywords.py 160-223; `GROUP_BY` and `IS_NOT` begin with words of the list. -/
def reservedWords : List String :=
  ["all", "and", "as", "asc", "between", "by", "case", "collate", "constraint", "create", "cross", "desc", "distinct", "except", "else",
   "end", "false", "fetch", "foreign", "from", "full", "group", "having", "in", "index", "inner", "intersect", "interval", "is", "join",
   "key", "lateral", "left", "like", "limit", "minus", "nocase", "not", "null", "offset", "on", "or", "order", "outer", "over", "partition",
   "primary", "references", "right", "rlike", "select", "then", "true", "union", "unique", "using", "when", "where", "window", "with",
   "within"]

/-- sql_parser.py 78: `~RESERVED + ident`. -/
def varName (s : List Char) : R (List Char) :=
  if anyKw reservedWords s then .fail else identAt (skip s)

/-! ### Numbers -/

/-- The digits at the beginning. -/
def digits : List Char → List Char × List Char
  | [] => ([], [])
  | c :: r => if c.isDigit then (c :: (digits r).1, (digits r).2) else ([], c :: r)

def digitVal (c : Char) : Nat := c.toNat - 48

/-- The number the digits spell, `a` being what came before. -/
def natOf (a : Nat) (l : List Char) : Nat := l.foldl (fun n c => 10 * n + digitVal c) a

/-- `[+-]?`. -/
def signOf : List Char → Bool × List Char
  | c :: r => if c = '-' then (true, r) else if c = '+' then (false, r) else (false, c :: r)
  | [] => (false, [])

/-- The exponent of a real number, `([eE][+-]?\d+)?`. -/
def realExp : List Char → Int × List Char
  | c :: r =>
    if c = 'e' ∨ c = 'E' then
      if (digits (signOf r).2).1 = [] then (0, c :: r)
      else ((if (signOf r).1 then -(natOf 0 (digits (signOf r).2).1 : Int) else natOf 0 (digits (signOf r).2).1), (digits (signOf r).2).2)
    else (0, c :: r)
  | [] => (0, [])

/-- The exponent of an integer, `([eE]\+?\d+)?`; none: there is none. -/
def intExp : List Char → Option Nat × List Char
  | c :: r =>
    if c = 'e' ∨ c = 'E' then
      if r.head? = some '-' ∨ (digits (signOf r).2).1 = [] then (none, c :: r)
      else (some (natOf 0 (digits (signOf r).2).1), (digits (signOf r).2).2)
    else (none, c :: r)
  | [] => (none, [])

/-- A number as written: sign, digits (of the whole and of the fraction), exponent. -/
structure Num where
  neg : Bool
  whole : List Char
  frac : List Char
  exp : Int
  deriving DecidableEq, Repr

/-- utils.py 592-595, `[+-]?(\d+\.\d*|\.\d+)([eE][+-]?\d+)?`. -/
def realNum (s : List Char) : Option (Num × List Char) :=
  let s1 := (signOf s).2
  let w := digits s1
  match w.2 with
  | c :: r =>
    if c = '.' ∧ (w.1 ≠ [] ∨ (digits r).1 ≠ []) then
      some (⟨(signOf s).1, w.1, (digits r).1, (realExp (digits r).2).1⟩, (realExp (digits r).2).2)
    else none
  | [] => none

/-- utils.py 605, `[+-]?\d+([eE]\+?\d+)?`. -/
def intNum (s : List Char) : Option ((Bool × List Char × Option Nat) × List Char) :=
  let s1 := (signOf s).2
  let w := digits s1
  if w.1 = [] then none else some (((signOf s).1, w.1, (intExp w.2).1), (intExp w.2).2)

def hexChar (c : Char) : Bool := c.isDigit || (decide ('a' ≤ c) && decide (c ≤ 'f')) || (decide ('A' ≤ c) && decide (c ≤ 'F'))

/-- utils.py 606-608, `0x[0-9a-fA-F]+`. -/
def hexNum : List Char → Option (List Char × List Char)
  | '0' :: 'x' :: r => if r.takeWhile hexChar = [] then none else some (r.takeWhile hexChar, r.dropWhile hexChar)
  | _ => none

end EulerDB.Sql
