/-
Model of how strings and identifiers are written into SQL text, how the backend's
lexer reads them, and how the proxy's own parser reads string literals.

Code: /repo/sql_parsing/formatting.py `VALID` 22, `should_quote` 33-44,
`escape` 47-63, `Formatter._literal` 373-383, `__init__` 159-161 (`ansi_quotes=True`);
/repo/sql_parsing/utils.py `unquote` 569-582, `to_string` 585-588,
`ansi_string`, `mysql_doublequote_string` 611-612, `mysql_backtick_ident` 616;
/repo/scheduler/handers/rewrite_hander.py 77 (`format(json)` with the defaults).

The backend's lexer is trusted: MySQL 5.7/8, "String Literals" and "Schema Object
Names" of the reference manual, with the two SQL modes that matter as parameters:
`bs` (backslash escapes; off in `NO_BACKSLASH_ESCAPES`) and `ansi` (`ANSI_QUOTES`).
The default mode is `bs = true`, `ansi = false`.

Simplifications:
  * `\w` beyond ASCII is a parameter `uni`, the proxy's reserved words a parameter
    `kw`, the backend's reserved words a parameter `res`;
  * Python's `\x`, `\u`, `\U`, `\N` and octal escapes are a parameter `long` which maps
    the text after the backslash to the characters produced and those left;
  * two adjacent Python literals produced by a stray quote are an error here.
-/
import Verif.Format.Dots

namespace EulerDB.Format

open EulerDB.Text

/-! ### Writing -/

/-- `s.replace(q, 2 * q)`. -/
def doubled (q : Char) : List Char → List Char
  | [] => []
  | c :: t => if c = q then q :: q :: doubled q t else c :: doubled q t

/-- Text between two quotes, with the quotes inside doubled. -/
def quoted (q : Char) (s : List Char) : List Char := q :: (doubled q s ++ [q])

/-- formatting.py 377-378. -/
def literalText (s : List Char) : List Char := quoted '\'' s

/-- `", ".join`. -/
def commas : List (List Char) → List Char
  | [] => []
  | [w] => w
  | w :: ws => w ++ ',' :: ' ' :: commas ws

/-- formatting.py 374-376: a list of strings. -/
def literalList (l : List (List Char)) : List Char := '(' :: (commas (l.map literalText) ++ [')'])

/-- A letter `[a-zA-Z_]`. -/
def letter (c : Char) : Bool := c.isAlpha || c == '_'

/-- `\w`. -/
def word (uni : Char → Bool) (c : Char) : Bool := c.isAlphanum || c == '_' || (decide (128 ≤ c.toNat) && uni c)

/-- `VALID.match`: the `$` also matches before a final newline. -/
def valid (uni : Char → Bool) : List Char → Bool
  | [] => false
  | c :: t => letter c && (t.all (word uni) || (t.getLast? == some '\n' && t.dropLast.all (word uni)))

/-- formatting.py `should_quote` 33-44. -/
def shouldQuote (uni : Char → Bool) (kw : List Char → Bool) (s : List Char) : Bool :=
  s != ['*'] && (!valid uni s || kw s)

/-- formatting.py `esc` 55-61 with `ansi_quotes=True`. -/
def esc (uni : Char → Bool) (kw : List Char → Bool) (s : List Char) : List Char :=
  if shouldQuote uni kw s then quoted '"' s else s

/-- formatting.py `escape` 47-63; a parent step makes `VALID.match` raise. -/
def escape (uni : Char → Bool) (kw : List Char → Bool) (s : List Char) : Option (List Char) :=
  let p := splitField s
  if p.ups = 0 then some (join '.' (p.names.map (esc uni kw))) else none

/-! ### The backend's lexer -/

/-- What a backslash followed by `d` stands for. -/
def unesc (d : Char) : List Char :=
  if d = '0' then [Char.ofNat 0]
  else if d = 'b' then [Char.ofNat 8]
  else if d = 'n' then ['\n']
  else if d = 'r' then ['\r']
  else if d = 't' then ['\t']
  else if d = 'Z' then [Char.ofNat 26]
  else if d = '%' then ['\\', '%']
  else if d = '_' then ['\\', '_']
  else [d]

/-- Reads the rest of a text quoted with `q`: its value and what follows. -/
def readStr (bs : Bool) (q : Char) : List Char → Option (List Char × List Char)
  | [] => none
  | [c] => if c = q then some ([], []) else none
  | c :: d :: t =>
    if c = q then
      if d = q then (readStr bs q t).map fun p => (q :: p.1, p.2)
      else some ([], d :: t)
    else if bs && c == '\\' then (readStr bs q t).map fun p => (unesc d ++ p.1, p.2)
    else (readStr bs q (d :: t)).map fun p => (c :: p.1, p.2)

/-- A character of an unquoted name. -/
def nameChar (c : Char) : Bool :=
  c.isAlphanum || c == '_' || c == '$' || (decide (128 ≤ c.toNat) && decide (c.toNat ≤ 65535))

inductive Item
  | str (s : List Char)
  | ident (s : List Char)
  | keyword (s : List Char)
  deriving DecidableEq, Repr

/-- Reads one string, identifier or keyword.  A word that begins with a digit is left to
the rules for numbers, which are not modelled: none. -/
def readItem (bs ansi : Bool) (res : List Char → Bool) : List Char → Option (Item × List Char)
  | [] => none
  | c :: t =>
    if c = '\'' then (readStr bs '\'' t).map fun p => (.str p.1, p.2)
    else if c = '`' then (readStr false '`' t).map fun p => (.ident p.1, p.2)
    else if c = '"' then
      if ansi then (readStr false '"' t).map fun p => (.ident p.1, p.2)
      else (readStr bs '"' t).map fun p => (.str p.1, p.2)
    else if nameChar c && !c.isDigit then
      let w := c :: t.takeWhile nameChar
      some (if res w then .keyword w else .ident w, t.dropWhile nameChar)
    else none

/-! ### The proxy's own reading of string literals -/

/-- `s.replace("''", "\\'")`. -/
def pairToEscape : List Char → List Char
  | [] => []
  | [c] => [c]
  | c :: d :: t => if c = '\'' ∧ d = '\'' then '\\' :: '\'' :: pairToEscape t else c :: pairToEscape (d :: t)

/-- The one-character escapes of a Python string literal. -/
def pyEscape (d : Char) : Option (List Char) :=
  if d = '\n' then some []
  else if d = '\\' then some ['\\']
  else if d = '\'' then some ['\'']
  else if d = '"' then some ['"']
  else if d = 'a' then some [Char.ofNat 7]
  else if d = 'b' then some [Char.ofNat 8]
  else if d = 'f' then some [Char.ofNat 12]
  else if d = 'n' then some ['\n']
  else if d = 'r' then some ['\r']
  else if d = 't' then some ['\t']
  else if d = 'v' then some [Char.ofNat 11]
  else none

/-- Does a longer escape (`\x`, `\u`, `\U`, `\N`, octal) begin with `d`? -/
def longEscape (d : Char) : Bool :=
  d == 'x' || d == 'u' || d == 'U' || d == 'N' || (decide ('0' ≤ d) && decide (d ≤ '7'))

/-- `ast.literal_eval` of a single-quoted Python literal with the given body; `none` is
an exception.  The number bounds the steps. -/
def pyEval (long : List Char → Option (List Char × List Char)) : Nat → List Char → Option (List Char)
  | _, [] => some []
  | 0, _ => none
  | n + 1, c :: t =>
    if c = '\'' ∨ c = '\n' ∨ c = '\r' ∨ c = Char.ofNat 0 then none
    else if c = '\\' then
      match t with
      | [] => none
      | d :: u =>
        if longEscape d then
          match long t with
          | none => none
          | some (v, r) => (pyEval long n r).map (v ++ ·)
        else
          match pyEscape d with
          | some v => (pyEval long n u).map (v ++ ·)
          | none => (pyEval long n t).map ('\\' :: ·)
    else (pyEval long n t).map (c :: ·)

/-- The quotes of the text found by the token patterns of utils.py 611-612: the text up
to the first quote that is not doubled, still with its doubled quotes. -/
def rawStr (q : Char) : List Char → Option (List Char × List Char)
  | [] => none
  | [c] => if c = q then some ([], []) else none
  | c :: d :: t =>
    if c = q then
      if d = q then (rawStr q t).map fun p => (q :: q :: p.1, p.2)
      else some ([], d :: t)
    else (rawStr q (d :: t)).map fun p => (c :: p.1, p.2)

/-- utils.py `to_string` 585-588 on the text after an opening quote `q`. -/
def toString' (long : List Char → Option (List Char × List Char)) (q : Char) (t : List Char) :
    Option (List Char × List Char) :=
  match rawStr q t with
  | none => none
  | some (raw, rest) =>
    let body := pairToEscape raw
    (pyEval long body.length body).map fun v => (v, rest)

end EulerDB.Format
