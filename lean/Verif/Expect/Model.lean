/-
C93: what a parser says it is expecting, how long its matches are at least, and how `Regex` reads the text of a regular expression to say the same.

Code: /repo/parsing/core.py 427-443 (`expecting`, `min_length`), parsing/tokens.py 136-140, 166-167, 216-220 and 445-449 (`Literal`, `Keyword`, `Char`), parsing/expressions.py 54-72, 230-246
and 491-496 (`ParseExpression`, `And`, `MatchFirst`), parsing/enhancement.py 61-68, 185-189 and 240-243 (`ParseEnhancement`, `NotAny`, `Many`), parsing/regex.py 54-77, 100-138, 141-259
(the grammar of regular expressions) and 267-368 (`Regex`); sql_parsing/utils.py 30 and 592-617 (the patterns of the SQL grammar).

Simplifications:
  * the parsers are those of C92 (And and MatchFirst of two elements); the dictionary that `expecting` returns is the list of its keys, the one parser of every key is left out;
  * `AnyChar()` is `Char()` with nothing included and nothing excluded; the `Combine` of a group is its content; `{0}` and braces other than `{n}` and `{n,m}` (without blanks), for which the
    parse action `repeat` fails, and `(?<=` and `(?<!` are not read (`readable`);
  * the code of a character that there is not (`\x110000`) is read as the character 0.
-/
import Verif.Regex.Model
import Verif.Choice.Model

namespace EulerDB.Expect

open EulerDB EulerDB.Regex
open EulerDB.Choice (Casing Key)

/-! ### `min_length` and `expecting` -/

/-- `min_length`. -/
def minLen : PE → Nat
  | .char _ _ => 1
  | .lit s => s.length
  | .and a b => minLen a + minLen b
  | .first a b => min (minLen a) (minLen b)
  | .key lower _ _ => lower.length
  | .orEmpty a => min (minLen a) 0
  | .many e lo _ => if lo = 0 then 0 else minLen e
  | .opt _ => 0
  | .no _ => 0
  | .ahead e => minLen e

/-- The keys of two dictionaries. -/
def union (a b : List Key) : List Key := a ++ b.filter fun k => decide (k ∉ a)

/-- The keys of `expecting`; no key: it is not known what is expected. -/
def keys (cs : Casing) : PE → List Key
  | .char inc exc => ((charSet inc).filter fun c => decide (c ∉ charSet exc)).map fun c => [c]
  | .lit s => [cs.low s]
  | .and a b =>
    if keys cs a = [] then [] else if minLen a ≠ 0 then keys cs a else if keys cs b = [] then [] else union (keys cs a) (keys cs b)
  | .first a b => if keys cs a = [] ∨ keys cs b = [] then [] else union (keys cs a) (keys cs b)
  | .key lower _ _ => [lower]
  | .orEmpty _ => []
  | .many e _ _ => keys cs e
  | .opt e => keys cs e
  | .no _ => []
  | .ahead e => keys cs e

/-! ### regex.py: reading a regular expression -/

def whites : List Char := [' ', '\t', '\n', '\r', Char.ofNat 11, Char.ofNat 12]
def nums : List Char := "0123456789".toList
def wordChars : List Char := "ABCDEFGHIJKLMNOPQRSTUVWXYZabcdefghijklmnopqrstuvwxyz0123456789_".toList

/-- The characters of `simple_char`, 202-204: `printables` without those that mean something. -/
def simple (c : Char) : Bool := decide (33 ≤ c.toNat) && decide (c.toNat ≤ 126) && decide (c ∉ ['.', '^', '$', '*', '+', '{', '}', '[', ']', '\\', '|', '(', ')'])

/-- `macro`, 144-168, without the point: the character after the backslash. -/
def macroOf (c : Char) : Option PE :=
  if c = 's' then some (.char whites []) else if c = 'w' then some (.char wordChars []) else if c = 'd' then some (.char nums [])
  else if c = 'D' then some (.char [] nums) else if c = 'W' then some (.char [] wordChars) else if c = 'S' then some (.char [] whites)
  else if c = 'n' then some (.lit ['\n']) else if c = 'r' then some (.lit ['\r']) else if c = '\\' then some (.lit ['\\']) else if c = 't' then some (.lit ['\t'])
  else none

def hexVal (c : Char) : Option Nat :=
  if c.isDigit then some (c.toNat - 48) else if 97 ≤ c.toNat ∧ c.toNat ≤ 102 then some (c.toNat - 87) else if 65 ≤ c.toNat ∧ c.toNat ≤ 70 then some (c.toNat - 55) else none

def octVal (c : Char) : Option Nat := if 48 ≤ c.toNat ∧ c.toNat ≤ 55 then some (c.toNat - 48) else none

/-- One or more digits: the number and what follows. -/
def digitsOf (val : Char → Option Nat) (base : Nat) (s : List Char) : Option (Nat × List Char) :=
  let d := s.takeWhile fun c => (val c).isSome
  if d = [] then none else some (d.foldl (fun n c => n * base + (val c).getD 0) 0, s.drop d.length)

/-- `escaped_hex`, 172-178. -/
def tHex : List Char → Option (Char × List Char)
  | '\\' :: '0' :: 'x' :: s => (digitsOf hexVal 16 s).map fun p => (Char.ofNat p.1, p.2)
  | '\\' :: 'x' :: s => (digitsOf hexVal 16 s).map fun p => (Char.ofNat p.1, p.2)
  | '\\' :: 'X' :: s => (digitsOf hexVal 16 s).map fun p => (Char.ofNat p.1, p.2)
  | _ => none

/-- `escaped_oct`, 180-182. -/
def tOct : List Char → Option (Char × List Char)
  | '\\' :: '0' :: s => (digitsOf octVal 8 s).map fun p => (Char.ofNat p.1, p.2)
  | _ => none

/-- `escaped_char | plain_char`, 169-170. -/
def tPlain : List Char → Option (Char × List Char)
  | [] => none
  | c :: s =>
    if c = '\\' then
      match s with
      | [] => none
      | d :: r => if (macroOf d).isSome then none else some (d, r)
    else if c = ']' then none
    else some (c, s)

/-- `single_char`, 184. -/
def tSingle (s : List Char) : Option (Char × List Char) := (tHex s).or ((tOct s).or (tPlain s))

/-- The characters from one to another. -/
def charsOf (a b : Char) : List Char := (List.range (b.toNat + 1 - a.toNat)).map fun i => Char.ofNat (a.toNat + i)

/-- `range_char`, 186. -/
def tRange (s : List Char) : Option (List Char × List Char) :=
  match tSingle s with
  | some (a, '-' :: r) => (tSingle r).map fun p => (charsOf a p.1, p.2)
  | _ => none

/-- What `to_bracket` takes from a parser, 64-77. -/
def included : PE → List Char
  | .lit s => s
  | .char inc exc => (charSet inc).filter fun c => decide (c ∉ charSet exc)
  | _ => []

/-- `range_char | single_char | macro`, 191. -/
def tItem (s : List Char) : Option (List Char × List Char) :=
  match tRange s with
  | some x => some x
  | none =>
    match tSingle s with
    | some (c, r) => some ([c], r)
    | none =>
      match s with
      | '\\' :: c :: r => (macroOf c).map fun e => (included e, r)
      | _ => none

/-- The loop of `OneOrMore`, 191. -/
def tItems : Nat → List Char → List Char × List Char
  | 0, s => ([], s)
  | n + 1, s =>
    match tItem s with
    | none => ([], s)
    | some (l, r) => (l ++ (tItems n r).1, (tItems n r).2)

/-- `brackets`, 188-193, and `to_bracket`; one element at least. -/
def tBrackets (s : List Char) : Option (PE × List Char) :=
  match s with
  | '[' :: s =>
    let neg := s.head? = some '^'
    let b := if neg then s.tail else s
    if (tItem b).isNone then none
    else
      match tItems b.length b with
      | (l, ']' :: r) => some (if neg then .char [] l else .char l [], r)
      | _ => none
  | _ => none

/-- A text and what follows it. -/
def after (u s : List Char) : Option (List Char) := if u.isPrefixOf s then some (s.drop u.length) else none

/-- `u + regex + ")"`. -/
def tInside (rx : List Char → Option (PE × List Char)) (u s : List Char) : Option (PE × List Char) :=
  match after u s with
  | none => none
  | some r =>
    match rx r with
    | some (e, ')' :: r') => some (e, r')
    | _ => none

/-- `named`, 231-235. -/
def tNamed (rx : List Char → Option (PE × List Char)) (s : List Char) : Option (PE × List Char) :=
  match after ['(', '?', 'P', '<'] s with
  | none => none
  | some r => if r.takeWhile (fun c => decide (c ∈ wordChars)) = [] then none else tInside rx ['>'] (r.dropWhile fun c => decide (c ∈ wordChars))

/-- `term`, 238-251. -/
def tTerm (rx : List Char → Option (PE × List Char)) (s : List Char) : Option (PE × List Char) :=
  match s with
  | [] => none
  | c :: r =>
    if c = '.' then some (.char [] [], r)
    else if simple c then some (.lit (s.takeWhile simple), s.dropWhile simple)
    else if c = '\\' then
      match r with
      | [] => none
      | d :: r => some ((macroOf d).getD (.lit [d]), r)
    else
      (tBrackets s).or (((tInside rx ['(', '?', '='] s).map fun p => (PE.ahead p.1, p.2)).or (((tInside rx ['(', '?', '!'] s).map fun p => (PE.no p.1, p.2)).or
        ((tInside rx ['(', '?', ':'] s).or ((tNamed rx s).or (tInside rx ['('] s)))))

/-- `repetition`, 207-218, and `repeat`, 109-138. -/
def tRep (e : PE) (s : List Char) : PE × List Char :=
  match s with
  | '{' :: r =>
    match readNum r with
    | (some n, '}' :: r') => (.many e n (some n), r')
    | (some n, ',' :: r') =>
      match readNum r' with
      | (some m, '}' :: r'') => (.many e n (some m), r'')
      | _ => (e, s)
    | _ => (e, s)
  | '*' :: '?' :: r => (.many e 0 none, r)
  | '+' :: '?' :: r => (.many e 1 none, r)
  | '*' :: r => (.many e 0 none, r)
  | '+' :: r => (.many e 1 none, r)
  | '?' :: r => (.many e 0 none, r)
  | s => (e, s)

/-- `more`, 253. -/
def tMore (rx : List Char → Option (PE × List Char)) (s : List Char) : Option (PE × List Char) := (tTerm rx s).map fun p => tRep p.1 p.2

/-- `sequence`, 254. -/
def tSeq (rx : List Char → Option (PE × List Char)) : Nat → List Char → Option (PE × List Char)
  | 0, _ => none
  | n + 1, s =>
    match tMore rx s with
    | none => none
    | some (e, r) =>
      match tSeq rx n r with
      | none => some (e, r)
      | some (e', r') => some (.and e e', r')

/-- `delimited_list(sequence, separator="|")`, 255-258. -/
def tAlts (rx : List Char → Option (PE × List Char)) : Nat → List Char → Option (PE × List Char)
  | 0, _ => none
  | n + 1, s =>
    match tSeq rx s.length s with
    | none => none
    | some (e, '|' :: r) =>
      match tAlts rx n r with
      | none => some (e, '|' :: r)
      | some (e', r') => some (.first e e', r')
    | some x => some x

def tRegex : Nat → List Char → Option (PE × List Char)
  | 0, _ => none
  | n + 1, s => tAlts (tRegex n) s.length s

/-- Braces are `{n}`, with n not 0, or `{n,m}`. -/
def braceOk (s : List Char) : Bool :=
  match readNum s with
  | (some n, '}' :: _) => decide (n ≠ 0)
  | (some _, ',' :: r) =>
    match readNum r with
    | (some _, '}' :: _) => true
    | _ => false
  | _ => false

/-- The patterns that the model reads. -/
def readable : List Char → Bool
  | [] => true
  | '\\' :: _ :: r => readable r
  | '{' :: r => braceOk r && readable r
  | '(' :: '?' :: '<' :: _ => false
  | _ :: r => readable r

/-- `regex.parse_string(pattern)`, 277: the parser, and the rest of the pattern, which is not looked at. -/
def translate (p : List Char) : Option (PE × List Char) := if readable p then tRegex (p.length + 1) p else none

/-! ### What Python makes of the pattern -/

/-- `\d` outside brackets is written out: `digits` is what stands in the brackets. -/
def expand (digits : List Char) : List Char → List Char
  | '\\' :: 'd' :: r => '[' :: (digits ++ ']' :: expand digits r)
  | '\\' :: c :: r => '\\' :: c :: expand digits r
  | c :: r => c :: expand digits r
  | [] => []

/-- `regex_compile(pattern)`. -/
def pyRe (digits p : List Char) : Option Re := compile (expand digits p)

/-! ### Does every match begin with a key? -/

/-- What is left of the keys after a character. -/
def strip (c : Char) (ks : List Key) : List Key :=
  ks.filterMap fun k => match k with
    | [] => none
    | d :: r => if d = c then some r else none

/-- Every match of the expressions, one after the other, begins with one of the keys. -/
def covers : Nat → List Key → List Re → Bool
  | 0, _, _ => false
  | n + 1, ks, st =>
    if [] ∈ ks then true
    else
      match st with
      | [] => false
      | .eps :: st => covers n ks st
      | .set neg items :: st => !neg && items.all fun p => (charsOf p.1 p.2).all fun c => covers n (strip c ks) st
      | .any :: _ => false
      | .seq a b :: st => covers n ks (a :: b :: st)
      | .alt a b :: st => covers n ks (a :: st) && covers n ks (b :: st)
      | .rep lo _ r :: st => (decide (lo ≠ 0) || covers n ks st) && covers n ks [r]
      | .ahead _ _ :: st => covers n ks st
      | .eot :: st => covers n ks st

end EulerDB.Expect
