/-
C92: the regular expressions that the parsing library writes for its parsers, how Python reads them, and what they match.

Code: /repo/parsing/utils.py 77-148 (`regex_compile`, `regex_iso`, `regex_caseless`, `regex_range`), parsing/tokens.py 112-174 (`Literal`, `SingleCharLiteral`), 177-228 (`Keyword`),
334-412 (`Word`), 415-458 (`Char`), 461-531 (`CharsNotIn`), parsing/expressions.py 252-308 and 473-562 (`And`, `MatchFirst`), parsing/enhancement.py 105-197 (`LookAhead`, `NotAny`),
200-371 (`Many`) and 443-465 (`Optional`), parsing/core.py 567-613 and 665-668 (`expr[min:max]`), sql_parsing/utils.py 37-40 (`keyword`), sql_parsing/keywords.py 159-225 (`RESERVED`).

Simplifications:
  * a pattern is read as Python's `re` reads it (before 3.11, where a repetition of a repetition is an error); backslash with a letter or a digit other than \n, \r, \t, the
    character `^` outside brackets, lazy repetitions and groups other than `(…)`, `(?:…)`, `(?=…)` and `(?!…)` are not read (`none`); all patterns are compiled with DOTALL;
  * a match is the list of the texts that are left, in the order in which backtracking finds them; `match` takes the first;
  * And and MatchFirst have two elements (the pattern of three is that of two and one), the elements of MatchFirst are tried in order (see C89), elements have no names and no parse
    actions, MAX_INT is no bound; a repetition of an element that takes nothing has no result (the loop of `Many` does not end);
  * `str.lower` and `str.upper` are parameters of `caseless` and of keywords;
  * Python strings may have surrogates, `Char` has none.
-/
import Verif.Text

namespace EulerDB.Regex

open EulerDB

/-! ### utils.py -/

/-- `_escapes`, utils.py 113-114. -/
def esc (c : Char) : List Char :=
  if c = '\n' then ['\\', 'n'] else if c = '\r' then ['\\', 'r'] else if c = '\t' then ['\\', 't']
  else if c ∈ ['.', '^', '$', '*', '?', '+', '-', '{', '}', '[', ']', '\\', '|', '(', ')'] then ['\\', c] else [c]

def insertChar (c : Char) : List Char → List Char
  | [] => [c]
  | d :: r => if c.toNat < d.toNat then c :: d :: r else if c = d then d :: r else d :: insertChar c r

/-- `sorted(set(s))`. -/
def charSet : List Char → List Char
  | [] => []
  | c :: r => insertChar c (charSet r)

/-- The loop of `regex_range`, utils.py 133-147; the list ends with the character 7. -/
def rangeLoop : Option Char → Option Char → List Char → List Char
  | _, _, [] => []
  | start, none, c :: r => rangeLoop start (some c) r
  | start, some p, c :: r =>
    if p.toNat + 1 = c.toNat then rangeLoop (some (start.getD p)) (some c) r
    else
      match start with
      | some a => (if a = p then esc p else esc a ++ '-' :: esc p) ++ rangeLoop none (some c) r
      | none => esc p ++ rangeLoop none (some c) r

/-- `regex_range`, utils.py 117-150. -/
def regexRange (s : List Char) (exclude : Bool) : List Char :=
  match s with
  | [] => []
  | [c] => if exclude then '[' :: '^' :: (esc c ++ [']']) else esc c
  | s => (if exclude then ['[', '^'] else ['[']) ++ (rangeLoop none none (charSet s ++ [Char.ofNat 7]) ++ [']'])

/-- `re.escape` on a character. -/
def reEsc (c : Char) : List Char :=
  if c ∈ ['(', ')', '[', ']', '{', '}', '?', '*', '+', '-', '|', '^', '$', '\\', '.', '&', '~', '#', ' ', '\t', '\n', '\r', Char.ofNat 11, Char.ofNat 12] then ['\\', c] else [c]

/-- `re.escape`. -/
def reEscape (s : List Char) : List Char := s.flatMap reEsc

/-- `regex_caseless`, utils.py 101-110, if `lower` and `upper` are `str.lower` and `str.upper` of the literal. -/
def caseless (lower upper : List Char) : List Char :=
  (lower.zip upper).flatMap fun p => if p.1 = p.2 then reEsc p.2 else '[' :: (reEsc p.1 ++ reEsc p.2 ++ [']'])

/-! ### Regular expressions -/

inductive Re where
  | eps
  | set (neg : Bool) (items : List (Char × Char))
  | any
  | seq (a b : Re)
  | alt (a b : Re)
  | rep (lo : Nat) (hi : Option Nat) (r : Re)
  | ahead (neg : Bool) (r : Re)
  | eot
  deriving Repr, DecidableEq

def Re.chr (c : Char) : Re := .set false [(c, c)]

def inItem (c : Char) (p : Char × Char) : Bool := decide (p.1.toNat ≤ c.toNat) && decide (c.toNat ≤ p.2.toNat)

/-- Repetition: as often as possible first; a repetition that takes nothing ends it. -/
def iter (f : List Char → List (List Char)) : Nat → Nat → Option Nat → List Char → List (List Char)
  | 0, _, _, _ => []
  | n + 1, lo, hi, s =>
    (if hi = some 0 then [] else (f s).flatMap fun s' => if s'.length < s.length ∨ 0 < lo then iter f n (lo - 1) (hi.map (· - 1)) s' else []) ++ (if lo = 0 then [s] else [])

/-- What may be left of the text after a match, in the order of backtracking. -/
def Re.den : Re → List Char → List (List Char)
  | .eps, s => [s]
  | .set neg items, s =>
    match s with
    | [] => []
    | c :: r => if items.any (inItem c) = neg then [] else [r]
  | .any, s =>
    match s with
    | [] => []
    | _ :: r => [r]
  | .seq a b, s => (a.den s).flatMap b.den
  | .alt a b, s => a.den s ++ b.den s
  | .rep lo hi r, s => iter r.den (s.length + lo + 1) lo hi s
  | .ahead neg r, s => if (r.den s).isEmpty = neg then [s] else []
  | .eot, s => if s = [] ∨ s = ['\n'] then [s] else []

def seqOf : List Re → Re
  | [] => .eps
  | [r] => r
  | r :: l => .seq r (seqOf l)

/-- The alternatives, and the last one. -/
def altOf : List Re → Re → Re
  | [], r => r
  | a :: l, r => .alt a (altOf l r)

/-! ### Reading a pattern -/

/-- A character, with or without backslash. -/
def readOne : List Char → Option (Char × List Char)
  | '\\' :: c :: r => if c = 'n' then some ('\n', r) else if c = 'r' then some ('\r', r) else if c = 't' then some ('\t', r) else if c.isAlphanum then none else some (c, r)
  | ['\\'] => none
  | c :: r => some (c, r)
  | [] => none

/-- The inside of brackets. -/
def readClass : Nat → List (Char × Char) → List Char → Option (List (Char × Char) × List Char)
  | 0, _, _ => none
  | n + 1, acc, s =>
    if acc ≠ [] ∧ s.head? = some ']' then some (acc, s.tail)
    else
      match readOne s with
      | none => none
      | some (a, r) =>
        match r with
        | '-' :: ']' :: r' => some (acc ++ [(a, a), ('-', '-')], r')
        | '-' :: r' =>
          match readOne r' with
          | none => none
          | some (b, r'') => if a.toNat ≤ b.toNat then readClass n (acc ++ [(a, b)]) r'' else none
        | r => readClass n (acc ++ [(a, a)]) r

def readAtom : List Char → Option ((Re × Bool) × List Char)
  | [] => none
  | '.' :: r => some ((.any, false), r)
  | '$' :: r => some ((.eot, true), r)
  | '^' :: _ => none
  | '[' :: '^' :: r => (readClass r.length [] r).map fun p => ((.set true p.1, false), p.2)
  | '[' :: r => (readClass r.length [] r).map fun p => ((.set false p.1, false), p.2)
  | s => (readOne s).map fun p => ((Re.chr p.1, false), p.2)

/-- A number and what follows it. -/
def readNum (s : List Char) : Option Nat × List Char :=
  let d := s.takeWhile Char.isDigit
  (if d = [] then none else match Text.parseNat d with | .ok n => some n | .error _ => none, s.drop d.length)

/-- A sign of repetition; braces that are none are characters. -/
def readRep : List Char → Option ((Nat × Option Nat) × List Char)
  | '*' :: r => some ((0, none), r)
  | '+' :: r => some ((1, none), r)
  | '?' :: r => some ((0, some 1), r)
  | '{' :: r =>
    match readNum r with
    | (some n, '}' :: r') => some ((n, some n), r')
    | (lo, ',' :: r') =>
      match readNum r' with
      | (hi, '}' :: r'') => some ((lo.getD 0, hi), r'')
      | _ => none
    | _ => none
  | _ => none

inductive Kind where
  | group
  | look (neg : Bool)

/-- An open group: the alternatives that are complete, and the pieces of the current one (with a mark on those that cannot be repeated). -/
structure Frame where
  kind : Kind
  alts : List Re
  cur : List (Re × Bool)

def seqOfPieces (l : List (Re × Bool)) : Re := seqOf (l.map Prod.fst)

def Frame.close (f : Frame) : Re :=
  match f.kind with
  | .group => altOf f.alts (seqOfPieces f.cur)
  | .look neg => .ahead neg (altOf f.alts (seqOfPieces f.cur))

def Frame.add (f : Frame) (l : List (Re × Bool)) : Frame := { f with cur := f.cur ++ l }

/-- A bound below the minimum is an error. -/
def below (hi : Option Nat) (lo : Nat) : Bool :=
  match hi with
  | some h => decide (h < lo)
  | none => false

def goRead : Nat → Frame → List Frame → List Char → Option Re
  | _, f, st, [] =>
    match st with
    | [] => some f.close
    | _ => none
  | 0, _, _, _ :: _ => none
  | n + 1, f, st, c :: s =>
    if c = '|' then goRead n { f with alts := f.alts ++ [seqOfPieces f.cur], cur := [] } st s
    else if c = ')' then
      match st with
      | [] => none
      | g :: st => goRead n (g.add [(f.close, false)]) st s
    else if c = '(' then
      match s with
      | '?' :: ':' :: r => goRead n ⟨.group, [], []⟩ (f :: st) r
      | '?' :: '=' :: r => goRead n ⟨.look false, [], []⟩ (f :: st) r
      | '?' :: '!' :: r => goRead n ⟨.look true, [], []⟩ (f :: st) r
      | '?' :: _ => none
      | r => goRead n ⟨.group, [], []⟩ (f :: st) r
    else
      match readRep (c :: s) with
      | some ((lo, hi), r) =>
        match f.cur.getLast? with
        | some (x, false) => if below hi lo then none else goRead n { f with cur := f.cur.dropLast ++ [(.rep lo hi x, true)] } st r
        | _ => none
      | none =>
        match readAtom (c :: s) with
        | some (a, r) => goRead n (f.add [a]) st r
        | none => none

/-- `re.compile`. -/
def compile (p : List Char) : Option Re := goRead p.length ⟨.group, [], []⟩ [] p

/-- `regex.match`: what is left after the match. -/
def matchRe (r : Re) (s : List Char) : Option (List Char) := (r.den s).head?

/-! ### Parsers and their patterns -/

inductive PE where
  /-- `Char(include, exclude=exclude)` -/
  | char (inc exc : List Char)
  /-- `Literal(s)` -/
  | lit (s : List Char)
  | and (a b : PE)
  /-- `MatchFirst([a, b])` -/
  | first (a b : PE)
  /-- `Keyword(word, ident_chars=ident, caseless=True)`, the word in small and in capital letters -/
  | key (lower upper ident : List Char)
  /-- `MatchFirst([a, Empty()])` -/
  | orEmpty (a : PE)
  /-- `Many(e, min_match=lo, max_match=hi)` -/
  | many (e : PE) (lo : Nat) (hi : Option Nat)
  /-- `Optional(e)` -/
  | opt (e : PE)
  /-- `NotAny(e)` -/
  | no (e : PE)
  /-- `LookAhead(e)` -/
  | ahead (e : PE)
  deriving DecidableEq

/-- "|", "+" and "*", utils.py 76. -/
inductive Prec where
  | alt
  | seq
  | unit
  deriving DecidableEq

def Prec.rank : Prec → Nat
  | .alt => 0
  | .seq => 1
  | .unit => 2

/-- `regex_iso`, utils.py 91-98. -/
def iso (p : Prec × List Char) (new : Prec) : List Char := if p.1.rank < new.rank then ['(', '?', ':'] ++ (p.2 ++ [')']) else p.2

/-- `Char`, tokens.py 424-432. -/
def charText (inc exc : List Char) : List Char :=
  let e := charSet exc
  let i := (charSet inc).filter fun c => decide (c ∉ e)
  if i = [] then regexRange e true else regexRange i false

/-- The suffix of `Many.__regex__`, enhancement.py 340-369. -/
def suffix (lo : Nat) : Option Nat → List Char
  | none => if lo = 0 then ['*'] else if lo = 1 then ['+'] else '{' :: (Text.natStr lo ++ [',', '}'])
  | some hi => if lo = hi then (if lo = 1 then [] else '{' :: (Text.natStr lo ++ ['}'])) else '{' :: (Text.natStr lo ++ ',' :: (Text.natStr hi ++ ['}']))

/-- `Keyword`, tokens.py 191-202, from the pattern of the word. -/
def keywordText (pattern ident : List Char) : List Char := pattern ++ (['(', '$', '|', '(', '?', '!'] ++ (regexRange ident false ++ [')', ')']))

/-- `__regex__`. -/
def PE.regex : PE → Prec × List Char
  | .char inc exc => (.unit, charText inc exc)
  | .lit s => (if s.length = 1 then .unit else .seq, reEscape s)
  | .and a b => (.seq, iso a.regex .seq ++ iso b.regex .seq)
  | .first a b => (.alt, iso a.regex .alt ++ '|' :: iso b.regex .alt)
  | .key lower upper ident => (.seq, keywordText (caseless lower upper) ident)
  | .orEmpty a => (.alt, iso a.regex .alt)
  | .many e lo hi => (.unit, iso e.regex .unit ++ suffix lo hi)
  | .opt e => (.unit, iso e.regex .unit ++ suffix 0 (some 1))
  | .no e => (.unit, ['(', '?', '!'] ++ (e.regex.2 ++ [')']))
  | .ahead e => (.unit, ['(', '?', '='] ++ (e.regex.2 ++ [')']))

/-- `expr[lo:0]` has no bound, core.py 597-598. -/
def bound (hi : Option Nat) : Option Nat := if hi = some 0 then none else hi

/-- `Word`, tokens.py 351-371 (without `as_keyword`); `hi` is `max`. -/
def wordText (init body exc : List Char) (lo : Nat) (hi : Option Nat) : List Char :=
  if body = init then (PE.many (.char init exc) lo (bound hi)).regex.2
  else (PE.and (.char init exc) (.many (.char body exc) (lo - 1) (bound (hi.map (· - 1))))).regex.2

/-- `CharsNotIn`, tokens.py 478-513. -/
def notInText (not : List Char) (lo : Nat) (hi : Option Nat) : List Char :=
  let n := charSet not
  let r := if n.length = 1 then ['[', '^'] ++ (regexRange n false ++ [']']) else ['[', '^'] ++ (regexRange n false).drop 1
  r ++ match hi with
    | none => if lo = 0 then ['*'] else if lo = 1 then ['+'] else '{' :: (Text.natStr lo ++ [':', '}'])
    | some h => if lo = 1 ∧ h = 1 then [] else '{' :: (Text.natStr lo ++ ':' :: (Text.natStr h ++ ['}']))

/-! ### What a parser matches -/

/-- The characters of a `Char`. -/
def charOk (inc exc : List Char) (c : Char) : Bool :=
  if (inc.filter fun d => decide (d ∉ exc)) = [] then decide (c ∉ exc) else decide (c ∈ inc ∧ c ∉ exc)

/-- A text that begins with the word, letter by letter in small or in capital letters: what follows. -/
def spelled : List Char → List Char → List Char → Option (List Char)
  | l :: lower, u :: upper, s =>
    match s with
    | [] => none
    | c :: r => if c = l ∨ c = u then spelled lower upper r else none
  | _, _, s => some s

/-- The word ends here: there is no more text, or a character that is none of `ident` (or the newline that ends the text). -/
def wordEnd (ident : List Char) : List Char → Bool
  | [] => true
  | c :: r => decide (c ∉ ident) || (decide (c = '\n') && decide (r = []))

/-- The loop of `Many.parse_impl`, enhancement.py 250-275: how many were found and what is left. -/
def manyLoop (p : List Char → Option (List Char)) (ws : List Char → List Char) (hi : Option Nat) : Nat → Nat → List Char → Option (Nat × List Char)
  | 0, _, _ => none
  | n + 1, k, s =>
    if s = [] ∨ hi = some k then some (k, s)
    else
      let i := if k = 0 then s else ws s
      match p i with
      | none => some (k, s)
      | some s' => if s'.length < i.length then manyLoop p ws hi n (k + 1) s' else if i = [] then some (k, s) else none

/-- `parse_impl`: what is left of the text.  `ws` skips whitespace. -/
def PE.parse (ws : List Char → List Char) : PE → List Char → Option (List Char)
  | .char inc exc, s =>
    match s with
    | [] => none
    | c :: r => if charOk inc exc c then some r else none
  | .lit l, s => if l.isPrefixOf s then some (s.drop l.length) else none
  | .and a b, s =>
    match a.parse ws s with
    | none => none
    | some s' => b.parse ws (if s'.length < s.length then ws s' else s')
  | .first a b, s =>
    match a.parse ws s with
    | some s' => some s'
    | none => b.parse ws s
  | .key lower upper ident, s =>
    match spelled lower upper s with
    | none => none
    | some r => if wordEnd ident r then some r else none
  | .orEmpty a, s => some ((a.parse ws s).getD s)
  | .many e lo hi, s =>
    match manyLoop (e.parse ws) ws hi (s.length + 1) 0 s with
    | none => none
    | some (k, s') => if lo ≤ k then some s' else none
  | .opt e, s => some ((e.parse ws s).getD s)
  | .no e, s =>
    match compile ((PE.no e).regex.2) with
    | none => some s
    | some r => if (r.den s).isEmpty then none else some s
  | .ahead e, s => (e.parse ws s).map fun _ => s

end EulerDB.Regex
