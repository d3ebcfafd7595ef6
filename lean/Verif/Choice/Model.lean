/-
Alternatives chosen by a table of their first characters.

Code: /repo/parsing/expressions.py `MatchFirst.parse_impl` 502-514, `faster` 567-612, `_distinct` 615-625, `Fast` 628-702,
`Or.parse_impl` 372-409; /repo/parsing/utils.py `regex_caseless` 101-110;
`expecting` in /repo/parsing/tokens.py 136-137, 216-217, 395-399, 445-446 and /repo/parsing/expressions.py 54-72, 230-243.

Simplifications:
  * a parser is a value of a type `E`; what it does at the position where the choice is made is the function `run`, with `none`
    for a `ParseException`; parsers that raise anything else are not modelled;
  * `str.lower` and `str.upper` are taken character by character (they are, except for the sigma at the end of a word);
  * the list of the dictionaries that `expecting` returns is a parameter, a dictionary is the list of its items;
  * what the exceptions say is left out.
-/
import Verif.Py

namespace EulerDB.Choice

open EulerDB

abbrev Key := List Char

/-- `str.lower` and `str.upper` of a character. -/
structure Casing where
  lc : Char → List Char
  uc : Char → List Char

def Casing.low (cs : Casing) (s : List Char) : List Char := s.flatMap cs.lc
def Casing.up (cs : Casing) (s : List Char) : List Char := s.flatMap cs.uc

/-- `regex_caseless`: for each character of the regular expression the two it matches. -/
def pattern (cs : Casing) (k : Key) : List (Char × Char) := (cs.low k).zip (cs.up k)

/-- `regex.match` for such an expression at the beginning of a text. -/
def matches' : List (Char × Char) → List Char → Bool
  | [], _ => true
  | _ :: _, [] => false
  | (l, u) :: p, c :: t => (c == l || c == u) && matches' p t

/-! ### The table, 631-673 -/

variable {E R : Type}

/-- `lookup.setdefault(k, []).extend(ee)`. -/
def extend (d : List (Key × List E)) (k : Key) (ee : List E) : List (Key × List E) :=
  if d.any (fun x => x.1 == k) then d.map fun x => if x.1 == k then (x.1, x.2 ++ ee) else x else d ++ [(k, ee)]

/-- 634-639. -/
def itemsOf (maps : List (List (Key × List E))) : List (Key × List E) := maps.flatten.foldl (fun d x => extend d x.1 x.2) []

/-- 648-652. -/
def shortest (items : List (Key × List E)) (k : Key) : Key :=
  items.foldl (fun m x => if !x.2.isEmpty && x.1.isPrefixOf m then x.1 else m) k

/-- 654-658: what is collected. -/
def taken (items : List (Key × List E)) (m : Key) : List E := items.flatMap fun x => if m.isPrefixOf x.1 then x.2 else []

/-- 654-658: `ee.clear()`. -/
def cleared (items : List (Key × List E)) (m : Key) : List (Key × List E) :=
  items.map fun x => if m.isPrefixOf x.1 then (x.1, []) else x

/-- 646-660. -/
def compactFrom : List Key → List (Key × List E) → List (Key × List E)
  | [], _ => []
  | k :: ks, items =>
    let m := shortest items k
    let acc := taken items m
    if acc.isEmpty then compactFrom ks (cleared items m) else (m, acc) :: compactFrom ks (cleared items m)

def compact (items : List (Key × List E)) : List (Key × List E) := compactFrom (items.map Prod.fst) items

/-- `_distinct`. -/
def distinct : Key → Key → Nat
  | a :: as, b :: bs => if a = b then distinct as bs + 1 else 1
  | _, _ => 1

def maxOf (l : List Nat) : Option Nat := l.foldl (fun m n => some (match m with | none => n | some m => max m n)) none

/-- The order of Python's strings. -/
def keyLe : Key → Key → Bool
  | [], _ => true
  | _ :: _, [] => false
  | a :: as, b :: bs => if a = b then keyLe as bs else decide (a.toNat < b.toNat)

/-- `sorted(compact, key=lambda p: p[0])`. -/
def insertKey (x : Key × List E) : List (Key × List E) → List (Key × List E)
  | [] => [x]
  | y :: r => if keyLe x.1 y.1 then x :: y :: r else y :: insertKey x r

def sortKeys (l : List (Key × List E)) : List (Key × List E) := l.foldr insertKey []

/-- 665-669: `max` raises if there is no other key. -/
def shorter (c : List (Key × List E)) : Except PyErr (List (Key × List E)) :=
  (sortKeys c).mapM fun x =>
    match maxOf ((c.filter fun y => y.1 != x.1).map fun y => distinct x.1 y.1) with
    | none => .error .valueError
    | some n => .ok (x.1.take n, x.2)

/-- `LOOKUP_COST`. -/
def lookupCost : Nat := 4

def longestList (l : List (Key × List E)) : Option Nat := maxOf (l.map fun x => x.2.length)

/-- `Fast(maps)`: the keys with their parsers, in the order of the regular expression. -/
def table (maps : List (List (Key × List E))) : Except PyErr (List (Key × List E)) :=
  let items := itemsOf maps
  match longestList items with
  | none => .error .valueError
  | some n =>
    if maps.length < n + lookupCost then .error .valueError
    else
      match longestList (compact items) with
      | none => .error .valueError
      | some n => if maps.length < n + lookupCost then .error .valueError else shorter (compact items)

/-- `self.regex.match(string, start)`: the first of the keys that matches, and `group(0)`. -/
def found (cs : Casing) (f : List (Key × List E)) (t : List Char) : Option (List Char) :=
  (f.find? fun x => matches' (pattern cs x.1) t).map fun x => t.take (pattern cs x.1).length

/-- `self.lookup[index]` in the dictionary of 671, in which a later pair replaces an earlier one. -/
def entry (f : List (Key × List E)) (k : Key) : Option (List E) := (f.reverse.find? fun x => x.1 == k).map Prod.snd

/-- `get_short_list`, 675-683. -/
def shortList (cs : Casing) (f : List (Key × List E)) (t : List Char) : Except PyErr (List E) :=
  match found cs f t with
  | none => .ok []
  | some g =>
    match entry f (cs.low g) with
    | none => .error .keyError
    | some es => .ok es

/-- The first that succeeds. -/
def first (run : E → Option R) (es : List E) : Option R := es.findSome? run

/-- `Fast.parse_impl`, 685-702. -/
def Fast.parse (cs : Casing) (run : E → Option R) (f : List (Key × List E)) (t : List Char) : Except PyErr (Option R) :=
  match shortList cs f t with
  | .error e => .error e
  | .ok es => .ok (first run es)

/-! ### The list of alternatives with tables, `faster` -/

inductive Alt (E : Type)
  | one (e : E)
  | fast (f : List (Key × List E))

/-- 590-594 and 606-611. -/
def flush (acc : List (List (Key × List E))) (out : List E) : List (Alt E) :=
  match table acc with
  | .ok f => [.fast f]
  | .error _ => out.map .one

/-- The loop 583-611; `some (acc, out)` while `has_expecting`. -/
def fasterFrom (expecting : E → List (Key × List E)) : Option (List (List (Key × List E)) × List E) → List E → List (Alt E)
  | none, [] => []
  | some (acc, out), [] => flush acc out
  | some (acc, out), o :: r =>
    if (expecting o).isEmpty then flush acc out ++ .one o :: fasterFrom expecting none r
    else fasterFrom expecting (some (acc ++ [expecting o], out ++ [o])) r
  | none, o :: r =>
    if (expecting o).isEmpty then .one o :: fasterFrom expecting none r
    else fasterFrom expecting (some ([expecting o], [o])) r

/-- `faster`. -/
def faster (expecting : E → List (Key × List E)) (exprs : List E) : List (Alt E) :=
  if exprs.length < lookupCost then exprs.map .one else fasterFrom expecting (some ([], [])) exprs

/-- `MatchFirst.parse_impl`. -/
def choose (cs : Casing) (run : E → Option R) (t : List Char) : List (Alt E) → Except PyErr (Option R)
  | [] => .ok none
  | .one e :: r =>
    match run e with
    | some x => .ok (some x)
    | none => choose cs run t r
  | .fast f :: r =>
    match Fast.parse cs run f t with
    | .error e => .error e
    | .ok (some x) => .ok (some x)
    | .ok none => choose cs run t r

/-- `Or.parse_impl` 376-389: the parsers that match, each with the end of its match. -/
def ends (cs : Casing) (run : E → Option Nat) (t : List Char) : List (Alt E) → Except PyErr (List (Nat × E))
  | [] => .ok []
  | .one e :: r =>
    match ends cs run t r with
    | .error e => .error e
    | .ok l => .ok ((match run e with | some n => [(n, e)] | none => []) ++ l)
  | .fast f :: r =>
    match shortList cs f t with
    | .error e => .error e
    | .ok es =>
      match ends cs run t r with
      | .error e => .error e
      | .ok l => .ok ((es.filterMap fun e => (run e).map fun n => (n, e)) ++ l)

/-- 409: the end of the longest match. -/
def longest (l : List (Nat × E)) : Option Nat := maxOf (l.map Prod.fst)

end EulerDB.Choice
