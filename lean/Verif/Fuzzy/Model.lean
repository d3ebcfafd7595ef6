import Verif.Aes.Model

/-!
# Fuzzy (LIKE) search

`FuzzyCipher` (scheduler/crypto/encrypt.py 278-300) and the rewriting of a LIKE pattern
(scheduler/handers/clause/sql_where.py 53-67 and 72-85).
-/

namespace EulerDB.Fuzzy

open EulerDB EulerDB.Aes

/-- `raw.isalpha() or raw.isalnum() or raw.isdigit()`, encrypt.py 287.  Each of the three is false on the empty string and holds if every
character is in a class; the classes of `isalpha` and `isdigit` are contained in that of `isalnum`.  The class, CPython's
Unicode table, is a parameter. -/
def strAlnum (alnum : Char → Bool) (raw : List Char) : Bool := !raw.isEmpty && raw.all alnum

/-- The concatenation of the ciphertexts of a list of strings, left to right (the loops of encrypt.py 291-292, 297-298). -/
def encAll (A : Block) : List (List Char) → Except PyErr (List Char)
  | [] => .ok []
  | g :: gs =>
    match encrypt A g with
    | .error e => .error e
    | .ok c =>
      match encAll A gs with
      | .error e => .error e
      | .ok r => .ok (c ++ r)

/-- `[raw[i:i+n] for i in range(len(raw)-n+1)]`, encrypt.py 291-292 (`n = 3`), 297-298 (`n = 2`). -/
def grams (n : Nat) (raw : List Char) : List (List Char) :=
  (List.range (raw.length + 1 - n)).map fun i => (raw.drop i).take n

/-- `FuzzyCipher.encrypt`, encrypt.py 285-300. -/
def fuzzyEncrypt (alnum : Char → Bool) (A : Block) (raw : List Char) : Except PyErr (List Char) :=
  if strAlnum alnum raw then
    if raw.length < 3 then encrypt A raw else encAll A (grams 3 raw)
  else
    if raw.length < 2 then encrypt A raw else encAll A (grams 2 raw)

/-- `str.split("%")`. -/
def splitPct : List Char → List (List Char)
  | [] => [[]]
  | c :: r =>
    if c = '%' then [] :: splitPct r
    else
      match splitPct r with
      | [] => [[c]]
      | w :: ws => (c :: w) :: ws

/-- `"%".join(list)`. -/
def joinPct : List (List Char) → List Char
  | [] => []
  | [w] => w
  | w :: ws => w ++ '%' :: joinPct ws

/-- The loop over the words of a pattern, sql_where.py 74-84: an empty word stays empty, a word of one or two characters raises,
others are encrypted. -/
def encWords (alnum : Char → Bool) (A : Block) : List (List Char) → Except PyErr (List (List Char))
  | [] => .ok []
  | w :: ws =>
    if w = [] then
      match encWords alnum A ws with
      | .error e => .error e
      | .ok r => .ok ([] :: r)
    else if w.length < 3 then .error .generic
    else
      match fuzzyEncrypt alnum A w with
      | .error e => .error e
      | .ok c =>
        match encWords alnum A ws with
        | .error e => .error e
        | .ok r => .ok (c :: r)

/-- The rewritten pattern of `col LIKE 'pattern'`, sql_where.py 72-85. -/
def likeRewrite (alnum : Char → Bool) (A : Block) (pattern : List Char) : Except PyErr (List Char) :=
  match encWords alnum A (splitPct pattern) with
  | .error e => .error e
  | .ok ws => .ok (joinPct ws)

end EulerDB.Fuzzy
