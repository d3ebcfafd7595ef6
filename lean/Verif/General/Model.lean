/-
Model of the generalised form of a statement, which stands for it in logs.

Code: /repo/scheduler/compile/generalizator.py `_normalize_likes` 17-40, `without_comments` 42-51, `generalize` 53-92.

Simplifications:
  * `sqlparse.format(.., strip_comments=True)` is a parameter, as are the characters that `\s` matches, those that match a letter
    when case is ignored, and those that `strip()` takes off;
  * the loop over the set of matches (generalizator.py 31-38), which depends on the order of a set and on how a replacement
    template is expanded, is a parameter that is applied to a text with ` LIKE X` in it.
-/
import Verif.Py

namespace EulerDB.General

open EulerDB

/-- What the code takes from its libraries. -/
structure Env where
  strip : List Char → List Char
  sp : Char → Bool
  eqi : Char → Char → Bool
  off : Char → Bool
  merge : List Char → Except PyErr (List Char)

/-- `sql.replace(c, "")`. -/
def without (c : Char) (s : List Char) : List Char := s.filter fun x => x != c

/-- `re.sub(r"\s{2,}", " ", sql)`; `run`: within such a run. -/
def squeeze (sp : Char → Bool) : Bool → List Char → List Char
  | _, [] => []
  | run, c :: r =>
    if sp c then
      if run then squeeze sp true r
      else if r.head?.any sp then ' ' :: squeeze sp true r
      else c :: squeeze sp false r
    else c :: squeeze sp false r

/-- `re.sub(r"\s+", " ", sql)`. -/
def blanks (sp : Char → Bool) : Bool → List Char → List Char
  | _, [] => []
  | run, c :: r => if sp c then if run then blanks sp true r else ' ' :: blanks sp true r else c :: blanks sp false r

/-- The rest after a text, in exactly these letters. -/
def after : List Char → List Char → Option (List Char)
  | [], s => some s
  | _ :: _, [] => none
  | d :: w, c :: s => if c = d then after w s else none

/-- The rest after a text, in any case. -/
def afterI (eqi : Char → Char → Bool) : List Char → List Char → Option (List Char)
  | [], s => some s
  | _ :: _, [] => none
  | d :: w, c :: s => if eqi d c then afterI eqi w s else none

/-- generalizator.py 28: `LIKE '[^\']+'` at this position. -/
def likeAt (s : List Char) : Option (List Char) :=
  match after "LIKE '".toList s with
  | none => none
  | some r =>
    match r.dropWhile (fun c => c != '\''), r.takeWhile (fun c => c != '\'') with
    | _ :: u, _ :: _ => some u
    | _, _ => none

/-- Replaces what `at'` finds, from the left; `n` bounds the length. -/
def subst (at' : List Char → Option (List Char × List Char)) : Nat → List Char → List Char
  | 0, s => s
  | _ + 1, [] => []
  | n + 1, c :: s =>
    match at' (c :: s) with
    | some (new, r) => new ++ subst at' n r
    | none => c :: subst at' n s

def sub (at' : List Char → Option (List Char × List Char)) (s : List Char) : List Char := subst at' s.length s

/-- generalizator.py 31: `(or|and) [^\s]+ LIKE X` somewhere; here only ` LIKE X`, which is part of it. -/
def hasLike (eqi : Char → Char → Bool) : List Char → Bool
  | [] => false
  | c :: s => (afterI eqi " LIKE X".toList (c :: s)).isSome || hasLike eqi s

/-- generalizator.py 17-40. -/
def likes (E : Env) (s : List Char) : Except PyErr (List Char) :=
  let s := sub (fun t => (likeAt t).map fun r => ("LIKE X".toList, r)) (without '%' s)
  if hasLike E.eqi s then E.merge s else .ok s

/-- `re.sub(w, "", sql)` for a plain text `w`. -/
def remove (w : List Char) (s : List Char) : List Char := sub (fun t => (after w t).map fun r => ([], r)) s

/-- generalizator.py 78-79: a text in quotes at this position. -/
def quotedAt (q : Char) : List Char → Option (List Char × List Char)
  | [] => none
  | c :: r =>
    if c = q then
      match r.dropWhile (fun x => x != q) with
      | _ :: u => some (['X'], u)
      | [] => none
    else none

/-- generalizator.py 85: `-?[0-9]+` becomes `N`; `run`: within a number. -/
def numbers : Bool → List Char → List Char
  | _, [] => []
  | run, c :: r =>
    if c.isDigit then if run then numbers true r else 'N' :: numbers true r
    else if c = '-' ∧ r.head?.any Char.isDigit = true then 'N' :: numbers true r
    else c :: numbers false r

/-- generalizator.py 89, from `\s*` on: `\s*\([^,]+,[^)]+\)`. -/
def listAt (sp : Char → Bool) (s : List Char) : Option (List Char) :=
  match s.dropWhile sp with
  | '(' :: r =>
    match r.takeWhile (fun c => c != ','), r.dropWhile (fun c => c != ',') with
    | _ :: _, _ :: u =>
      match u.takeWhile (fun c => c != ')'), u.dropWhile (fun c => c != ')') with
      | _ :: _, _ :: v => some v
      | _, _ => none
    | _, _ => none
  | _ => none

/-- generalizator.py 88-90: ` (IN|VALUES)` and a list, which becomes `(XYZ)`; the word stays as it was written. -/
def wordListAt (E : Env) (w : List Char) : List Char → Option (List Char × List Char)
  | [] => none
  | c :: s =>
    if c = ' ' then
      match afterI E.eqi w s with
      | some r => (listAt E.sp r).map fun u => (' ' :: (s.take w.length ++ " (XYZ)".toList), u)
      | none => none
    else none

def inAt (E : Env) (s : List Char) : Option (List Char × List Char) :=
  match wordListAt E "IN".toList s with
  | some x => some x
  | none => wordListAt E "VALUES".toList s

/-- `strip()`. -/
def stripped (off : Char → Bool) (s : List Char) : List Char := ((s.dropWhile off).reverse.dropWhile off).reverse

/-- generalizator.py 66-79: what comes before the blanks and the numbers. -/
def quoteless (E : Env) (raw : List Char) : Except PyErr (List Char) :=
  (likes E (squeeze E.sp false (without '"' (squeeze E.sp false (E.strip raw))))).map fun s =>
    sub (quotedAt '"') (sub (quotedAt '\'') (remove ['\\', '"'] (remove ['\\', '\''] (remove ['\\', '\\'] s))))

/-- generalizator.py 53-92. -/
def generalize (E : Env) (raw : List Char) : Except PyErr (List Char) :=
  if raw = [] then .ok []
  else (quoteless E raw).map fun s => stripped E.off (sub (inAt E) (numbers false (blanks E.sp false s)))

end EulerDB.General
