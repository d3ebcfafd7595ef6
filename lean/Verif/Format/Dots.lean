/-
Model of dotted names.

Code: /repo/dots/__init__.py `split_field` 148-164, `join_field` 167-186.

Simplifications:
  * a path is a number of leading parent steps (the `-1` entries) and a list of names;
    `split_field` produces no other paths;
  * names are texts (the code skips `None` entries of a path; there are none here).
-/
import Verif.Text

namespace EulerDB.Format

open EulerDB.Text

/-- The control characters the code uses as marks: `"\a"` and `"\b"`. -/
def markA : Char := Char.ofNat 7
def markB : Char := Char.ofNat 8

/-- `s.replace("\\.", x)` for a one-character `x`. -/
def fold (x : Char) : List Char → List Char
  | [] => []
  | [c] => [c]
  | c :: d :: t => if c = '\\' ∧ d = '.' then x :: fold x t else c :: fold x (d :: t)

/-- `s.replace(x, "\\.")` for a one-character `x`. -/
def unfold' (x : Char) : List Char → List Char
  | [] => []
  | c :: t => if c = x then '\\' :: '.' :: unfold' x t else c :: unfold' x t

/-- `s.replace(x, y)` for characters. -/
def swap (x y : Char) (s : List Char) : List Char := s.map fun c => if c = x then y else c

/-- Leading parent steps and names. -/
structure Path where
  ups : Nat
  names : List (List Char)
  deriving DecidableEq, Repr

/-- dots/__init__.py 158, 161: the names of a text without parent steps. -/
def parts (s : List Char) : List (List Char) :=
  (split '.' (unfold' markB (fold markA s))).map (swap markA '.')

/-- dots/__init__.py `split_field` 148-164. -/
def splitField (s : List Char) : Path :=
  if s = ['.'] then ⟨0, []⟩
  else if '.' ∈ s ∨ markB ∈ s then
    if ['.', '.'].isPrefixOf s then
      let remainder := s.dropWhile (· == '.')
      ⟨s.length - remainder.length - 1, parts remainder⟩
    else ⟨0, parts s⟩
  else ⟨0, [s]⟩

/-- dots/__init__.py 182-183, 186: the text of a list of names. -/
def joinNames (names : List (List Char)) : List Char :=
  unfold' markA (fold markB (join '.' (names.map (swap '.' markA))))

/-- dots/__init__.py `join_field` 167-186. -/
def joinField (p : Path) : List Char :=
  if p.ups = 0 then
    if joinNames p.names = [] then ['.'] else joinNames p.names
  else if p.names = [] then '.' :: List.replicate p.ups '.'
  else '.' :: List.replicate p.ups '.' ++ joinNames p.names

end EulerDB.Format
