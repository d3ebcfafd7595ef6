import Mathlib.Data.List.Infix

/-!
# SQL LIKE

What MySQL's `text LIKE pattern` means under a binary collation: `%` matches any string, `_` any one character, a backslash
makes the next character ordinary (a backslash at the very end stands for itself), every other character matches itself.
-/

namespace EulerDB.Fuzzy

/-- `text LIKE pattern`. -/
def like : List Char → List Char → Bool
  | [], s => s.isEmpty
  | '%' :: p, s => s.tails.any (like p)
  | '_' :: p, s =>
    match s with
    | [] => false
    | _ :: s => like p s
  | '\\' :: c :: p, s =>
    match s with
    | [] => false
    | d :: s => decide (c = d) && like p s
  | c :: p, s =>
    match s with
    | [] => false
    | d :: s => decide (c = d) && like p s

/-- A word: no LIKE metacharacter. -/
def IsWord (w : List Char) : Prop := ∀ c ∈ w, c ≠ '%' ∧ c ≠ '_' ∧ c ≠ '\\'

end EulerDB.Fuzzy
