/-
C82: texts that taking the comments out turns into others.
-/
import Verif.Strip.Text

namespace EulerDB.Strip

open EulerDB.Lex EulerDB.Group EulerDB.Rules

/-- Some words of the keyword tables. -/
def words (v : List Char) : TType :=
  if ["SELECT"].contains (upper v) then ["Keyword", "DML"]
  else if ["FROM", "WHERE", "AND"].contains (upper v) then Keyword
  else Name

theorem words_ok : KwOk words := by
  intro v
  unfold words
  split
  · decide
  · split <;> decide

/-- Without the comments, as text. -/
def stripped (s : String) : Except PyErr (List Char) := format (rules ascii words) asciiSpace s.toList

/-- `SELECT id/*c*/AS y`: the comment is the first token of the group of the alias, so no blank takes its place, and the
column asked for is `idAS`. -/
theorem C82_fails_as : stripped "SELECT id/*c*/AS y FROM t" = .ok "SELECT idAS y FROM t".toList ∧
    stripped "SELECT id /*c*/AS y FROM t" = .ok "SELECT id AS y FROM t".toList := by
  constructor <;> decide +kernel

/-- `SELECT 5--3`: two signs without a blank after them begin no comment in MySQL. -/
theorem C82_fails_minus : stripped "SELECT 5--3 FROM t" = .ok "SELECT 5".toList := by decide +kernel

/-- `SELECT 1 /*! + 1 */`: MySQL executes what stands in such a comment. -/
theorem C82_fails_executable : stripped "SELECT 1 /*! + 1 */" = .ok "SELECT 1".toList := by decide +kernel

/-- A comment directly after an operator is not seen as one. -/
theorem C82_fails_operator : stripped "SELECT a -/*c*/b" = .ok "SELECT a -/*c*/b".toList := by decide +kernel

/-- A number sign without a blank after it begins a comment in MySQL, and stays. -/
theorem C82_fails_number_sign : stripped "SELECT a #c" = .ok "SELECT a #c".toList ∧
    stripped "SELECT a # c" = .ok "SELECT a".toList := by
  constructor <;> decide +kernel

/-- A literal with a backslash before a line break loses the blanks before its next line break. -/
theorem C82_fails_literal : stripped "SELECT 'a\\\nb \nc'" = .ok "SELECT 'a\\\nb\nc'".toList ∧
    stripped "SELECT 'a\nb \nc'" = .ok "SELECT 'a\nb \nc'".toList := by
  constructor <;> decide +kernel

/-- A name in backticks loses the blanks before a line break. -/
theorem C82_fails_name : stripped "SELECT `a \nb`" = .ok "SELECT `a\nb`".toList := by decide +kernel

/-! ### Cases -/

example : stripped "SELECT a --c\nFROM t" = .ok "SELECT a\nFROM t".toList := by decide +kernel
example : stripped "SELECT a; SELECT b" = .ok "SELECT a;SELECT b".toList := by decide +kernel

example : guarded true [⟨Name, ['a']⟩, ⟨Whitespace, [' ']⟩, ⟨CommentSingle, "--c".toList⟩, ⟨Name, ['b']⟩] = true := by decide

/-- The tokens of a text that is one statement, and whether no group begins with a comment. -/
def wellBegun (s : String) : Option (Bool × Bool) :=
  match lex (rules ascii words) s.toList with
  | .error _ => none
  | .ok l => match group l with
    | .error _ => none
    | .ok t => some (guarded true l, beginWell t.toks)

example : wellBegun "SELECT a/*c*/FROM t" = some (false, true) := by decide +kernel
example : wellBegun "SELECT a/*c*/AS b FROM t" = some (false, false) := by decide +kernel
example : wellBegun "SELECT a /*c*/AS b FROM t" = some (true, false) := by decide +kernel

example : ∀ p ∈ [Piece.chr 'a', .str '\'' "b \nc".toList, .chr ' ', .nl, .chr 'd'], p.Ok := by
  simp [Piece.Ok]

end EulerDB.Strip
