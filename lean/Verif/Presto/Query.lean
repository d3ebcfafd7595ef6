/-
Model of what the second SQL grammar keeps of a statement around its expressions: the limit, the kind of a join, the
columns of a join with USING, and `*`.

Code: /repo/scheduler/lex_module/lacquer/parsers/parser.py `p_cursor_specification` 35-63, `p_limit_opt` 116-120,
`p_query_spec` 195-221, `p_alt_limit_opt` 224-227, `p_all_columns` 282-284, `p_qualified_join` 330-336,
`p_natural_join` 339-345, `p_join_type` 348-354, `p_join_criteria` 363-370;
/repo/scheduler/lex_module/lacquer/tree/query_specification.py 18-28; tree/relation.py 43-51; tree/join_criteria.py 38-40;
tree/select_item.py 24-33; formatter/formatter.py `visit_query_specification` 374-376, `visit_select` 379-398,
`visit_single_column` 400-405, `visit_all_columns` 407-409, `visit_join` 415-449.

Simplifications:
  * a statement is its TOP and LIMIT, a join its words and the texts of its sides, a column its text;
  * line breaks and indentation are left out of what is written; words are tokens;
  * the rows of a table are a list, and a join takes pairs of rows that a condition holds of.
-/
import Verif.Presto.Model

namespace EulerDB.Presto

/-! ### Limits -/

/-- The word after LIMIT, line 117. -/
inductive Lim | num (n : Nat) | all
deriving DecidableEq, Repr

/-- `p_query_spec`: `limit` of the specification is set by its constructor (query_specification.py 28), then by lines
220-221 if TOP gave a number that is true. -/
def specLimit (top : Option Nat) : Option Nat :=
  match top with
  | none => none
  | some 0 => none
  | some (n + 1) => some (n + 1)

/-- `hasattr(query, 'limit')`, line 47: the constructor always sets it. -/
def hasLimit (_ : Option Nat) : Bool := true

/-- `p_cursor_specification` for a simple query, lines 43-60. -/
def readLimit (top : Option Nat) (limit : Option Lim) : Option Lim :=
  if hasLimit (specLimit top) then (specLimit top).map .num else limit

/-- `p_cursor_specification` for other queries, lines 61-63. -/
def readLimitOther (limit : Option Lim) : Option Lim := limit

/-- Lines 374-376: `if node.limit` of a number. -/
def writeLimit : Option Lim → Option Lim
  | some (.num 0) => none
  | l => l

/-- The rows a limit leaves. -/
def Lim.rows {α : Type} : Option Lim → List α → List α
  | some (.num n), l => l.take n
  | _, l => l

/-- The rows `SELECT [TOP n] ... [LIMIT m]` asks for. -/
def asked {α : Type} (top : Option Nat) (limit : Option Lim) (l : List α) : List α :=
  Lim.rows limit (Lim.rows (top.map .num) l)

/-! ### Joins -/

inductive JKind | inner | left | right | full
deriving DecidableEq, Repr

/-- The kind a word asks for: `p_join_type` takes the words whatever their case. -/
def askedKind : Option (List Char) → JKind
  | none => .inner
  | some w =>
    if isWord "LEFT" w then .left else if isWord "RIGHT" w then .right else if isWord "FULL" w then .full else .inner

/-- `p[2] if p[2] in ("LEFT", "RIGHT", "FULL") else "INNER"`, line 334. -/
def readKind : Option (List Char) → JKind
  | none => .inner
  | some w =>
    if w = "LEFT".toList then .left else if w = "RIGHT".toList then .right else if w = "FULL".toList then .full
    else .inner

/-- `p_natural_join`, line 343. -/
def readNatural (_ : Option (List Char)) : JKind := .inner

/-- The rows of a join. -/
def joinRows {α β : Type} (k : JKind) (c : α → β → Bool) (l : List α) (r : List β) : List (Option α × Option β) :=
  (l.flatMap fun a => (r.filter (c a)).map fun b => (some a, some b)) ++
  (if k = .left ∨ k = .full then (l.filter fun a => !r.any (c a)).map fun a => (some a, none) else []) ++
  (if k = .right ∨ k = .full then (r.filter fun b => !l.any (c · b)).map fun b => (none, some b) else [])

inductive Criteria
  | on (e : List Tok)
  | using_ (cols : List (List Char))
  | natural
deriving DecidableEq, Repr

/-- The attributes of a `Join`, relation.py 46-51. -/
def joinAttrs : List String := ["line", "pos", "join_type", "left", "right", "criteria"]

/-- What `visit_join` writes after the right side, lines 433-444. `node.columns` (line 437) is looked for in the join, not in
its criteria. -/
def writeCriteria (c : Criteria) : Except PyErr (List (List Char) × List Tok) :=
  match c with
  | .on e => .ok (["ON".toList], .lp :: (e ++ [.rp]))
  | .using_ cols => if "columns" ∈ joinAttrs then .ok ("USING".toList :: cols, []) else .error .attributeError
  | .natural => .ok ([], [])

/-! ### Columns -/

inductive Item
  | star (pre : Option (List Char))
  | col (e : List Tok) (name : Option (List Char))
deriving DecidableEq, Repr

/-- `AllColumns.__str__`, select_item.py 32-33: the condition covers the whole text. -/
def starText : Option (List Char) → List Char
  | some p => if p = [] then [] else p ++ ".*".toList
  | none => []

/-- `visit_all_columns` 407-409, `visit_single_column` 400-405 (an empty alias is none). -/
def writeItem : Item → List Char ⊕ (List Tok × Option (List Char))
  | .star pre => .inl (starText pre)
  | .col e n => .inr (e, if n = some [] then none else n)

/-- `p_all_columns`: the rule has one symbol, so there is no prefix. -/
def readStar : Item := .star none

end EulerDB.Presto
