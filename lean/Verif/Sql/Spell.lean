/-
Statements as a client writes them: which texts spell which expressions and statements.  Written down without
reference to the parser, from the token rules of the MySQL reference manual ("Language Structure"): tokens in
order, keywords in any case, any whitespace and comments between two tokens.

The index `d` says how a token ends and so what may follow it immediately: no dash after a name, where the
grammar takes it for a part of the name (`C70_fails_dash`), and a letter only after a quote, a parenthesis or a star.
-/
import Verif.Sql.Gap
import Verif.Format.LiteralProps

namespace EulerDB.Sql

open EulerDB EulerDB.Parse

/-- How a token ends: a name, a number or word, or a token that nothing continues. -/
inductive Edge where
  | name | lit | shut
  deriving DecidableEq

/-- A gap after a token. -/
def After (d : Edge) (g : List Char) : Prop := Gap g ∧ (d = .name → g.head? ≠ some '-')

/-- A keyword in any case. -/
def Word (w : String) (t : List Char) : Prop := t.map Char.toLower = w.toList

instance (w : String) (t : List Char) : Decidable (Word w t) := by unfold Word; infer_instance

/-- A plain name: ASCII letters, digits, `_` and `$`, the first not a digit. -/
def Plain (n : List Char) : Prop := Wordy n ∧ (∃ c r, n = c :: r ∧ c.isDigit = false)

/-- A character that ends every name, number and string. -/
def endChar (c : Char) : Bool := !identChar c && c != '.' && c != '`' && c != '[' && c != '\'' && c != '"'

/-- A character that does not continue a string, a parenthesis or a star. -/
def shutChar (c : Char) : Bool := c != '.' && c != '`' && c != '[' && c != '\'' && c != '"'

/-- The text `r` does not continue the token before it. -/
def Sep (d : Edge) (r : List Char) : Prop := ∀ c, r.head? = some c → shutChar c = true ∧ (d ≠ .shut → endChar c = true) ∧ (d = .name → c ≠ '-')

/-- A part of a dotted name: how it is written and what it names (dots within it are escaped). -/
inductive SpPart : List Char → List Char → Prop
  | plain {n : List Char} : Plain n → SpPart n n
  | quoted {b : List Char} : (∀ c ∈ b, namePlain c = true ∧ c ≠ '`') → SpPart ('`' :: (b ++ ['`'])) (dotEscape b)

/-- The further parts of a name. -/
inductive SpParts : List Char → List Char → Prop
  | nil : SpParts [] []
  | cons {p n t m : List Char} : SpPart p n → SpParts t m → SpParts ('.' :: (p ++ t)) ('.' :: (n ++ m))

/-- A name whose first part is none of the words `no`. -/
inductive SpName (no : List String) : List Char → List Char → Prop
  | mk {p n t m : List Char} : SpPart p n → (∀ w ∈ no, ¬ Word w p) → SpParts t m → SpName no (p ++ t) (n ++ m)

/-- The words that are no column names here: the grammar's reserved words, and those that begin a construct. -/
def noNames : List String := reservedWords ++ headWords ++ ["values"]

/-- The words that are no function names. -/
def noCalls : List String := headWords ++ ["null", "not", "select", "with", "values"]

/-- Lists with commas. -/
inductive SpList {α : Type} (P : Edge → List Char → α → Prop) : Edge → List Char → List α → Prop
  | one {d : Edge} {t : List Char} {a : α} : P d t a → SpList P d t [a]
  | cons {d e : Edge} {t g u : List Char} {a : α} {l : List α} : P d t a → After d g → SpList P e u l →
      SpList P e (t ++ g ++ ',' :: u) (a :: l)

section
variable (env : Env) (Ex : Edge → List Char → V → Prop)

/-- Operands. -/
inductive SpAtom : Edge → List Char → V → Prop
  | null {w : List Char} : Word "null" w → SpAtom .lit w .null
  | name {t n : List Char} : SpName noNames t n → SpAtom .name t (.name (strOf n))
  | int {ds : List Char} : ds ≠ [] → (∀ c ∈ ds, c.isDigit = true) → SpAtom .lit ds (.int (natOf 0 ds))
  | real {w f : List Char} {q : ℚ} : w ++ f ≠ [] → (∀ c ∈ w ++ f, c.isDigit = true) →
      env.fl (natQ w + natQ f / 10 ^ f.length) = some q → SpAtom .lit (w ++ '.' :: f) (.float q)
  | str {l : List Format.Part} : (∀ p ∈ l, p.Agreed) → SpAtom .shut ('\'' :: (Format.written l ++ ['\''])) (.lit (strOf (Format.meant l)))
  | dstr {s : List Char} : (∀ c ∈ s, Format.pyPlain c ∧ c ≠ '\'' ∧ c ≠ '"') → SpAtom .shut ('"' :: (s ++ ['"'])) (.lit (strOf s))
  | paren {d : Edge} {t g : List Char} {l : List V} : SpList Ex d t l → After d g → SpAtom .shut ('(' :: (t ++ g ++ [')'])) (tupleV l)
  | call {d : Edge} {f h t g : List Char} {l : List V} : Plain f → (∀ w ∈ noCalls, ¬ Word w f) → After .name h → SpList Ex d t l → After d g →
      SpAtom .shut (f ++ h ++ '(' :: (t ++ g ++ [')'])) (.call (callOp (strOf (f.map Char.toLower))) l)
  | call0 {f h g : List Char} : Plain f → (∀ w ∈ noCalls, ¬ Word w f) → After .name h → Gap g →
      SpAtom .shut (f ++ h ++ '(' :: (g ++ [')'])) (.call (callOp (strOf (f.map Char.toLower))) [])

/-- Operands with prefix operators. -/
inductive SpOperand : Edge → List Char → List F → Prop
  | atom {d : Edge} {g t : List Char} {v : V} : Gap g → SpAtom env Ex d t v → SpOperand d (g ++ t) [.val v]
  | neg {d : Edge} {g u : List Char} {m : List F} : Gap g → u.head? ≠ some '-' → SpOperand d u m → SpOperand d (g ++ '-' :: u) (.pre .neg :: m)
  | bnot {d : Edge} {g u : List Char} {m : List F} : Gap g → SpOperand d u m → SpOperand d (g ++ '~' :: u) (.pre .bnot :: m)
  | knot {d : Edge} {g w u : List Char} {m : List F} : Gap g → Word "not" w → boundary u = true → SpOperand d u m →
      SpOperand d (g ++ w ++ u) (.pre .knot :: m)

/-- Several words with whitespace between them. -/
inductive Words : List String → List Char → Prop
  | one {w : String} {t : List Char} : Word w t → Words [w] t
  | cons {w : String} {ws : List String} {t g u : List Char} : Word w t → g ≠ [] → (∀ c ∈ g, white c = true) → Words ws u →
      Words (w :: ws) (t ++ g ++ u)

/-- The text begins with the word. -/
def Opens (w : String) (u : List Char) : Prop := ∃ g t r, Gap g ∧ Word w t ∧ boundary r = true ∧ u = g ++ (t ++ r)

/-- An operator, written before the text `u`. -/
inductive SpOp : F → List Char → List Char → Prop
  | sym {w : String} {o : Bop} {u : List Char} : (w, OpTok.bin o) ∈ symbolOps → (w = "-" → u.head? ≠ some '-') → SpOp (.bin o) w.toList u
  | word {ws : List String} {o : Bop} {t u : List Char} : (ws, OpTok.bin o) ∈ wordOps → Words ws t → boundary u = true →
      (ws = ["is"] → ¬ Opens "not" u) → SpOp (.bin o) t u
  | btw {ws : List String} {n : Bool} {t u : List Char} : (ws, OpTok.btw n) ∈ wordOps → Words ws t → boundary u = true → SpOp (.btw n) t u

/-- Operands and operators in turn. -/
inductive SpRun : Edge → List Char → List F → Prop
  | one {d : Edge} {t : List Char} {m : List F} : SpOperand env Ex d t m → SpRun d t m
  | cons {d e : Edge} {t g w u : List Char} {m l : List F} {o : F} : SpOperand env Ex d t m → Gap g → Sep d (g ++ w) → SpOp o w u → SpRun e u l →
      SpRun e (t ++ g ++ w ++ u) (m ++ o :: l)

end

/-- Expressions of nesting depth at most `n`: a run of tokens, in the tree that `make_tree` gives the run. -/
def SpExpr (env : Env) : Nat → Edge → List Char → V → Prop
  | 0 => fun _ _ _ => False
  | n + 1 => fun d t v =>
    (∃ l, SpRun env (SpExpr env n) d t l ∧ runV l = some v) ∨ (d = .shut ∧ v = .name "*" ∧ ∃ g, Gap g ∧ t = g ++ ['*'])

end EulerDB.Sql
