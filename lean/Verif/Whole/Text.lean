/-
Model of how the characters of an expression are written, and proof that a rewritten condition is read
by the backend as the condition it is.

Code: /repo/sql_parsing/formatting.py `Operator` 66-88, the operators 131-157, `dispatch` 166-197,
`sql_list` 199-204, `op` 268-292, `_exists`/`_missing` 297-301, `_literal` 370-380;
/repo/sql_parsing/keywords.py `precedence` 242-292 (in quarters here, as in `Verif/Format/Expr.lean`);
/repo/parsing/utils.py `listwrap` 199-211.

Simplifications:
  * what is written by another method (`_in`, `_between`, `_case`, `_cast`, `_trim` and so on), or is
    a statement, is outside this model: `notSupported`;
  * `upper()` of a function's name is ASCII; the text of a float is a parameter.
-/
import Verif.Whole.Lex

namespace EulerDB.Whole

open EulerDB EulerDB.Clause

/-! ### The formatter on expressions -/

/-- `\w` beyond ASCII, the words of `is_keyword`, the text of a float. -/
structure Writer where
  uni : Char → Bool
  kw : List Char → Bool
  floatText : ℚ → String

/-- formatting.py 131-149: the infix operators, their precedence and their text. -/
def infixOf (k : String) : Option (Nat × List Char) :=
  if k = "concat" then some (4, "||".toList)
  else if k = "mul" then some (8, "*".toList)
  else if k = "div" then some (6, "/".toList)
  else if k = "mod" then some (8, "%".toList)
  else if k = "add" then some (12, "+".toList)
  else if k = "sub" then some (10, "-".toList)
  else if k = "neq" then some (28, "<>".toList)
  else if k = "gt" then some (24, ">".toList)
  else if k = "lt" then some (20, "<".toList)
  else if k = "gte" then some (20, ">=".toList)
  else if k = "lte" then some (20, "<=".toList)
  else if k = "eq" then some (28, "=".toList)
  else if k = "or" then some (44, "OR".toList)
  else if k = "and" then some (40, "AND".toList)
  else if k = "binary_and" then some (16, "&".toList)
  else if k = "binary_or" then some (16, "|".toList)
  else if k = "like" then some (32, "LIKE".toList)
  else if k = "not_like" then some (32, "NOT LIKE".toList)
  else if k = "rlike" then some (32, "RLIKE".toList)
  else if k = "not_rlike" then some (32, "NOT RLIKE".toList)
  else none

/-- The keys `dispatch` looks for before it calls `op`, and the methods that are not modelled. -/
def otherKeys : List String :=
  ["drop", "value", "join", "insert", "with", "distinct_on", "select_distinct", "select", "delete", "update", "set", "from", "where", "groupby", "having",
   "orderby", "limit", "offset", "fetch", "trim", "extract", "union", "union_all", "intersect", "minus", "except", "binary_not", "collate", "in", "nin",
   "case", "cast", "interval", "get", "between", "not_between", "distinct", "join_on"]

/-- `" op ".join`. -/
def joinOp (op : List Char) : List (List Char) → List Char
  | [] => []
  | [w] => w
  | w :: ws => w ++ ' ' :: (op ++ ' ' :: joinOp op ws)

/-- formatting.py 280-283. -/
def isolate (q p : Nat) (s : List Char) : List Char := if q ≤ p then s else '(' :: (s ++ [')'])

section
variable (P : Writer)

mutual
/-- formatting.py `_literal` 370-380. -/
def litText : Json → Except PyErr (List Char)
  | .list l => (litTexts l).map fun ts => '(' :: (Format.commas ts ++ [')'])
  | .str s => .ok (Format.quoted '\'' s.toList)
  | .dict d => litDict d
  | .int z => .ok (Text.intStr z)
  | .float q => .ok (P.floatText q).toList
  | .null => .ok "None".toList

def litTexts : List Json → Except PyErr (List (List Char))
  | [] => .ok []
  | j :: r =>
    match litText j, litTexts r with
    | .ok a, .ok b => .ok (a :: b)
    | .error e, _ => .error e
    | _, .error e => .error e

/-- `json["literal"]`. -/
def litDict : List (String × Json) → Except PyErr (List Char)
  | [] => .error .keyError
  | (k, v) :: r => if k = "literal" then litText v else litDict r
end

/-- formatting.py `escape` 47-63. -/
def nameText (s : String) : Except PyErr (List Char) :=
  match Format.escape P.uni P.kw s.toList with
  | some t => .ok t
  | none => .error .typeError

mutual
/-- formatting.py `dispatch` 166-197. -/
def exText : Json → Nat → Except PyErr (List Char)
  | .list l, _ => (exTexts 400 400 l).map fun ts => '(' :: (Format.commas ts ++ [')'])
  | .dict d, p => exDict d p
  | .str s, _ => nameText P s
  | .null, _ => .ok "NULL".toList
  | .int z, _ => .ok (Text.intStr z)
  | .float q, _ => .ok (P.floatText q).toList

def exDict : List (String × Json) → Nat → Except PyErr (List Char)
  | [], _ => .ok []
  | [(k, v)], p =>
    if k ∈ otherKeys then .error .notSupported
    else if k = "null" then .ok "NULL".toList
    else exOp k v p
  | d, _ =>
    if d.any fun e => e.1 ∈ otherKeys then .error .notSupported
    else if d.any fun e => e.1 = "null" then .ok "NULL".toList
    else .error .generic

/-- formatting.py `op` 268-292. -/
def exOp (k : String) (v : Json) (p : Nat) : Except PyErr (List Char) :=
  match infixOf k with
  | some (q, op) => (exInfix q v).map fun ts => isolate q p (joinOp op ts)
  | none =>
    if k = "literal" then litText P v
    else if k = "missing" then (exText v 32).map fun t => isolate 28 p (t ++ " IS NULL".toList)
    else if k = "exists" then (exText v 32).map fun t => isolate 28 p (t ++ " IS NOT NULL".toList)
    else (exParams v).map fun ts => k.toUpper.toList ++ '(' :: (Format.commas ts ++ [')'])

/-- formatting.py `Operator` 72-84: the operands. -/
def exInfix (q : Nat) : Json → Except PyErr (List (List Char))
  | .list l => exTexts (q + 1) q l
  | .null => .ok []
  | .dict [] => .error .generic
  | .dict ((k, v) :: _) =>
    match nameText P k, litText P v with
    | .ok a, .ok b => .ok [a, b]
    | .error e, _ => .error e
    | _, .error e => .error e
  | j => (exText j (q + 1)).map fun t => [t]

/-- `[self.dispatch(p) for p in listwrap(value)]`, and the empty dict. -/
def exParams : Json → Except PyErr (List (List Char))
  | .list l => exTexts 400 400 l
  | .null => .ok []
  | .dict [] => .ok []
  | j => (exText j 400).map fun t => [t]

/-- The members, the first at `p`, the others at `q`. -/
def exTexts (p q : Nat) : List Json → Except PyErr (List (List Char))
  | [] => .ok []
  | j :: r =>
    match exText j p, exTexts q q r with
    | .ok a, .ok b => .ok (a :: b)
    | .error e, _ => .error e
    | _, .error e => .error e
end

end

/-! ### Conditions as they are sent -/

/-- The right-hand side of a comparison: an integer, a string literal, or a text that stands where a name would (and is put in double quotes). -/
inductive Rhs where
  | int (z : Int)
  | lit (s : String)
  | quoted (s : String)

/-- The operators of the comparisons. -/
inductive WOp where
  | eq
  | cmp (o : Cmp)

inductive W where
  | leaf (o : WOp) (col : String) (r : Rhs)
  | and (l : List W)
  | or (l : List W)

def WOp.key : WOp → String
  | .eq => "eq"
  | .cmp o => o.name

def WOp.mcmp : WOp → MCmp
  | .eq => .eq
  | .cmp .gt => .gt
  | .cmp .lt => .lt
  | .cmp .gte => .gte
  | .cmp .lte => .lte

def WOp.prec : WOp → Nat
  | .eq => 28
  | .cmp .gt => 24
  | .cmp _ => 20

def Rhs.json : Rhs → Json
  | .int z => .int z
  | .lit s => Json.lit s
  | .quoted s => .str s

mutual
def W.json : W → Json
  | .leaf o b r => .dict [(o.key, .list [.str b, r.json])]
  | .and l => .dict [("and", .list (W.jsons l))]
  | .or l => .dict [("or", .list (W.jsons l))]

def W.jsons : List W → List Json
  | [] => []
  | x :: r => x.json :: W.jsons r
end

/-! The text. -/

def Rhs.text : Rhs → List Char
  | .int z => Text.intStr z
  | .lit s => Format.quoted '\'' s.toList
  | .quoted s => Format.quoted '"' s.toList

def W.prec : W → Nat
  | .leaf o _ _ => o.prec
  | .and _ => 40
  | .or _ => 44

mutual
def W.text : W → List Char
  | .leaf o b r => b.toList ++ ' ' :: (o.mcmp.chars ++ ' ' :: r.text)
  | .and l => joinOp "AND".toList (W.texts 40 l)
  | .or l => joinOp "OR".toList (W.texts 44 l)

/-- The operands, in parentheses if they bind less than `p`. -/
def W.texts (p : Nat) : List W → List (List Char)
  | [] => []
  | x :: r => isolate x.prec p x.text :: W.texts p r
end

/-! The tokens. -/

def Rhs.toks : Rhs → List MTok
  | .int z => intToks z
  | .lit s => [.str s.toList]
  | .quoted s => [.str s.toList]

def isolateToks (q p : Nat) (s : List MTok) : List MTok := if q ≤ p then s else .lp :: (s ++ [.rp])

def joinToks (op : List Char) : List (List MTok) → List MTok
  | [] => []
  | [w] => w
  | w :: ws => w ++ .word op :: joinToks op ws

mutual
def W.toks : W → List MTok
  | .leaf o b r => .word b.toList :: .cmp o.mcmp :: r.toks
  | .and l => joinToks "AND".toList (W.tokss 40 l)
  | .or l => joinToks "OR".toList (W.tokss 44 l)

def W.tokss (p : Nat) : List W → List (List MTok)
  | [] => []
  | x :: r => isolateToks x.prec p x.toks :: W.tokss p r
end

/-! What is required of it. -/

/-- A name that is written as it is and read as a name. -/
structure Bare (P : Writer) (res : List Char → Bool) (s : String) : Prop where
  chars : ∀ c ∈ s.toList, c.isAlphanum = true ∨ c = '_'
  head : ∀ c ∈ s.toList.head?, Format.letter c = true
  ne : s.toList ≠ []
  kw : P.kw s.toList = false
  res : res s.toList = false

/-- A text that is put in double quotes and read as a string. -/
structure Opaque (P : Writer) (s : String) : Prop where
  dot : '.' ∉ s.toList
  mark : Format.markB ∉ s.toList
  star : s.toList ≠ ['*']
  bad : Format.valid P.uni s.toList = false
  slash : '\\' ∉ s.toList

section
variable (P : Writer) (res : List Char → Bool)

def Rhs.Ok : Rhs → Prop
  | .int _ => True
  | .lit s => Format.kept s.toList = true
  | .quoted s => Opaque P s

mutual
def W.Ok : W → Prop
  | .leaf _ b r => Bare P res b ∧ r.Ok P
  | .and l => l ≠ [] ∧ W.OkAll l
  | .or l => l ≠ [] ∧ W.OkAll l

def W.OkAll : List W → Prop
  | [] => True
  | x :: r => x.Ok ∧ W.OkAll r
end
end

/-! ### Writing -/

theorem not_markB {s : String} (h : ∀ c ∈ s.toList, c.isAlphanum = true ∨ c = '_') : '.' ∉ s.toList ∧ Format.markB ∉ s.toList := by
  constructor
  · intro hm
    rcases h _ hm with h | h <;> revert h <;> decide
  · intro hm
    rcases h _ hm with h | h <;> revert h <;> decide

theorem escape_one {P : Writer} {s : String} (h1 : '.' ∉ s.toList) (h2 : Format.markB ∉ s.toList) :
    Format.escape P.uni P.kw s.toList = some (Format.esc P.uni P.kw s.toList) := by
  have hs : Format.splitField s.toList = ⟨0, [s.toList]⟩ := by
    unfold Format.splitField
    rw [if_neg, if_neg]
    · simp [h1, h2]
    · intro h; rw [h] at h1; simp at h1
  simp [Format.escape, hs, Text.join]

theorem nameText_bare {P : Writer} {res : List Char → Bool} {s : String} (h : Bare P res s) : nameText P s = .ok s.toList := by
  obtain ⟨h1, h2⟩ := not_markB h.chars
  have hv : Format.valid P.uni s.toList = true := by
    have hne := h.ne
    have hc := h.chars
    have hh := h.head
    cases hs : s.toList with
    | nil => exact absurd hs hne
    | cons c t =>
      rw [hs] at hc hh
      have h3 : Format.letter c = true := hh c (by simp)
      have h4 : t.all (Format.word P.uni) = true := by
        simp only [List.all_eq_true]
        intro x hx
        rcases hc x (by simp [hx]) with h | h <;> simp [Format.word, h]
      simp [Format.valid, h3, h4]
  unfold nameText
  rw [escape_one h1 h2]
  simp [Format.esc, Format.shouldQuote, hv, h.kw]

theorem nameText_opaque {P : Writer} {s : String} (h : Opaque P s) : nameText P s = .ok (Format.quoted '"' s.toList) := by
  unfold nameText
  rw [escape_one h.dot h.mark]
  simp [Format.esc, Format.shouldQuote, h.bad, h.star]

theorem infix_key (o : WOp) : infixOf o.key = some (o.prec, o.mcmp.chars) := by
  rcases o with _ | (_ | _ | _ | _) <;> decide

theorem rhs_text {P : Writer} {r : Rhs} (h : r.Ok P) (p : Nat) : exText P r.json p = .ok r.text := by
  cases r with
  | int z => simp [Rhs.json, exText, Rhs.text]
  | lit s =>
    rw [Rhs.json, Json.lit, exText, exDict, if_neg (by decide), if_neg (by decide), exOp]
    have : infixOf "literal" = none := by decide
    simp only [this, if_true]
    simp [litText, Rhs.text]
  | quoted s => rw [Rhs.json, exText, nameText_opaque h]; rfl

mutual
theorem W.written {P : Writer} {res : List Char → Bool} : ∀ (x : W), x.Ok P res → ∀ p, exText P x.json p = .ok (isolate x.prec p x.text)
  | .leaf o b r, h, p => by
    rw [W.Ok] at h
    have hk : o.key ∉ otherKeys ∧ o.key ≠ "null" := by rcases o with _ | (_ | _ | _ | _) <;> decide
    rw [W.json, exText, exDict, if_neg hk.1, if_neg hk.2, exOp, infix_key]
    simp only [exInfix, exTexts]
    rw [exText, nameText_bare h.1, rhs_text h.2]
    simp [joinOp, W.prec, W.text, Except.map]
  | .and l, h, p => by
    rw [W.Ok] at h
    rw [W.json, exText, exDict, if_neg (by decide), if_neg (by decide), exOp]
    have : infixOf "and" = some (40, "AND".toList) := by decide
    simp only [this, exInfix]
    rw [W.writtenAll l h.2 41 40 (Or.inl ⟨Or.inr rfl, rfl⟩)]
    simp [W.prec, W.text, Except.map]
  | .or l, h, p => by
    rw [W.Ok] at h
    rw [W.json, exText, exDict, if_neg (by decide), if_neg (by decide), exOp]
    have : infixOf "or" = some (44, "OR".toList) := by decide
    simp only [this, exInfix]
    rw [W.writtenAll l h.2 45 44 (Or.inr ⟨Or.inr rfl, rfl⟩)]
    simp [W.prec, W.text, Except.map]

theorem W.writtenAll {P : Writer} {res : List Char → Bool} : ∀ (l : List W), W.OkAll P res l → ∀ p q,
    ((p = 40 ∨ p = 41) ∧ q = 40) ∨ ((p = 44 ∨ p = 45) ∧ q = 44) → exTexts P p q (W.jsons l) = .ok (W.texts q l)
  | [], _, p, q, _ => by rw [W.jsons, exTexts, W.texts]
  | x :: r, h, p, q, hp => by
    rw [W.OkAll] at h
    rw [W.jsons, exTexts, W.written x h.1, W.writtenAll r h.2 q q (by omega), W.texts]
    have : isolate x.prec p x.text = isolate x.prec q x.text := by
      have hx : x.prec = 28 ∨ x.prec = 24 ∨ x.prec = 20 ∨ x.prec = 40 ∨ x.prec = 44 := by
        rcases x with ⟨_ | (_ | _ | _ | _), _, _⟩ | _ | _ <;> simp [W.prec, WOp.prec]
      unfold isolate
      by_cases h1 : x.prec ≤ p
      · rw [if_pos h1, if_pos (by omega)]
      · rw [if_neg h1, if_neg (by omega)]
    simp [this]
end

/-! ### Cutting into tokens -/

theorem Bare.name {P : Writer} {res : List Char → Bool} {s : String} (h : Bare P res s) : Name s.toList := by
  refine ⟨h.ne, ?_, ?_⟩
  · intro c hc
    rcases h.chars c hc with h | h <;> simp [Format.nameChar, h]
  · intro c hc
    have := h.head c hc
    cases hd : c.isDigit with
    | false => rfl
    | true =>
      simp only [Format.letter, Bool.or_eq_true, beq_iff_eq] at this
      rcases this with h' | h'
      · simp only [Char.isAlpha, Char.isUpper, Char.isLower, Bool.or_eq_true, Bool.and_eq_true, decide_eq_true_eq, Char.isDigit] at h' hd
        obtain ⟨hd1, hd2⟩ := hd
        rcases h' with ⟨a, b⟩ | ⟨a, b⟩
        · have := UInt32.le_trans a hd2
          exact absurd this (by decide)
        · have := UInt32.le_trans a hd2
          exact absurd this (by decide)
      · subst h'; revert hd; decide

theorem cut_rhs {P : Writer} {r : Rhs} (h : r.Ok P) : Cut r.text r.toks := by
  cases r with
  | int z => exact cut_int z
  | lit s => exact cut_lit h
  | quoted s => exact cut_dquoted h.slash

theorem cut_isolate {s : List Char} {ts : List MTok} (h : Cut s ts) (q p : Nat) : Cut (isolate q p s) (isolateToks q p ts) := by
  unfold isolate isolateToks
  split
  · exact h
  · exact h.paren

theorem cut_join {op : List Char} (ho : Name op) : ∀ {l : List (List Char)} {ts : List (List MTok)}, List.Forall₂ Cut l ts → l ≠ [] →
    Cut (joinOp op l) (joinToks op ts)
  | [], _, _, hn => absurd rfl hn
  | [w], _, h, _ => by
    cases h with
    | cons h1 h2 => cases h2; exact h1
  | w :: v :: r, _, h, _ => by
    cases h with
    | cons h1 h2 =>
      have ih := cut_join ho h2 (by simp)
      cases h2 with
      | cons h3 h4 =>
        have := h1.blank ((cut_word ho).blank ih)
        simpa [joinOp, joinToks] using this

theorem name_and : Name "AND".toList := ⟨by decide, by decide, by decide⟩
theorem name_or : Name "OR".toList := ⟨by decide, by decide, by decide⟩

mutual
theorem W.cut {P : Writer} {res : List Char → Bool} : ∀ (x : W), x.Ok P res → Cut x.text x.toks
  | .leaf o b r, h => by
    rw [W.Ok] at h
    have := (cut_word h.1.name).blank ((cut_cmp o.mcmp).blank (cut_rhs h.2))
    simpa [W.text, W.toks] using this
  | .and l, h => by
    rw [W.Ok] at h
    rw [W.text, W.toks]
    exact cut_join name_and (W.cutAll l h.2 40) (by cases l <;> simp_all [W.texts])
  | .or l, h => by
    rw [W.Ok] at h
    rw [W.text, W.toks]
    exact cut_join name_or (W.cutAll l h.2 44) (by cases l <;> simp_all [W.texts])

theorem W.cutAll {P : Writer} {res : List Char → Bool} : ∀ (l : List W), W.OkAll P res l → ∀ p, List.Forall₂ Cut (W.texts p l) (W.tokss p l)
  | [], _, p => by rw [W.texts, W.tokss]; exact .nil
  | x :: r, h, p => by
    rw [W.OkAll] at h
    rw [W.texts, W.tokss]
    exact .cons (cut_isolate (W.cut x h.1) _ _) (W.cutAll r h.2 p)
end

end EulerDB.Whole
