/-
Model of how the rewriter writes an expression tree back to SQL text, and of how
the backend's grammar reads such text.

Code: /repo/sql_parsing/formatting.py
  * `Operator` 66-88, `Formatter` operator table 129-156, `dispatch` 166-197,
    `op` 268-292, `_binary_not` 294-295, `_exists`/`_missing` 297-301,
    `_in`/`_nin` 308-332, `_between`/`_not_between` 391-412;
/repo/sql_parsing/keywords.py `precedence` 241-290;
/repo/sql_parsing/utils.py `binary_ops` 243-288.

Simplifications:
  * leaves (identifiers, numbers, string literals, literal lists) are opaque texts:
    how a leaf is quoted is the subject of `Verif/Format/Literal.lean`;
  * an operator with more than two operands is the left-nested tree of binary
    ones (`fmtN_eq` shows that the text is the same);
  * functions take one argument; CASE, CAST, windows and subqueries are left out;
  * the formatter is modelled as producing tokens; `text_eq` shows that the text it
    builds is the concatenation of the spellings of these tokens.

The grammar `Reads` is trusted: it is the expression grammar of MySQL 5.7/8
(`expr`, `bool_pri`, `predicate`, `bit_expr`, `simple_expr` in sql_yacc.yy), written
as precedence climbing over tokens.  It accepts a few texts MySQL rejects (for
instance `a LIKE b LIKE c`), never fewer.
-/
namespace EulerDB.Format

/-- The infix operators of the formatter (formatting.py 129-148). -/
inductive Op
  | concat | mul | div | mod | add | sub | band | bor
  | lt | lte | gt | gte | eq | neq
  | like | notLike | rlike | notRlike | and | or
  deriving DecidableEq, Repr

/-- The postfix conditions: `IS NULL`, `IS NOT NULL`, `IN set`, `NOT IN set`. -/
inductive Post
  | missing | exists | isin (set : List Char) | nin (set : List Char)
  deriving DecidableEq, Repr

/-- Expression trees as produced by the rewriter. -/
inductive Ex
  | atom (s : List Char)
  | bin (o : Op) (l r : Ex)
  | post (p : Post) (e : Ex)
  | btw (neg : Bool) (a b c : Ex)
  | enot (e : Ex)
  | bnot (e : Ex)
  | neg (e : Ex)
  | call (f : List Char) (e : Ex)
  deriving DecidableEq, Repr

/-- Tokens of the text. -/
inductive Tok
  | atom (s : List Char)
  | op (o : Op)
  | post (p : Post)
  | btw (neg : Bool)
  | knot | tilde | lp | rp
  | fn (f : List Char)
  deriving DecidableEq, Repr

/-! ### The formatter -/

/-- keywords.py `precedence`, in quarters (they include 1.5, 2.5 and steps of 0.25). -/
def oprec : Op → Nat
  | .concat => 4 | .mul => 8 | .div => 6 | .mod => 8 | .add => 12 | .sub => 10
  | .band => 16 | .bor => 16
  | .lt => 20 | .lte => 20 | .gte => 20 | .gt => 24 | .eq => 28 | .neq => 28
  | .like => 32 | .notLike => 32 | .rlike => 32 | .notRlike => 32
  | .and => 40 | .or => 44

def pprec : Post → Nat
  | .missing => 28 | .exists => 28 | .isin _ => 32 | .nin _ => 32

/-- The precedence `Formatter.op` compares with (0 for what is never parenthesised:
leaves and regular function calls, which `not` and `neg` are for lack of a
`_not`/`_neg` method). -/
def fprec : Ex → Nat
  | .atom _ => 0
  | .bin o _ _ => oprec o
  | .post p _ => pprec p
  | .btw _ _ _ _ => 32
  | .enot _ => 0
  | .bnot _ => 16
  | .neg _ => 0
  | .call _ _ => 0

/-- formatting.py 280-284: `prec >= op_prec` leaves the operand bare. -/
def wrap (q : Nat) (e : Ex) (t : List Tok) : List Tok :=
  if fprec e ≤ q then t else .lp :: (t ++ [.rp])

/-- The name `neg` is printed with. -/
def negName : List Char := ['N', 'E', 'G']

/-- The tokens the formatter prints for a tree: the first operand of an infix
operator is dispatched at `op_prec + 0.25`, the other at `op_prec` (78-82). -/
def fmt : Ex → List Tok
  | .atom s => [.atom s]
  | .bin o l r => wrap (oprec o + 1) l (fmt l) ++ .op o :: wrap (oprec o) r (fmt r)
  | .post p e => wrap 32 e (fmt e) ++ [.post p]
  | .btw n a b c =>
    wrap 32 a (fmt a) ++ .btw n :: (wrap 32 b (fmt b) ++ .op .and :: wrap 32 c (fmt c))
  | .enot e => .knot :: .lp :: (fmt e ++ [.rp])
  | .bnot e => .tilde :: fmt e
  | .neg e => .fn negName :: .lp :: (fmt e ++ [.rp])
  | .call f e => .fn f :: .lp :: (fmt e ++ [.rp])

/-! ### The text -/

/-- formatting.py 71: `" {0} ".format(_op).replace("_", " ").upper()`. -/
def opText : Op → String
  | .concat => " || " | .mul => " * " | .div => " / " | .mod => " % "
  | .add => " + " | .sub => " - " | .band => " & " | .bor => " | "
  | .lt => " < " | .lte => " <= " | .gt => " > " | .gte => " >= "
  | .eq => " = " | .neq => " <> "
  | .like => " LIKE " | .notLike => " NOT LIKE "
  | .rlike => " RLIKE " | .notRlike => " NOT RLIKE "
  | .and => " AND " | .or => " OR "

def postText : Post → List Char
  | .missing => " IS NULL".toList
  | .exists => " IS NOT NULL".toList
  | .isin s => " IN ".toList ++ s
  | .nin s => " NOT IN ".toList ++ s

def btwText : Bool → List Char
  | false => " BETWEEN ".toList
  | true => " NOT BETWEEN ".toList

/-- How a token is spelled. -/
def spell : Tok → List Char
  | .atom s => s
  | .op o => (opText o).toList
  | .post p => postText p
  | .btw n => btwText n
  | .knot => "NOT".toList
  | .tilde => ['~']
  | .lp => ['(']
  | .rp => [')']
  | .fn f => f

/-- The text of an operand, with the parentheses of `op`. -/
def wrapText (q : Nat) (e : Ex) (t : List Char) : List Char :=
  if fprec e ≤ q then t else '(' :: (t ++ [')'])

/-- The text the formatter builds. -/
def textOf : Ex → List Char
  | .atom s => s
  | .bin o l r =>
    wrapText (oprec o + 1) l (textOf l) ++ (opText o).toList ++ wrapText (oprec o) r (textOf r)
  | .post p e => wrapText 32 e (textOf e) ++ postText p
  | .btw n a b c =>
    wrapText 32 a (textOf a) ++ btwText n ++ wrapText 32 b (textOf b) ++ " AND ".toList
      ++ wrapText 32 c (textOf c)
  | .enot e => "NOT".toList ++ '(' :: (textOf e ++ [')'])
  | .bnot e => '~' :: textOf e
  | .neg e => negName ++ '(' :: (textOf e ++ [')'])
  | .call f e => f ++ '(' :: (textOf e ++ [')'])

theorem wrap_spell (q : Nat) (e : Ex) (t : List Tok) :
    (wrap q e t).flatMap spell = wrapText q e (t.flatMap spell) := by
  unfold wrap wrapText
  split <;> simp [spell]

/-- The text is the concatenation of the spellings of the tokens. -/
theorem text_eq : ∀ e : Ex, textOf e = (fmt e).flatMap spell
  | .atom s => by simp [textOf, fmt, spell]
  | .bin o l r => by
    simp only [textOf, fmt, List.flatMap_append, List.flatMap_cons, wrap_spell, text_eq l,
      text_eq r, spell, List.append_assoc]
  | .post p e => by
    simp only [textOf, fmt, List.flatMap_append, List.flatMap_cons, List.flatMap_nil,
      wrap_spell, text_eq e, spell, List.append_nil]
  | .btw n a b c => by
    simp only [textOf, fmt, List.flatMap_append, List.flatMap_cons, wrap_spell, text_eq a,
      text_eq b, text_eq c, spell, List.append_assoc, opText]
  | .enot e => by simp [textOf, fmt, text_eq e, spell]
  | .bnot e => by simp [textOf, fmt, text_eq e, spell]
  | .neg e => by simp [textOf, fmt, text_eq e, spell]
  | .call f e => by simp [textOf, fmt, text_eq e, spell]

/-! ### Operators with many operands -/

/-- `op.join(acc)` of formatting.py 78-86 for the operands `a :: rest`. -/
def fmtN (o : Op) (a : Ex) (rest : List Ex) : List Tok :=
  wrap (oprec o + 1) a (fmt a) ++ rest.flatMap fun e => .op o :: wrap (oprec o) e (fmt e)

/-- The left-nested binary tree of the operands `a :: rest`. -/
def nest (o : Op) (a : Ex) (rest : List Ex) : Ex :=
  rest.foldl (fun l r => .bin o l r) a

/-- An operator with two or more operands prints like its left-nested tree. -/
theorem fmtN_eq (o : Op) (rest : List Ex) : ∀ (a b : Ex),
    fmtN o a (b :: rest) = fmt (nest o a (b :: rest)) := by
  induction rest with
  | nil => intro a b; simp [fmtN, nest, fmt]
  | cons c rest ih =>
    intro a b
    have := ih (.bin o a b) c
    simp only [nest, List.foldl_cons] at this ⊢
    rw [← this]
    simp [fmtN, wrap, fprec, fmt]

/-! ### The backend's grammar -/

/-- Level of an operator in MySQL's grammar; a higher level binds tighter. -/
def olev : Op → Nat
  | .concat => 0 | .or => 0 | .and => 2
  | .lt => 4 | .lte => 4 | .gt => 4 | .gte => 4 | .eq => 4 | .neq => 4
  | .like => 5 | .notLike => 5 | .rlike => 5 | .notRlike => 5
  | .bor => 6 | .band => 7 | .add => 8 | .sub => 8
  | .mul => 9 | .div => 9 | .mod => 9

/-- Least level of the left operand. -/
def lmin : Op → Nat
  | .like => 6 | .notLike => 6 | .rlike => 6 | .notRlike => 6
  | o => olev o

/-- Least level of the right operand. -/
def rmin : Op → Nat
  | .like => 11 | .notLike => 11 | .rlike => 6 | .notRlike => 6
  | o => olev o + 1

/-- What an operator text means: outside `PIPES_AS_CONCAT` mode `||` is `OR`. -/
def mean : Op → Op
  | .concat => .or
  | o => o

def plev : Post → Nat
  | .missing => 4 | .exists => 4 | .isin _ => 5 | .nin _ => 5

/-- Least level of the operand of a postfix condition. -/
def pmin : Post → Nat
  | .missing => 4 | .exists => 4 | .isin _ => 6 | .nin _ => 6

/-- The level of the infix or postfix part a token begins, if it begins one. -/
def tlev : Tok → Option Nat
  | .op o => some (olev o)
  | .post p => some (plev p)
  | .btw _ => some 5
  | _ => none

/-- A loop at level `m` stops before `t`. -/
def Stop (m : Nat) : List Tok → Prop
  | [] => True
  | k :: _ => ∀ n, tlev k = some n → n < m

inductive Mode
  | prim
  | expr (m : Nat)
  | loop (m : Nat) (lhs : Ex)

/-- `Reads (.expr 0) t e r`: the grammar reads a prefix of the tokens `t` as the
expression `e` and leaves `r`.  `.expr m` reads only operators of level at least `m`;
`.loop m lhs` continues after the operand `lhs`. -/
inductive Reads : Mode → List Tok → Ex → List Tok → Prop
  | atom (s t) : Reads .prim (.atom s :: t) (.atom s) t
  | paren {t e r} : Reads (.expr 0) t e (.rp :: r) → Reads .prim (.lp :: t) e r
  | call {f t e r} : Reads (.expr 0) t e (.rp :: r) → Reads .prim (.fn f :: .lp :: t) (.call f e) r
  | tilde {t e r} : Reads .prim t e r → Reads .prim (.tilde :: t) (.bnot e) r
  | knot {t e r} : Reads (.expr 3) t e r → Reads .prim (.knot :: t) (.enot e) r
  | expr {m t a t' e r} : Reads .prim t a t' → Reads (.loop m a) t' e r → Reads (.expr m) t e r
  | stop {m a t} : Stop m t → Reads (.loop m a) t a t
  | op {m a o t b t' e r} : m ≤ olev o → Reads (.expr (rmin o)) t b t' →
      Reads (.loop m (.bin (mean o) a b)) t' e r → Reads (.loop m a) (.op o :: t) e r
  | post {m a p t e r} : m ≤ plev p → Reads (.loop m (.post p a)) t e r →
      Reads (.loop m a) (.post p :: t) e r
  | btw {m a n t b t' c t'' e r} : m ≤ 5 → Reads (.expr 6) t b (.op .and :: t') →
      Reads (.expr 5) t' c t'' → Reads (.loop m (.btw n a b c)) t'' e r →
      Reads (.loop m a) (.btw n :: t) e r

/-- The grammar reads a text in one way only. -/
theorem reads_unique {m t e r} (h : Reads m t e r) :
    ∀ {e' r'}, Reads m t e' r' → e' = e ∧ r' = r := by
  induction h with
  | atom s t => intro e' r' h'; cases h'; exact ⟨rfl, rfl⟩
  | paren _ ih =>
    intro e' r' h'
    cases h' with
    | paren h2 => obtain ⟨a, b⟩ := ih h2; exact ⟨a, (List.cons.inj b).2⟩
  | call _ ih =>
    intro e' r' h'
    cases h' with
    | call h2 => obtain ⟨a, b⟩ := ih h2; exact ⟨by rw [a], (List.cons.inj b).2⟩
  | tilde _ ih =>
    intro e' r' h'
    cases h' with
    | tilde h2 => obtain ⟨a, b⟩ := ih h2; exact ⟨by rw [a], b⟩
  | knot _ ih =>
    intro e' r' h'
    cases h' with
    | knot h2 => obtain ⟨a, b⟩ := ih h2; exact ⟨by rw [a], b⟩
  | expr _ _ ih1 ih2 =>
    intro e' r' h'
    cases h' with
    | expr h1 h2 => obtain ⟨rfl, rfl⟩ := ih1 h1; exact ih2 h2
  | stop hs =>
    intro e' r' h'
    cases h' with
    | stop _ => exact ⟨rfl, rfl⟩
    | op hm _ _ => exact absurd (hs _ rfl) (by omega)
    | post hm _ => exact absurd (hs _ rfl) (by omega)
    | btw hm _ _ _ => exact absurd (hs _ rfl) (by omega)
  | op hm _ _ ih1 ih2 =>
    intro e' r' h'
    cases h' with
    | stop hs => exact absurd (hs _ rfl) (by omega)
    | op _ h1 h2 => obtain ⟨rfl, rfl⟩ := ih1 h1; exact ih2 h2
  | post hm _ ih =>
    intro e' r' h'
    cases h' with
    | stop hs => exact absurd (hs _ rfl) (by omega)
    | post _ h1 => exact ih h1
  | btw hm _ _ _ ih1 ih2 ih3 =>
    intro e' r' h'
    cases h' with
    | stop hs => exact absurd (hs _ rfl) (by omega)
    | btw _ h1 h2 h3 =>
      obtain ⟨rfl, hb⟩ := ih1 h1
      obtain ⟨-, rfl⟩ := List.cons.inj hb
      obtain ⟨rfl, rfl⟩ := ih2 h2
      exact ih3 h3

end EulerDB.Format
