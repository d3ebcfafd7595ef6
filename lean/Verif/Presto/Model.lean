/-
Model of the writing of an expression, a sort item and a set operation by the second SQL grammar of the repository, and of
the grammar that reads them.

Code: /repo/scheduler/lex_module/lacquer/formatter/formatter.py `Formatter` 24-289 (49-50 strings, 64-65 numbers, 79-80
null, 96-97 names, 132-133 and, or, 135-136 not, 138-145 comparison and null, 165-172 sign, 174-175 arithmetic,
177-187 like, 233-236 between, 281-284), `visit_union` 499-504, `visit_intersect` 513-518, `_process_relation` 796-801,
`sort_item_formatter` 817-827, `format_string_literal` 850-851;
/repo/scheduler/lex_module/lacquer/parsers/parser.py: sort items 95-112, `where_opt` 230-237, conditions 415-520,
`numeric_value_expression` 533-541, `term` 544-554, `factor` 557-562, `primary_expression` 568-577, values 580-604;
/repo/scheduler/lex_module/lacquer/tree/expression.py 299-314.

Simplifications:
  * text is a list of tokens, since the written text has a blank between words (the lexer's rules are not modelled); a
    qualified name is one token, a string is one token with the text between its outer quotes;
  * a relation of a set operation is not `TABLE name` (line 799 is an error then), and `EXCEPT` is left out;
  * the grammar is given by its rules, not by the tables made of them;
  * expressions are those built from null, numbers, strings, names, signs, arithmetic, comparisons, `and`, `or`, `not`,
    `is [not] null`, `between` and `like`; calls, `case`, `cast`, lists and subqueries are left out, as is `not_opt`
    inside `between` and `like` (read as a `not` around them).
-/
import Verif.Py

namespace EulerDB.Presto

/-- The operators of `p_numeric_value_expression` (`add`, `sub`) and `p_term` (the others). -/
inductive AOp | add | sub | mul | div | mod | cat
deriving DecidableEq, Repr

/-- `p_comparison_operator`, lines 720-727. -/
inductive COp | eq | ne | lt | le | gt | ge
deriving DecidableEq, Repr

/-- The nodes of tree/expression.py and tree/literal.py. -/
inductive Ex
  | null
  | num (n : Nat)
  | str (s : List Char)
  | name (parts : List (List Char))
  | sign (minus : Bool) (e : Ex)
  | arith (op : AOp) (l r : Ex)
  | cmp (op : COp) (l r : Ex)
  | logic (conj : Bool) (l r : Ex)
  | not (e : Ex)
  | isNull (neg : Bool) (e : Ex)
  | between (v a b : Ex)
  | like (v p : Ex)
deriving DecidableEq, Repr

inductive Tok
  | lp | rp
  | null | num (n : Nat) | str (s : List Char) | name (parts : List (List Char))
  | plus | minus | aop (op : AOp)
  | cmp (op : COp) | and | or | not | is | between | like
deriving DecidableEq, Repr

/-- The token of an arithmetic operator: `+` and `-` are also signs. -/
def aTok : AOp → Tok
  | .add => .plus
  | .sub => .minus
  | op => .aop op

/-- `s.replace("'", "''")`, line 851. -/
def dbl (s : List Char) : List Char := s.flatMap fun c => if c = '\'' then ['\'', '\''] else [c]

/-- `Formatter.process`. The test of line 168 is `node.sign == "="`, which no sign is. -/
def fmt : Ex → List Tok
  | .null => [.null]
  | .num n => [.num n]
  | .str s => [.str (dbl s)]
  | .name p => [.name p]
  | .sign _ e => .plus :: fmt e
  | .arith op l r => .lp :: (fmt l ++ aTok op :: (fmt r ++ [.rp]))
  | .cmp op l r => .lp :: (fmt l ++ .cmp op :: (fmt r ++ [.rp]))
  | .logic c l r => .lp :: (fmt l ++ (if c then .and else .or) :: (fmt r ++ [.rp]))
  | .not e => .lp :: .not :: (fmt e ++ [.rp])
  | .isNull false e => .lp :: (fmt e ++ [.is, .null, .rp])
  | .isNull true e => .lp :: (fmt e ++ [.is, .not, .null, .rp])
  | .between v a b => .lp :: (fmt v ++ .between :: (fmt a ++ .and :: (fmt b ++ [.rp])))
  | .like v p => .lp :: (fmt v ++ .like :: (fmt p ++ [.rp]))

/-- The nonterminals of parser.py 415-577. -/
inductive NT | prim | factor | term | value | factorB | termB | cond | where_
deriving DecidableEq

/-- The rules: `Reads n t e` when the tokens `t` are derived from `n` and the actions make `e`. -/
inductive Reads : NT → List Tok → Ex → Prop
  | null : Reads .prim [.null] .null
  | num (n) : Reads .prim [.num n] (.num n)
  | str (s) : Reads .prim [.str s] (.str s)
  | name (p) : Reads .prim [.name p] (.name p)
  | paren {t e} : Reads .value t e → Reads .prim (.lp :: (t ++ [.rp])) e
  | unsigned {t e} : Reads .prim t e → Reads .factor t e
  | plus {t e} : Reads .prim t e → Reads .factor (.plus :: t) (.sign false e)
  | minus {t e} : Reads .prim t e → Reads .factor (.minus :: t) (.sign true e)
  | factor {t e} : Reads .factor t e → Reads .term t e
  | mul (op) {t u l r} : op ≠ .add → op ≠ .sub → Reads .term t l → Reads .factor u r →
      Reads .term (t ++ aTok op :: u) (.arith op l r)
  | term {t e} : Reads .term t e → Reads .value t e
  | add {t u l r} : Reads .value t l → Reads .term u r → Reads .value (t ++ .plus :: u) (.arith .add l r)
  | sub {t u l r} : Reads .value t l → Reads .term u r → Reads .value (t ++ .minus :: u) (.arith .sub l r)
  | value {t e} : Reads .value t e → Reads .factorB t e
  | cmp (op) {t u l r} : Reads .value t l → Reads .value u r → Reads .factorB (t ++ .cmp op :: u) (.cmp op l r)
  | between {t u w v a b} : Reads .value t v → Reads .value u a → Reads .value w b →
      Reads .factorB (t ++ .between :: (u ++ .and :: w)) (.between v a b)
  | like {t u v p} : Reads .value t v → Reads .value u p → Reads .factorB (t ++ .like :: u) (.like v p)
  | isNull {t e} : Reads .value t e → Reads .factorB (t ++ [.is, .null]) (.isNull false e)
  | isNotNull {t e} : Reads .value t e → Reads .factorB (t ++ [.is, .not, .null]) (.isNull true e)
  | not {t e} : Reads .factorB t e → Reads .termB (.not :: t) (.not e)
  | test {t e} : Reads .factorB t e → Reads .termB t e
  | and {t u l r} : Reads .termB t l → Reads .termB u r → Reads .termB (t ++ .and :: u) (.logic true l r)
  | termB {t e} : Reads .termB t e → Reads .cond t e
  | or {t u l r} : Reads .cond t l → Reads .termB u r → Reads .cond (t ++ .or :: u) (.logic false l r)
  | where_ {t e} : Reads .cond t e → Reads .where_ t e
  | whereParen {t e} : Reads .cond t e → Reads .where_ (.lp :: (t ++ [.rp])) e

/-- What an expression of integers is worth; `env` gives the names their values. -/
def worth (env : List (List Char) → Int) : Ex → Option Int
  | .num n => some n
  | .name p => some (env p)
  | .sign m e => (worth env e).map fun v => if m then -v else v
  | .arith .add l r => do return (← worth env l) + (← worth env r)
  | .arith .sub l r => do return (← worth env l) - (← worth env r)
  | .arith .mul l r => do return (← worth env l) * (← worth env r)
  | _ => none

/-- A sort item as read (parser.py 95-112): the direction and the word after `NULLS` are the words as they were typed. -/
structure SortItem where
  ordering : List Char
  nulls : Option (List Char)
deriving DecidableEq, Repr

/-- `p_sort_item`, lines 95-98: `p[2] or 'ASC'`. -/
def readSort (dir nulls : Option (List Char)) : SortItem := ⟨dir.getD "ASC".toList, nulls⟩

/-- `sort_item_formatter` after the key, lines 818-827: the words written. -/
def fmtSort (s : SortItem) : List (List Char) :=
  [if s.ordering = "ASC".toList then "ASC".toList else "DESC".toList] ++
  (if s.nulls = some "FIRST".toList then ["NULLS".toList, "FIRST".toList] else ["NULLS".toList, "LAST".toList]) ++
  (if s.nulls = some "FIRST".toList then ["NULLS".toList, "FIRST".toList]
   else if s.nulls = some "LAST".toList then ["NULLS".toList, "LAST".toList] else [])

/-- A word whatever its case, as the lexer takes reserved words (lexer.py 78-87: the type is upper case, the value stays). -/
def isWord (w : String) (s : List Char) : Prop := s.map Char.toUpper = w.toList

instance (w : String) (s : List Char) : Decidable (isWord w s) := inferInstanceAs (Decidable (_ = _))

/-- The rules of lines 101-112 for what follows the key: an optional direction, then an optional order of nulls. -/
inductive SortReads : List (List Char) → Option (List Char) → Option (List Char) → Prop
  | mk (dir nulls : Option (List Char)) (n : List Char) :
      (∀ d ∈ dir, isWord "ASC" d ∨ isWord "DESC" d) → (∀ x ∈ nulls, isWord "FIRST" x ∨ isWord "LAST" x) →
      isWord "NULLS" n →
      SortReads (dir.toList ++ (match nulls with | none => [] | some x => [n, x])) dir nulls

/-- `_process_relation`, lines 796-801: what it appends, and what it returns. -/
def processRelation (t : List Char) : List Char × Option (List Char) := (t, none)

/-- `sep.join(parts)`: a part that is not a text is a TypeError. -/
def joinParts (sep : List Char) : List (Option (List Char)) → Except PyErr (List Char)
  | [] => .ok []
  | [none] => .error .typeError
  | [some t] => .ok t
  | none :: _ => .error .typeError
  | some t :: r => (joinParts sep r).map fun u => t ++ sep ++ u

/-- `visit_union` and `visit_intersect`, lines 499-504 and 513-518; `word` is `UNION ` or `INTERSECT `. The condition
covers the whole sum of lines 501 and 515. -/
def fmtSetOp (word : List Char) (distinct : Bool) (rels : List (List Char)) : Except PyErr (List Char) :=
  let done := rels.map processRelation
  (joinParts (if !distinct then word ++ "ALL ".toList else []) (done.map (·.2))).map fun t =>
    (done.map (·.1)).flatten ++ t

end EulerDB.Presto
