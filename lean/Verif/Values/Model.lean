/-
What the parser says of the values, the columns and the limit of a statement.

Code: /repo/scheduler/compile/parser.py `tokens` 126-181, `columns` 188-232, `limit_and_offset` 376-403, `values` 564-587,
`values_dict` 589-602, `_not_parsed_tokens` 629-634;
/repo/scheduler/compile/token.py 31-44, 133-137, 164-173, 301-309, 329-337.

Simplifications:
  * a token carries the type the lexer gave it, found again by its position;
  * a `float` is kept as it was spelled;
  * each property is read first on a fresh parser, so that only parentheses have a `token_type` (162-167);
  * `columns` is modelled for statements of the type INSERT or REPLACE in which no name follows one of the keywords before
    columns (the branch 203-219 is not taken); where it would be, the model says `notSupported`.
-/
import Verif.Rules.Props
import Verif.Text

namespace EulerDB.Values

open EulerDB.Lex EulerDB.Group EulerDB.Rules

/-- A token of the parser with the type it has from the lexer. -/
structure VTok where
  p : PTok
  ttype : TType
  deriving DecidableEq, Repr

/-- The parser's tokens of the tokens of a statement without blanks, with their types. -/
def typed (l : List Token) (ps : List PTok) : List VTok :=
  ps.map fun p => ⟨p, (l[p.position]?.map Token.ttype).getD []⟩

/-- `tokens` for a statement: the type of the statement is asked for at the end, 180. -/
def tokensOf (st : List Token) : Except PyErr (List VTok) :=
  match parserTokens st with
  | .error e => .error e
  | .ok l =>
    match parserToks l with
    | .error e => .error e
    | .ok ps =>
      match queryType (ps.map PTok.sql) with
      | .error e => .error e
      | .ok _ => .ok (typed (l.filter fun t => !isBlank t) ps)

/-- `token_type is None`. -/
def VTok.open' (t : VTok) : Bool := !t.p.left && !t.p.right

def VTok.punct (t : VTok) : Bool := t.ttype == Punctuation
def VTok.integer (t : VTok) : Bool := t.ttype == Integer
def VTok.float (t : VTok) : Bool := t.ttype == Group.Float
def VTok.name (t : VTok) : Bool := t.ttype == Name
def VTok.keyword (t : VTok) : Bool := isIn t.ttype Keyword || (t.ttype.length == 2 && t.ttype.dropLast == Name)

/-! ### `values` -/

/-- A value of the list. -/
inductive Val
  | int (z : Int)
  | float (s : List Char)
  | text (s : List Char)
  deriving DecidableEq, Repr

/-- `s.strip("'\"")`. -/
def stripQuotes (s : List Char) : List Char :=
  let q := fun c : Char => c == '\'' || c == '"'
  ((s.dropWhile q).reverse.dropWhile q).reverse

/-- 579-584. -/
def readVal (ty : TType) (v : List Char) : Except PyErr Val :=
  if ty == Integer then
    match Text.parseInt v with
    | .error e => .error e
    | .ok z => .ok (.int z)
  else if ty == Group.Float then .ok (.float v)
  else .ok (.text (stripQuotes v))

def nextPunct : List VTok → Bool
  | [] => false
  | u :: _ => u.punct

/-- The loop 572-585. -/
def valuesFrom : List VTok → Except PyErr (List Val)
  | [] => .ok []
  | t :: r =>
    if t.open' && t.p.lastKeyword == "VALUES" && decide (0 < t.p.level) && nextPunct r then
      match readVal t.ttype t.p.value with
      | .error e => .error e
      | .ok v =>
        match valuesFrom r with
        | .error e => .error e
        | .ok l => .ok (v :: l)
    else valuesFrom r

/-- `values`. -/
def values (st : List Token) : Except PyErr (List Val) :=
  match tokensOf st with
  | .error e => .error e
  | .ok l => valuesFrom l

/-! ### `limit_and_offset` -/

/-- What the loop 386-397 has found. -/
structure Limits where
  limit : Option Int
  offset : Option Int
  deriving DecidableEq, Repr

/-- `not limit`. -/
def unset : Option Int → Bool
  | none => true
  | some z => z == 0

/-- The loop; `prev` is the token before. -/
def limitFrom (prev : Option VTok) (s : Limits) : List VTok → Except PyErr Limits
  | [] => .ok s
  | t :: r =>
    if t.open' && t.integer then
      match Text.parseInt t.p.value with
      | .error e =>
        if t.p.lastKeyword == "LIMIT" && unset s.limit || t.p.lastKeyword == "OFFSET" || prev.any VTok.punct then .error e
        else limitFrom (some t) s r
      | .ok z =>
        if t.p.lastKeyword == "LIMIT" && unset s.limit then limitFrom (some t) { s with limit := some z } r
        else if t.p.lastKeyword == "OFFSET" then limitFrom (some t) { s with offset := some z } r
        else if prev.any VTok.punct then limitFrom (some t) ⟨some z, s.limit⟩ r
        else limitFrom (some t) s r
    else limitFrom (some t) s r

/-- 399-403; `offset or 0`. -/
def Limits.result (s : Limits) : Option (Int × Int) :=
  s.limit.map fun l => (l, s.offset.getD 0)

/-- `limit_and_offset`. -/
def limits (st : List Token) : Except PyErr (Option (Int × Int)) :=
  match tokensOf st with
  | .error e => .error e
  | .ok l =>
    match limitFrom none ⟨none, none⟩ l with
    | .error e => .error e
    | .ok s => .ok s.result

/-! ### `columns` and `values_dict` of an INSERT -/

def prevNormV (prev : Option VTok) : String := match prev with | none => "" | some t => normalized t.p.value
def nextNormV : List VTok → String
  | [] => ""
  | u :: _ => normalized u.p.value

/-- `is_keyword_column_name`, token.py 164-173. -/
def keywordColumn (prev : Option VTok) (t : VTok) (r : List VTok) : Bool :=
  t.keyword && !relevant.contains (normalized t.p.value) && [",", "SELECT"].contains (prevNormV prev) &&
    [",", "AS"].contains (nextNormV r)

/-- `UniqueList.append`. -/
def add (c : List Char) (cs : List (List Char)) : List (List Char) := if cs.contains c then cs else cs ++ [c]

/-- The loop 198-229. -/
def columnsFrom (prev : Option VTok) (cs : List (List Char)) : List VTok → Except PyErr (List (List Char))
  | [] => .ok cs
  | t :: r =>
    if t.open' && (t.name || keywordColumn prev t r) then
      if beforeColumns.contains t.p.lastKeyword then .error .notSupported
      else if t.p.lastKeyword == "INTO" && prev.any VTok.punct then
        columnsFrom (some t) (add (stripChar '`' t.p.value) cs) r
      else columnsFrom (some t) cs r
    else if t.ttype == Wildcard && t.p.lastKeyword == "SELECT" then .error .notSupported
    else columnsFrom (some t) cs r

/-- `f"column_{ind + 1}"`. -/
def auto (n : Nat) : List (List Char) := (List.range n).map fun i => "column_".toList ++ Text.natStr (i + 1)

/-- `dict(zip(columns, values))`: a later pair with the same key replaces the value. -/
def dictOf (l : List (List Char × Val)) : List (List Char × Val) :=
  l.foldl (fun d p => if d.any (fun q => q.1 == p.1) then d.map (fun q => if q.1 == p.1 then p else q) else d ++ [p]) []

/-- `values_dict` of an INSERT; `None` without values. -/
def valuesDict (st : List Token) : Except PyErr (Option (List (List Char × Val))) :=
  match tokensOf st with
  | .error e => .error e
  | .ok l =>
    match valuesFrom l with
    | .error e => .error e
    | .ok [] => .ok none
    | .ok vs =>
      match columnsFrom none [] l with
      | .error e => .error e
      | .ok cs => .ok (some (dictOf ((if cs.isEmpty then auto vs.length else cs).zip vs)))

/-! ### On characters -/

/-- The first statement of a text, 134-139. -/
def statementOf (k : Classes) (kw : List Char → TType) (text : List Char) : Except PyErr (List Token) :=
  match lex (rules k kw) (preprocess text) with
  | .error e => .error e
  | .ok stream =>
    match split stream with
    | [] => .error .valueError
    | st :: _ => .ok st

def onText {α : Type} (f : List Token → Except PyErr α) (k : Classes) (kw : List Char → TType) (text : String) : Except PyErr α :=
  match statementOf k kw text.toList with
  | .error e => .error e
  | .ok st => f st

end EulerDB.Values
