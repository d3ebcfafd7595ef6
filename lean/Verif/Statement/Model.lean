/-
Model of how a rewritten statement is written back to SQL text.

Code: /repo/sql_parsing/formatting.py `unordered_clauses` 109-121, `ordered_clauses` 123-128,
`dispatch` 166-197, `sql_list` 199-204, `value` 206-266, `_join_on` 432-454,
`ordered_query` 456-475, `unordered_query` 477-488 and the clauses `with_` … `drop` 490-636,
`_literal` 370-380; /repo/sql_parsing/keywords.py `join_keywords` 230-240 and `precedence` 242-292;
/repo/sql_parsing/utils.py `is_set_op` 290; /repo/parsing/utils.py `listwrap` 199-211;
/repo/sql_parsing/__init__.py 86-89 (`format` calls `dispatch` with the default precedence 100).

Simplifications:
  * a text is a list of tokens: keywords, leaves (expressions and names), parentheses and
    commas.  Python joins the pieces with " " and the members of lists with ", " (the rows of INSERT with ",\n");
  * an expression that is no query is one leaf, written by the parameter `ex` (the subject of
    `Verif/Format/Expr.lean` and `Literal.lean`).  Every expression operator binds tighter (at
    most 12, keywords.py 280) than the precedences used here (at least 18), so that the
    precedence does not matter to `ex`.  Expressions with a window (`over`) and the set
    operations are left to `ex` as well;
  * a clause whose text is empty does not occur (every clause writes its keyword), so that the
    test `if part` (469, 483) is left out;
  * the text of a value that is no string where the code formats it unchecked (`{0}`, f-strings)
    is the parameter `repr`.
-/
import Verif.Clause.Rewriter

namespace EulerDB.Statement

open EulerDB EulerDB.Clause

/-- The pieces of a statement's text. -/
inductive Tok where
  | kw (k : String)
  | leaf (s : String)
  | lp
  | rp
  | comma
  deriving DecidableEq, Repr

/-- What is not modelled here: the text of an expression, of an arbitrary Python value, and of a float. -/
structure Leaves where
  ex : Json → Except PyErr String
  repr : Json → String
  floatText : ℚ → String

/-- formatting.py 109-121. -/
def unorderedClauses : List String :=
  ["with", "distinct_on", "select_distinct", "select", "delete", "update", "set", "from", "where", "groupby", "having"]

/-- formatting.py 123-128. -/
def orderedClauses : List String := ["orderby", "limit", "offset", "fetch"]

/-- keywords.py 230-240. -/
def joinKeywords : List String :=
  ["join", "full join", "cross join", "inner join", "left join", "right join", "full outer join", "right outer join", "left outer join"]

/-- utils.py 290. -/
def setOps : List String := ["union", "union_all", "except", "minus", "intersect"]

/-- `k in json`. -/
def hasKey (d : Dict String Json) (k : String) : Bool := (Dict.get? d k).isSome

/-- `json.keys() & set(ks)` is not empty. -/
def hasAny (d : Dict String Json) (ks : List String) : Bool := ks.any (hasKey d)

/-- parsing/utils.py `listwrap` 199-211. -/
def listwrap : Json → List Json
  | .null => []
  | .list l => l
  | j => [j]

/-- `", ".join`. -/
def commaSep : List (List Tok) → List Tok
  | [] => []
  | [p] => p
  | p :: ps => p ++ .comma :: commaSep ps

/-- `f"({sql})"`. -/
def parens (t : List Tok) : List Tok := .lp :: (t ++ [.rp])

/-- `[f(x) for x in l]` for an `f` that may raise. -/
def each {α β : Type} (f : α → Except PyErr β) : List α → Except PyErr (List β)
  | [] => .ok []
  | a :: l =>
    match f a with
    | .error e => .error e
    | .ok b =>
      match each f l with
      | .error e => .error e
      | .ok bs => .ok (b :: bs)

/-- One leaf. -/
def leafOf (x : Except PyErr String) : Except PyErr (List Tok) := x.map fun s => [.leaf s]

/-- `json.replace("'", "''")`, on the characters. -/
def doubleQuotes : List Char → List Char
  | [] => []
  | c :: t => if c = '\'' then '\'' :: '\'' :: doubleQuotes t else c :: doubleQuotes t

/-- formatting.py `_literal` 370-380 (`fuel`: nested lists and dicts). -/
def literalText (L : Leaves) : Nat → Json → Except PyErr String
  | 0, _ => .error .nonterm
  | n + 1, j =>
    match j with
    | .list l => (each (literalText L n) l).map fun ts => "(" ++ String.intercalate ", " ts ++ ")"
    | .str s => .ok (String.ofList ('\'' :: (doubleQuotes s.toList ++ ['\''])))
    | .dict d =>
      match Dict.getItem d "literal" with
      | .error e => .error e
      | .ok v => literalText L n v
    | .int z => .ok (intText z)
    | .float q => .ok (L.floatText q)
    | .null => .ok "None"

/-- `text` of a value the code joins without formatting it: only a string. -/
def rawName : Json → Except PyErr (List Tok)
  | .str s => .ok [.leaf s]
  | _ => .error .typeError

section
variable (L : Leaves) (dispatch : Json → Nat → Except PyErr (List Tok))

/-- formatting.py `value` 206-266 without windows. -/
def valueToks (d : Dict String Json) (v : Json) (prec : Nat) : Except PyErr (List Tok) :=
  if hasKey d "over" then leafOf (L.ex (.dict d))
  else
    match dispatch v prec with
    | .error e => .error e
    | .ok t =>
      match Dict.get? d "name" with
      | none => .ok t
      | some n =>
        match dispatch n 100 with
        | .error e => .error e
        | .ok a => .ok (t ++ .kw "AS" :: a)

/-- `json.get(k)` with its keyword, formatting.py 448-453: written only if it is true for Python. -/
def joinCond (d : Dict String Json) (k word : String) : Except PyErr (List Tok) :=
  match Dict.get? d k with
  | none => .ok []
  | some v => if truthy v then (dispatch v 100).map (.kw word :: ·) else .ok []

/-- formatting.py `_join_on` 432-454.  (If a dict had several join keywords, Python would pick any.) -/
def joinOn (d : Dict String Json) : Except PyErr (List Tok) :=
  match joinKeywords.find? (hasKey d) with
  | none => .error .generic
  | some k =>
    match Dict.getItem d k with
    | .error e => .error e
    | .ok src =>
      match dispatch src 18, joinCond dispatch d "on" "ON", joinCond dispatch d "using" "USING" with
      | .ok s, .ok o, .ok u => .ok (.kw k.toUpper :: (s ++ o ++ u))
      | .error e, _, _ => .error e
      | _, .error e, _ => .error e
      | _, _, .error e => .error e

/-- One member of FROM, formatting.py 540-545: is it a join, and its text.  A number or None cannot be iterated over. -/
def fromItem (v : Json) : Except PyErr (Bool × List Tok) :=
  match v with
  | .dict d =>
    if hasAny d joinKeywords then (joinOn dispatch d).map (true, ·) else (dispatch v 29).map (false, ·)
  | .str _ => (dispatch v 29).map (false, ·)
  | .list l => if l.any (fun j => match j with | .str s => joinKeywords.contains s | _ => false) then .error .attributeError
      else (dispatch v 29).map (false, ·)
  | _ => .error .typeError

/-- formatting.py `from_` 531-548: one join makes the joiner a blank. -/
def fromToks (v : Json) : Except PyErr (List Tok) :=
  match v with
  | .dict d =>
    if hasAny d setOps then (leafOf (L.ex v)).map (.kw "FROM" :: ·)
    else (fromItem dispatch v).map fun p => .kw "FROM" :: p.2
  | v =>
    match each (fromItem dispatch) (listwrap v) with
    | .error e => .error e
    | .ok ps =>
      let parts := ps.map (·.2)
      .ok (.kw "FROM" :: (if ps.any (·.1) then parts.flatten else commaSep parts))

/-- A list of expressions after a keyword. -/
def listToks (words : List Tok) (v : Json) : Except PyErr (List Tok) :=
  (each (fun j => dispatch j 100) (listwrap v)).map fun ps => words ++ commaSep ps

/-- formatting.py 561-570: one member of ORDER BY. -/
def orderItem (v : Json) : Except PyErr (List Tok) :=
  match v with
  | .dict d =>
    match Dict.getItem d "value" with
    | .error e => .error e
    | .ok x =>
      match dispatch x 50 with
      | .error e => .error e
      | .ok t =>
        match Dict.get? d "sort" with
        | none => .ok t
        | some (.str s) => .ok (if s = "" then t else t ++ [.kw s.toUpper])
        | some _ => .error .attributeError
  | _ => .error .typeError

/-- formatting.py 519-521: one assignment. -/
def setItem (e : String × Json) : Except PyErr (List Tok) :=
  match dispatch (.str e.1) 100, dispatch e.2 100 with
  | .ok a, .ok b => .ok (a ++ .kw "=" :: b)
  | .error e, _ => .error e
  | _, .error e => .error e

/-- formatting.py 490-499: one member of WITH. -/
def withItem (v : Json) : Except PyErr (List Tok) :=
  match v with
  | .dict d =>
    match Dict.getItem d "name", Dict.getItem d "value" with
    | .ok n, .ok q =>
      (dispatch q 100).map fun t => .leaf (match n with | .str s => s | n => L.repr n) :: .kw "AS" :: parens t
    | .error e, _ => .error e
    | _, .error e => .error e
  | _ => .error .typeError

/-- The text of one clause of a query, formatting.py 490-582; `v` is `json[k]`. -/
def clauseToks (d : Dict String Json) (k : String) (v : Json) : Except PyErr (List Tok) :=
  if k = "with" then
    (each (withItem L dispatch) (match v with | .list l => l | v => [v])).map fun ps => .kw "WITH" :: commaSep ps
  else if k = "distinct_on" then
    (each (fun j => dispatch j 100) (listwrap v)).map fun ps => .kw "SELECT" :: .kw "DISTINCT ON" :: parens (commaSep ps)
  else if k = "select_distinct" then listToks dispatch [.kw "SELECT", .kw "DISTINCT"] v
  else if k = "select" then
    match each (fun j => dispatch j 100) (listwrap v) with
    | .error e => .error e
    | .ok ps =>
      match Dict.get? d "top" with
      | some t => (dispatch t 100).map fun t => .kw "SELECT" :: .kw "TOP" :: (parens t ++ commaSep ps)
      | none => .ok (if hasKey d "distinct_on" then commaSep ps else .kw "SELECT" :: commaSep ps)
  else if k = "delete" then (rawName v).map fun t => .kw "DELETE" :: .kw "FROM" :: t
  else if k = "update" then .ok [.kw "UPDATE", .leaf (match v with | .str s => s | v => L.repr v)]
  else if k = "set" then
    match v with
    | .dict a => (each (setItem dispatch) a).map fun ps => .kw "SET" :: commaSep ps
    | _ => .error .attributeError
  else if k = "from" then fromToks L dispatch v
  else if k = "where" then (dispatch v 100).map (.kw "WHERE" :: ·)
  else if k = "groupby" then listToks dispatch [.kw "GROUP BY"] v
  else if k = "having" then (dispatch v 100).map (.kw "HAVING" :: ·)
  else if k = "orderby" then (each (orderItem dispatch) (listwrap v)).map fun ps => .kw "ORDER BY" :: commaSep ps
  else if k = "limit" then listToks dispatch [.kw "LIMIT"] v
  else if k = "offset" then (dispatch v 50).map (.kw "OFFSET" :: ·)
  else
    -- fetch, 580-582, reads json["offset"]
    match Dict.getItem d "offset" with
    | .error e => .error e
    | .ok o => (dispatch o 50).map fun t => .kw "FETCH" :: (t ++ [.kw "ROWS ONLY"])

/-- The clauses `ks` that the statement has, in this order, 464-470, 478-484. -/
def clauses (d : Dict String Json) : List String → Except PyErr (List Tok)
  | [] => .ok []
  | k :: ks =>
    match Dict.get? d k with
    | none => clauses d ks
    | some v =>
      match clauseToks L dispatch d k v with
      | .error e => .error e
      | .ok t =>
        match clauses d ks with
        | .error e => .error e
        | .ok r => .ok (t ++ r)

/-- formatting.py `unordered_query` 477-488. -/
def unorderedQuery (d : Dict String Json) (prec : Nat) : Except PyErr (List Tok) :=
  (clauses L dispatch d unorderedClauses).map fun t => if 30 ≤ prec then t else parens t

/-- formatting.py `ordered_query` 456-475. -/
def orderedQuery (d : Dict String Json) (prec : Nat) : Except PyErr (List Tok) :=
  let head :=
    if hasAny d (unorderedClauses.filter (· ≠ "from")) then unorderedQuery L dispatch d 50
    else
      match Dict.getItem d "from" with
      | .error e => .error e
      | .ok v => dispatch v 50
  match head with
  | .error e => .error e
  | .ok h =>
    match clauses L dispatch d orderedClauses with
    | .error e => .error e
    | .ok t => .ok (if 50 ≤ prec then h ++ t else parens (h ++ t))

/-- `v['value']` of every member, as a literal, formatting.py 621. -/
def queryValue (fuel : Nat) (v : Json) : Except PyErr (List Tok) :=
  match pyItem "value" v with
  | .error e => .error e
  | .ok x => leafOf (literalText L fuel x)

/-- The dict rows of `values`. -/
def rowKeys : List Json → List String
  | [] => []
  | .dict d :: r => d.map (·.1) ++ rowKeys r
  | _ :: r => rowKeys r

/-- `list(sorted(set(...)))`. -/
def sortedSet (l : List String) : List String := (l.dedup).mergeSort (fun a b => decide (a ≤ b))

/-- One row of `values`, formatting.py 602-605. -/
def dictRow (fuel : Nat) (columns : List String) (row : Json) : Except PyErr (List Tok) :=
  (each (fun c =>
    match pyItem c row with
    | .error e => .error e
    | .ok v => leafOf (literalText L fuel v)) columns).map fun ps => parens (commaSep ps)

/-- formatting.py 610-611: `", ".join` of a text puts a comma between its characters. -/
def listRow (fuel : Nat) (row : Json) : Except PyErr (List Tok) :=
  (literalText L fuel row).map fun s => parens (commaSep (s.toList.map fun c => [.leaf (String.ofList [c])]))

/-- `isinstance(row, dict)`. -/
def isDict : Json → Bool
  | .dict _ => true
  | _ => false

/-- formatting.py `insert` 584-628. -/
def insertToks (fuel : Nat) (d : Dict String Json) : Except PyErr (List Tok) := do
  let name ← rawName ((Dict.get? d "insert").getD .null)
  let head := .kw "INSERT" :: .kw (if hasKey d "overwrite" then "OVERWRITE" else "INTO") :: name
  let cols ← match Dict.get? d "columns" with
    | none => .ok []
    | some c => do
      let l ← pyIter c
      let ps ← each (fun j => dispatch j 100) l
      .ok (parens (commaSep ps))
  let ie := if hasKey d "if exists" then [.kw "IF EXISTS"] else []
  let rest ← match Dict.get? d "values" with
    | some v => do
      let l ← pyIter v
      if l.all isDict then
        let columns := sortedSet (rowKeys l)
        let names ← each (fun c => dispatch (.str c) 100) columns
        let rows ← each (dictRow L fuel columns) l
        .ok (parens (commaSep names) ++ ie ++ .kw "VALUES" :: commaSep rows)
      else
        let rows ← each (listRow L fuel) l
        .ok (ie ++ .kw "VALUES" :: rows.flatten)
    | none =>
      match Dict.get? d "query" with
      | some q =>
        if pyIn "select" q then do
          let s ← pyItem "select" q
          let l ← pyIter s
          if l.all isDict then
            let vs ← each (queryValue L fuel) l
            .ok (ie ++ .kw "VALUES" :: parens (commaSep vs))
          else .ok []
        else .ok []
      | none => .error .keyError
  .ok (head ++ cols ++ rest)

/-- formatting.py `drop` 630-636; `'table' in values`. -/
def dropToks (v : Json) : Except PyErr (List Tok) :=
  if pyIn "table" v then
    match pyItem "table" v with
    | .error e => .error e
    | .ok t => (rawName t).map fun t => .kw "DROP" :: .kw "TABLE" :: t
  else .ok [.kw "DROP"]

end

/-- formatting.py `dispatch` 166-197. -/
def dispatch (L : Leaves) : Nat → Json → Nat → Except PyErr (List Tok)
  | 0, _, _ => .error .nonterm
  | n + 1, j, prec =>
    match j with
    | .list l => (each (fun e => dispatch L n e 100) l).map fun ps => parens (commaSep ps)
    | .dict d =>
      if d.isEmpty then .ok []
      else if hasKey d "drop" then dropToks ((Dict.get? d "drop").getD .null)
      else
        match Dict.get? d "value" with
        | some v => valueToks L (dispatch L n) d v prec
        | none =>
          if hasKey d "join" then .error .typeError
          else if hasKey d "insert" then insertToks L (dispatch L n) (n + 1) d
          else if hasAny d orderedClauses then orderedQuery L (dispatch L n) d prec
          else if hasAny d unorderedClauses then unorderedQuery L (dispatch L n) d prec
          else leafOf (L.ex j)
    | j => leafOf (L.ex j)

/-- `format(json)`, sql_parsing/__init__.py 86-89. -/
def format (L : Leaves) (fuel : Nat) (json : Dict String Json) : Except PyErr (List Tok) := dispatch L fuel (.dict json) 100

/-- The text: a blank between two pieces, except next to the inside of a parenthesis and before a comma. -/
def spell : List Tok → String
  | [] => ""
  | [t] => one t
  | a :: b :: r => one a ++ (if a = .lp ∨ b = .rp ∨ b = .comma then "" else " ") ++ spell (b :: r)
where
  one : Tok → String
    | .kw k => k
    | .leaf s => s
    | .lp => "("
    | .rp => ")"
    | .comma => ","

end EulerDB.Statement
