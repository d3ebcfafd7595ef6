/-
Model of the SQL grammar from the characters of a statement to the JSON the rest of the proxy works on:
expressions, UPDATE, DELETE, INSERT .. VALUES and SELECT .. FROM .. WHERE.

Code: /repo/sql_parsing/__init__.py `parse_mysql` 43-55, `_parse` 75-83; /repo/sql_parsing/sql_parser.py
`alias` 159-172, `call_function` 231-240, `scale` 244-248, `compound` 250-277, `expr` 317-354, `select_column`
356-361, `selection` 375-392, `row`, `values` 394-395, `unordered_sql` 397-406, `table_source` 441-446, `insert`
604-614, `update` 616-621, `delete` 623-628; /repo/sql_parsing/utils.py `scrub` 75-118, `to_json_operator` 137-213,
`to_tuple_call` 226-240, `to_json_call` 304-323, `to_alias` 394-399, `to_row` 422-427, `get_literal` 430-438,
`to_values` 441-451, `to_select_call` 485-494, `to_insert_call` 528-548, `to_table` 561-566;
/repo/parsing/infix.py 236-372; /repo/parsing/core.py `_parseString` 144-163; /repo/parsing/enhancement.py
`_dict_post_parse` 831-846.

Simplifications:
  * constructs that are left out make the outcome `R.unmod`, at the latest when their first word is seen:
    subqueries, CASE, CAST, INTERVAL, TRUE and FALSE, date and time literals, arrays, windows, DISTINCT, TOP, joins,
    GROUP BY and everything after it, UNION, WITH, and all other statements;
  * the exception that leaves the parser when a parse action raises anything but `ParseException`
    (parsing/utils.py 397-398) is `R.crash`;
  * `float` is a parameter (`none` when the result is infinite), and so are Python's longer string escapes;
  * a function name that is not ASCII is outside the model (`str.lower`);
  * a bound on the nesting depth, the length of the text, which is never reached.
-/
import Verif.Sql.Scan
import Verif.Parse.Action
import Verif.Clause.Select

namespace EulerDB.Sql

open EulerDB EulerDB.Parse

/-- What is outside the model: `float` of the decimal number, and the longer escapes of a Python string. -/
structure Env where
  fl : ℚ → Option ℚ
  long : List Char → Option (List Char × List Char)

/-- A parsed expression before `scrub`: `paren` is the `Group` layer that parentheses leave. -/
inductive V where
  | null
  | int (z : Int)
  | float (q : ℚ)
  | name (s : String)
  | lit (s : String)
  | hex (s : String)
  | call (op : String) (args : List V)
  | tuple (l : List V)
  | lits (l : List V)
  | paren (v : V)

/-! ### Values as JSON -/

/-- `null_locations`: where NULL stands, `{"null": {}}` is put in the end. -/
def nullJson : Json := .dict [("null", .dict [])]

/-- `scrub` of a list: nothing, the only member, or the list. -/
def listJson : List Json → Json
  | [] => .null
  | [j] => j
  | l => .list l

/-- utils.py 53-58: no arguments are an empty dict. -/
def callJson (op : String) : List Json → Json
  | [] => .dict [(op, .dict [])]
  | l => .dict [(op, listJson l)]

mutual
/-- utils.py `scrub` 75-118. -/
def scrub : V → Json
  | .null => nullJson
  | .int z => .int z
  | .float q => .float q
  | .name s => .str s
  | .lit s => Json.lit s
  | .hex s => .dict [("hex", .str s)]
  | .call op args => callJson op (scrubs args)
  | .tuple l => listJson (scrubs l)
  | .lits l => .dict [("literal", listJson (bare l))]
  | .paren v => scrub v
def scrubs : List V → List Json
  | [] => []
  | v :: l => scrub v :: scrubs l
/-- The members of a list of literals: `r["literal"] if is_data(r) else r`. -/
def bare : List V → List Json
  | [] => []
  | .lit s :: l => .str s :: bare l
  | v :: l => scrub v :: bare l
end

/-! ### Parse actions -/

/-- The names of the operators in the JSON (keywords.py 78-157, utils.py 243-288). -/
def jname : JOp → String
  | .collate => "collate" | .concat => "concat" | .mul => "mul" | .div => "div" | .mod => "mod"
  | .add => "add" | .sub => "sub" | .band => "binary_and" | .bor => "binary_or"
  | .gte => "gte" | .lte => "lte" | .lt => "lt" | .gt => "gt" | .eq => "eq" | .neq => "neq"
  | .eqBang => "eq!" | .neBang => "ne!" | .atz => "at_time_zone" | .isin => "in" | .nin => "nin"
  | .like => "like" | .notLike => "not_like" | .rlike => "rlike" | .notRlike => "not_rlike"
  | .similar => "similar_to" | .notSimilar => "not_similar_to"
  | .and => "and" | .or => "or" | .lambda => "lambda"

def preName : Pre → String
  | .neg => "neg" | .bnot => "binary_not" | .knot => "not"

/-- utils.py 195-202: the parentheses around an operand are taken off. -/
def unparen : V → V
  | .paren v => unparen v
  | v => v

/-- utils.py 204-211. -/
def spreadV (op : String) (v : V) : List V :=
  match unparen v with
  | .call op' args => if op' = op then args else [.call op' args]
  | w => [w]

def isNullV : V → Bool
  | .null => true
  | _ => false

/-- utils.py 158-213 for two operands. -/
def binV (o : JOp) (l r : V) : V :=
  if (o = .eq ∨ o = .eqBang) ∧ isNullV r = true then .call "missing" [l]
  else if (o = .eq ∨ o = .eqBang) ∧ isNullV l = true then .call "missing" [r]
  else if (o = .neq ∨ o = .neBang) ∧ isNullV r = true then .call "exists" [l]
  else if (o = .neq ∨ o = .neBang) ∧ isNullV l = true then .call "exists" [r]
  else if assocOp o then .call (jname o) (spreadV (jname o) l ++ spreadV (jname o) r)
  else .call (jname o) [l, r]

/-- utils.py 139-147. -/
def unV : Pre → V → V
  | .neg, .int z => .int (-z)
  | .neg, .float q => .float (-q)
  | p, v => .call (preName p) [v]

/-- The reductions of `make_tree`; the leaf with the text of the number `i` is the `i`-th operand.  `none`: an
operator in the place of an operand. -/
def treeV (vs : List V) : T → Option V
  | .atom s => match Text.parseNat s.toList with | .ok i => vs[i]? | .error _ => none
  | .bin o l r =>
    match treeV vs l, treeV vs r with
    | some a, some b => some (binV (jop o) a b)
    | _, _ => none
  | .un p e => (treeV vs e).map (unV p)
  | .btw n a b c =>
    match treeV vs a, treeV vs b, treeV vs c with
    | some x, some y, some z => some (.call (if n then "not_between" else "between") [x, y, z])
    | _, _, _ => none
  | _ => none

def isLitV : V → Bool
  | .lit _ => true
  | _ => false

def isNumV : V → Bool
  | .int _ => true
  | .float _ => true
  | _ => false

/-- utils.py `to_tuple_call` 226-240. -/
def tupleV : List V → V
  | [v] => .paren v
  | l =>
    if l.all isNumV then .tuple l
    else if l.all (fun v => isNumV v || isLitV v) then .lits l
    else .tuple l

/-! ### Expressions -/

def strOf (l : List Char) : String := String.ofList l

/-- The numbers of a run of digits. -/
def natQ (l : List Char) : ℚ := (natOf 0 l : ℚ)

/-- The number a real number spells. -/
def Num.value (n : Num) : ℚ :=
  (if n.neg then -1 else 1) * (natQ n.whole + natQ n.frac / 10 ^ n.frac.length) * (10 : ℚ) ^ n.exp

/-- real_num | int_num.  The limit of newer Pythons on the digits of `int` is left out. -/
def number (env : Env) (s : List Char) : R V :=
  match realNum s with
  | some (n, r) =>
    match env.fl n.value with
    | some q => .ok (.float q) r
    | none => .unmod
  | none =>
    match intNum s with
    | some ((neg, w, none), r) => .ok (.int (if neg then -(natOf 0 w : Int) else natOf 0 w)) r
    | some ((neg, w, some e), r) =>
      match env.fl ((if neg then -1 else 1) * natQ w * (10 : ℚ) ^ e) with
      | some q => .ok (.int (if 0 ≤ q then ⌊q⌋ else ⌈q⌉)) r
      | none => .crash
    | none => .fail

/-- Do a query's first word, or parentheses before it, follow?  At most `n` parentheses. -/
def opensQuery : Nat → List Char → Bool
  | 0, _ => false
  | n + 1, s =>
    anyKw ["select", "with", "values"] s ||
      match lit "(" s with
      | some r => opensQuery n r
      | none => false

/-- The words that begin a construct of `compound` that is left out. -/
def headWords : List String :=
  ["true", "false", "nocase", "interval", "date", "datetime", "time", "timestamp", "timestamptz", "timetz", "extract", "case", "cast",
   "distinct", "trim", "stack", "array", "map", "struct"]

/-- utils.py 306: `binary_ops.get(op, op)` for names. -/
def callOp (op : String) : String :=
  if op = "is" then "eq" else if op = "is_not" then "neq" else if op = "is_distinct_from" then "eq!"
  else if op = "is_not_distinct_from" then "ne!" else if op = "not_simlilar_to" then "not_similar_to" else op

/-- `delimited_list`: the members after the first; at most `n`. -/
def moreOf {α : Type} (p : List Char → R α) : Nat → List Char → R (List α)
  | 0, s => .ok [] s
  | n + 1, s =>
    match lit "," s with
    | none => .ok [] s
    | some r =>
      match p r with
      | .ok a r1 =>
        match moreOf p n r1 with
        | .ok l r2 => .ok (a :: l) r2
        | x => x
      | .fail => .ok [] s
      | .crash => .crash
      | .unmod => .unmod

/-- `delimited_list(p)`. -/
def listOf {α : Type} (p : List Char → R α) (s : List Char) : R (List α) :=
  match p s with
  | .ok a r =>
    match moreOf p r.length r with
    | .ok l r1 => .ok (a :: l) r1
    | x => x
  | .fail => .fail
  | .crash => .crash
  | .unmod => .unmod

section
variable (env : Env) (ex : List Char → R V)

/-- A string literal, at this very position: `literal_eval` may raise. -/
def strAt (q : Char) (r : List Char) : R V :=
  match Format.rawStr q r with
  | none => .fail
  | some _ =>
    match Format.toString' env.long q r with
    | some (v, rest) => .ok (.lit (strOf v)) rest
    | none => .crash

/-- `call_function` after its name and the parenthesis; `none` when it is not a call. -/
def callArgs (f : List Char) (r : List Char) : R V :=
  if f.all (fun c => decide (c.toNat < 128)) then
    match lit ")" r with
    | some r1 => .ok (.call (callOp (strOf (f.map Char.toLower))) []) r1
    | none =>
      if opensQuery r.length r then .unmod
      else
        match listOf ex r with
        | .ok args r1 =>
          if anyKw ["respect", "ignore"] r1 then .unmod
          else
            match lit ")" r1 with
            | some r2 => .ok (.call (callOp (strOf (f.map Char.toLower))) args) r2
            | none => .fail
        | .fail => if anyKw ["respect", "ignore"] r then .unmod else .fail
        | x => match x with | .crash => .crash | _ => .unmod
  else .unmod

/-- `Combine(var_name + Optional(".*"))`. -/
def nameAtom (s : List Char) : R V :=
  match varName s with
  | .ok n r =>
    match litAt ['.', '*'] r with
    | some r1 => .ok (.name (strOf (n ++ ['.', '*']))) r1
    | none => if (litAt ['.', '*'] (skipWhite r)).isSome then .unmod else .ok (.name (strOf n)) r
  | .fail => .fail
  | .crash => .crash
  | .unmod => .unmod

/-- `call_function | var_name`. -/
def nameOrCall (s : List Char) : R V :=
  match identAt (skip s) with
  | .ok f r =>
    match lit "(" r with
    | some r1 =>
      match callArgs ex f r1 with
      | .fail => nameAtom s
      | x => x
    | none => nameAtom s
  | .fail => .fail
  | .crash => .crash
  | .unmod => .unmod

/-- hex_num | scale_function | scale_ident | real_num | int_num. -/
def numberAtom (s : List Char) : R V :=
  match hexNum s with
  | some (h, r) => .ok (.hex (strOf h)) r
  | none =>
    match number env s with
    | .ok v r =>
      match identAt r with
      | .ok f r1 => if (lit "(" r1).isSome then .unmod else .ok (.call "mul" [v, .name (strOf f)]) r1
      | .unmod => .unmod
      | _ => .ok v r
    | x => x

/-- sql_parser.py 250-277. -/
def atom (s : List Char) : R V :=
  match kw "null" s with
  | some r => .ok .null r
  | none =>
    if anyKw headWords s then .unmod
    else
      match skip s with
      | [] => .fail
      | c :: r =>
        if c = '[' then .unmod
        else if c = '(' then
          if opensQuery r.length r then .unmod
          else
            match listOf ex r with
            | .ok l r1 =>
              match lit ")" r1 with
              | some r2 => .ok (tupleV l) r2
              | none => .fail
            | .fail => .fail
            | .crash => .crash
            | .unmod => .unmod
        else if c = '\'' ∨ c = '"' then strAt env c r
        else if c.isDigit = true ∨ c = '.' ∨ c = '+' ∨ c = '-' then numberAtom env (c :: r)
        else nameOrCall ex s

/-- The prefix operators `-`, `~`, `NOT` (at most `n`). -/
def prefixes : Nat → List Char → List Pre × List Char
  | 0, s => ([], s)
  | n + 1, s =>
    match lit "-" s with
    | some r => (.neg :: (prefixes n r).1, (prefixes n r).2)
    | none =>
      match lit "~" s with
      | some r => (.bnot :: (prefixes n r).1, (prefixes n r).2)
      | none =>
        match kw "not" s with
        | some r => (.knot :: (prefixes n r).1, (prefixes n r).2)
        | none => ([], s)

/-- Does a suffix operator (323-342 and `::`) follow? -/
def suffixNext (s : List Char) : Bool :=
  (lit "[" s).isSome || (lit "." s).isSome || (lit "::" s).isSome || anyKw ["over", "within", "filter"] s

/-- An operator in a flat run. -/
inductive OpTok where
  | bin (o : Bop)
  | btw (neg : Bool)
  | left
  deriving DecidableEq, Repr

/-- All infix operators: how they are spelled.  `left`: left out of the model. -/
def symbolOps : List (String × OpTok) :=
  [("<=>", .bin .deq), ("||", .bin .concat), (">=", .bin .gte), ("<=", .bin .lte), ("==", .bin .eq), ("!=", .bin .neq), ("<>", .bin .neq),
   ("->", .left), ("*", .bin .mul), ("/", .bin .div), ("%", .bin .mod), ("+", .bin .add), ("-", .bin .sub), ("&", .bin .band),
   ("|", .bin .bor), ("<", .bin .lt), (">", .bin .gt), ("=", .bin .eq)]

def wordOps : List (List String × OpTok) :=
  [(["is", "not", "distinct", "from"], .bin .indf), (["is", "distinct", "from"], .bin .idf), (["not", "similar", "to"], .left),
   (["at", "time", "zone"], .left), (["is", "not"], .bin .isNot), (["is"], .bin .is), (["not", "between"], .btw true),
   (["between"], .btw false), (["not", "in"], .bin .nin), (["in"], .bin .isin), (["not", "like"], .bin .notLike), (["like"], .bin .like),
   (["not", "rlike"], .bin .notRlike), (["rlike"], .bin .rlike), (["similar", "to"], .left), (["and"], .bin .and), (["or"], .bin .or),
   (["collate"], .bin .collate)]

/-- The longest operator (`Or`): longer spellings come first in the lists. -/
def opNext (s : List Char) : Option (OpTok × List Char) :=
  match symbolOps.findSome? fun p => (lit p.1 s).map fun r => (p.2, r) with
  | some x => some x
  | none => wordOps.findSome? fun p => (kws p.1 s).map fun r => (p.2, r)

/-- A member of a flat run. -/
inductive F where
  | pre (p : Pre)
  | bin (o : Bop)
  | btw (neg : Bool)
  | val (v : V)

/-- `ZeroOrMore(prefix_ops) + atom + ZeroOrMore(suffix_ops)`. -/
def modified (s : List Char) : R (List F) :=
  match atom env ex (prefixes s.length s).2 with
  | .ok v r => if suffixNext r then .unmod else .ok ((prefixes s.length s).1.map .pre ++ [.val v]) r
  | .fail => .fail
  | .crash => .crash
  | .unmod => .unmod

/-- `ZeroOrMore(ops + modified)`, at most `n`. -/
def runTail : Nat → List Char → R (List F)
  | 0, s => .ok [] s
  | n + 1, s =>
    match opNext s with
    | none => .ok [] s
    | some (o, r) =>
      match modified env ex r with
      | .fail => .ok [] s
      | .crash => .crash
      | .unmod => .unmod
      | .ok m r1 =>
        match runTail n r1 with
        | .ok l r2 =>
          match o with
          | .bin b => .ok (.bin b :: (m ++ l)) r2
          | .btw b => .ok (.btw b :: (m ++ l)) r2
          | .left => .unmod
        | x => x

/-- infix.py 368-372, the flat run. -/
def run (s : List Char) : R (List F) :=
  match modified env ex s with
  | .ok m r =>
    match runTail env ex r.length r with
    | .ok l r1 => .ok (m ++ l) r1
    | x => x
  | x => x

end

/-- The operands of a run. -/
def runVals : List F → List V
  | [] => []
  | .val v :: l => v :: runVals l
  | _ :: l => runVals l

/-- The run as `make_tree` sees it; the operands are numbered from `i`. -/
def runItems : Nat → List F → List Item
  | _, [] => []
  | i, .val _ :: l => .val (.atom (strOf (Text.natStr i))) :: runItems (i + 1) l
  | i, .pre p :: l => .pre p :: runItems i l
  | i, .bin o :: l => .bin o :: runItems i l
  | i, .btw n :: l => .btw n :: runItems i l

/-- `make_tree` with its parse actions. -/
def runV (l : List F) : Option V := (makeTree (runItems 0 l)).bind (treeV (runVals l))

/-- sql_parser.py 317-354; the number bounds the nesting. -/
def expr (env : Env) : Nat → List Char → R V
  | 0, _ => .unmod
  | n + 1, s =>
    match lit "*" s with
    | some r => .ok (.name "*") r
    | none =>
      match run env (expr env n) s with
      | .ok l r =>
        match runV l with
        | some v => .ok v r
        | none => .unmod
      | .fail => .fail
      | .crash => .crash
      | .unmod => .unmod

/-! ### Statements -/

section
variable (ex : List Char → R V)

/-- `Optional(assign("where", expr))`: a WHERE that cannot be parsed is left for the end of the text. -/
def whereOpt (s : List Char) : R (Option V) :=
  match kw "where" s with
  | none => .ok none s
  | some r =>
    match ex r with
    | .ok v r1 => .ok (some v) r1
    | .fail => .ok none s
    | .crash => .crash
    | .unmod => .unmod

/-- The WHERE entry of a dict. -/
def whereJson : Option V → List (String × Json)
  | none => []
  | some v => [("where", scrub v)]

/-- sql_parser.py 623-628. -/
def deleteStmt (s : List Char) : R Json :=
  match kw "delete" s with
  | none => .fail
  | some r =>
    match kw "from" r with
    | none => .fail
    | some r1 =>
      match varName r1 with
      | .ok t r2 =>
        match whereOpt ex r2 with
        | .ok w r3 => .ok (.dict (whereJson w ++ [("delete", .str (strOf t))])) r3
        | .fail => .fail
        | .crash => .crash
        | .unmod => .unmod
      | .fail => .fail
      | .crash => .crash
      | .unmod => .unmod

/-- `Group(var_name + EQ + expr)`. -/
def assignment (s : List Char) : R (String × V) :=
  match varName s with
  | .ok n r =>
    match lit "=" r with
    | none => .fail
    | some r1 =>
      match ex r1 with
      | .ok v r2 => .ok (strOf n, v) r2
      | .fail => .fail
      | .crash => .crash
      | .unmod => .unmod
  | .fail => .fail
  | .crash => .crash
  | .unmod => .unmod

/-- results.py `add` 381-391: the values of one name are collected in a list. -/
def addTo (k : String) (v : V) : List (String × List V) → List (String × List V)
  | [] => [(k, [v])]
  | e :: l => if e.1 = k then (k, e.2 ++ [v]) :: l else e :: addTo k v l

/-- enhancement.py 831-846 and results.py `items` 195-205. -/
def setDict : List (String × List V) → List (String × V) → List (String × List V)
  | d, [] => d
  | d, (k, v) :: l => setDict (addTo k v d) l

def setJson (l : List (String × V)) : Json := .dict ((setDict [] l).map fun e => (e.1, listJson (scrubs e.2)))

/-- sql_parser.py 616-621. -/
def updateStmt (s : List Char) : R Json :=
  match kw "update" s with
  | none => .fail
  | some r =>
    match varName r with
    | .ok t r1 =>
      match kw "set" r1 with
      | none => .fail
      | some r2 =>
        match listOf (assignment ex) r2 with
        | .ok l r3 =>
          match whereOpt ex r3 with
          | .ok w r4 => .ok (.dict (("set", setJson l) :: (whereJson w ++ [("update", .str (strOf t))]))) r4
          | .fail => .fail
          | .crash => .crash
          | .unmod => .unmod
        | .fail => .fail
        | .crash => .crash
        | .unmod => .unmod
    | .fail => .fail
    | .crash => .crash
    | .unmod => .unmod

/-- sql_parser.py 393: `LB + delimited_list(Group(expr)) + RB`. -/
def rowOf (s : List Char) : R (List V) :=
  match lit "(" s with
  | none => .fail
  | some r =>
    match listOf ex r with
    | .ok l r1 =>
      match lit ")" r1 with
      | some r2 => .ok l r2
      | none => .fail
    | .fail => .fail
    | .crash => .crash
    | .unmod => .unmod

end

/-- utils.py `to_row` 422-427. -/
def rowJson : List V → Json
  | [v] => .dict [("select", .dict [("value", scrub v)])]
  | l => .dict [("select", .list (l.map fun v => .dict [("value", scrub v)]))]

/-- What `get_literal` 430-438 makes of a value of a row with several values. -/
inductive Lit? where
  | val (j : Json)
  | none
  | crash

/-- `"literal" in value` is a substring test when the value is a name, and indexing the name then raises. -/
def getLiteral : V → Lit?
  | .int z => .val (.int z)
  | .float q => .val (.float q)
  | .lit s => .val (.str s)
  | .name s => if Clause.isSub "literal".toList s.toList then .crash else .none
  | _ => .none

/-- The members of a row; the value of a row with one member is a `Group`, which has no literal. -/
def rowLits : List V → List Lit?
  | [_] => [.none]
  | l => l.map getLiteral

/-- `bool(v)`. -/
def litTrue : Lit? → Bool
  | .val (.int z) => z != 0
  | .val (.float q) => q != 0
  | .val (.str s) => s != ""
  | _ => false

def litJson : Lit? → Json
  | .val j => j
  | _ => .null

/-- utils.py `to_values` 441-451 and `to_insert_call` 528-548: the entries of the INSERT besides the table. -/
def insertEntries (cols : List String) (rows : List (List V)) : R (List (String × Json)) :=
  let colJson := if cols = [] then [] else [("columns", listJson (cols.map Json.str))]
  match rows with
  | [row] => .ok (colJson ++ [("query", rowJson row)]) []
  | rows =>
    if rows.any (fun r => (rowLits r).any fun l => match l with | .crash => true | _ => false) then .crash
    else if rows.all fun r => (rowLits r).all litTrue then
      if cols = [] then .ok [("values", .list (rows.map fun r => listJson ((rowLits r).map litJson)))] []
      else .ok [("values", .list (rows.map fun r => .dict (cols.zip ((rowLits r).map litJson))))] []
    else .ok (colJson ++ [("query", .dict [("union_all", .list (rows.map rowJson))])]) []

/-- The columns of an INSERT. -/
def columnsOpt (s : List Char) : R (List String) :=
  match lit "(" s with
  | none => .ok [] s
  | some r =>
    match listOf varName r with
    | .ok l r1 =>
      match lit ")" r1 with
      | some r2 => .ok (l.map strOf) r2
      | none => .ok [] s
    | .fail => .ok [] s
    | .crash => .crash
    | .unmod => .unmod

/-- sql_parser.py 604-614. -/
def insertStmt (ex : List Char → R V) (s : List Char) : R Json :=
  match kw "insert" s with
  | none => .fail
  | some r =>
    match kw "into" r with
    | none => if anyKw ["overwrite"] r then .unmod else .fail
    | some r1 =>
      match varName ((kw "table" r1).getD r1) with
      | .ok t r2 =>
        match columnsOpt r2 with
        | .ok cols r3 =>
          if anyKw ["if"] r3 || opensQuery r3.length r3 && !anyKw ["values"] r3 then .unmod
          else
            match kw "values" r3 with
            | none => .fail
            | some r4 =>
              match listOf (rowOf ex) r4 with
              | .ok rows r5 =>
                match insertEntries cols rows with
                | .ok es _ => .ok (.dict (es ++ [("insert", .str (strOf t))])) r5
                | .crash => .crash
                | .fail => .fail
                | .unmod => .unmod
              | .fail => .fail
              | .crash => .crash
              | .unmod => .unmod
        | .fail => .fail
        | .crash => .crash
        | .unmod => .unmod
      | .fail => .fail
      | .crash => .crash
      | .unmod => .unmod

/-- sql_parser.py 159-172 and utils.py `to_alias`. -/
def aliasOpt (s : List Char) : R (Option String) :=
  match varName ((kw "as" s).getD s) with
  | .ok n r => if (lit "(" r).isSome || anyKw ["as"] r then .unmod else .ok (some (strOf n)) r
  | .fail => .ok none s
  | .crash => .crash
  | .unmod => .unmod

def nameJson : Option String → List (String × Json)
  | none => []
  | some n => [("name", .str n)]

/-- utils.py `to_select_call` 485-494: anything that spells `*` is `*`; a parenthesised call of a function named
`value` is taken for a window. -/
def columnJson (v : V) (n : Option String) : Option Json :=
  match v with
  | .name s => if s = "*" then some (.str "*") else some (.dict (("value", .str s) :: nameJson n))
  | .paren w => match unparen w with | .call "value" _ => none | _ => some (.dict (("value", scrub v) :: nameJson n))
  | v => some (.dict (("value", scrub v) :: nameJson n))

/-- sql_parser.py 356-361. -/
def selectColumn (ex : List Char → R V) (s : List Char) : R Json :=
  match ex s with
  | .ok v r =>
    match aliasOpt r with
    | .ok n r1 =>
      match columnJson v n with
      | some j => .ok j r1
      | none => .unmod
    | .fail => .fail
    | .crash => .crash
    | .unmod => .unmod
  | .fail => .fail
  | .crash => .crash
  | .unmod => .unmod

/-- sql_parser.py 441-446, for a name, and utils.py `to_table`. -/
def tableSource (s : List Char) : R Json :=
  if anyKw ["stack"] s || (lit "(" s).isSome then .unmod
  else
    match varName s with
    | .ok t r =>
      if (lit "(" r).isSome || anyKw ["with", "tablesample"] r then .unmod
      else
        match aliasOpt r with
        | .ok none r1 => .ok (.str (strOf t)) r1
        | .ok (some n) r1 => .ok (.dict [("value", .str (strOf t)), ("name", .str n)]) r1
        | .fail => .fail
        | .crash => .crash
        | .unmod => .unmod
    | .fail => .fail
    | .crash => .crash
    | .unmod => .unmod

/-- The words that continue a query beyond this model. -/
def queryWords : List String :=
  ["group", "having", "union", "intersect", "except", "minus", "order", "offset", "fetch", "limit"]

/-- The words that begin a join. -/
def joinWords : List String := ["cross", "outer", "inner", "full", "left", "right", "join", "lateral", "window"]

/-- sql_parser.py 375-406. -/
def selectStmt (ex : List Char → R V) (s : List Char) : R Json :=
  match kw "select" s with
  | none => .fail
  | some r =>
    if anyKw ["distinct", "top"] r then .unmod
    else
      match listOf (selectColumn ex) r with
      | .ok cols r1 =>
        match kw "from" r1 with
        | none => if anyKw queryWords r1 then .unmod else .ok (.dict [("select", listJson cols)]) r1
        | some r2 =>
          match listOf tableSource r2 with
          | .ok ts r3 =>
            if anyKw joinWords r3 then .unmod
            else
              match whereOpt ex r3 with
              | .ok w r4 =>
                if anyKw queryWords r4 then .unmod
                else .ok (.dict (("select", listJson cols) :: ("from", listJson ts) :: whereJson w)) r4
              | .fail => .fail
              | .crash => .crash
              | .unmod => .unmod
          | .fail => if anyKw queryWords r1 then .unmod else .ok (.dict [("select", listJson cols)]) r1
          | .crash => .crash
          | .unmod => .unmod
      | .fail => .fail
      | .crash => .crash
      | .unmod => .unmod

/-- `str.rstrip`; `\s` is a parameter. -/
def rstrip (p : Char → Bool) (s : List Char) : List Char := (s.reverse.dropWhile p).reverse

/-- The statements that are left out. -/
def otherWords : List String := ["with", "values", "create", "cache", "drop"]

/-- sql_parser.py 630-635: the leading word decides. -/
def statement (env : Env) (s : List Char) : R Json :=
  if anyKw otherWords s || (lit "(" s).isSome then .unmod
  else if anyKw ["select"] s then selectStmt (expr env (s.length + 1)) s
  else if anyKw ["insert"] s then insertStmt (expr env (s.length + 1)) s
  else if anyKw ["update"] s then updateStmt (expr env (s.length + 1)) s
  else deleteStmt (expr env (s.length + 1)) s

/-- `StringEnd`: core.py 148-156. -/
def atEnd (s : List Char) : Bool := skip s = []

/-- What `parse_mysql` makes of a text. -/
inductive Parsed where
  | json (j : Json)
  | rejected
  | crashed
  | unmodelled

/-- sql_parsing/__init__.py `_parse` 75-83; `space` is `str.isspace`. -/
def parse (env : Env) (space : Char → Bool) (sql : List Char) : Parsed :=
  match statement env (rstrip (· == ';') (rstrip space sql)) with
  | .ok j r => if atEnd r then .json j else .rejected
  | .fail => .rejected
  | .crash => .crashed
  | .unmod => .unmodelled

end EulerDB.Sql
