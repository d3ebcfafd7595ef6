/-
Model of how ALTER TABLE … key statements are recognised.

Code: /repo/sql_parsing/__init__.py `parse_alter_key` 92-198; /repo/scheduler/handers/rewrite_hander.py 27-28
(a statement that is not recognised goes to the SQL parser).

The eight regular expressions of the code are sequences of a few pieces (`Pat`); `run` matches
them as Python's `re.match` does: from the beginning of the text, repetitions as long as possible
first, backtracking otherwise.

Simplifications:
  * `\w` is an ASCII letter, digit or underscore, or a character beyond ASCII for which the
    parameter `uni` is true;
  * `True` is the number 1, as in `Clause.formatAlter`.
-/
import Verif.Clause.Rewriter

namespace EulerDB.Alter

open EulerDB EulerDB.Clause

/-- `[ \t\n\r]`. -/
def isWs (c : Char) : Bool := c == ' ' || c == '\t' || c == '\n' || c == '\r'

/-- `\w`. -/
def isWord (uni : Char → Bool) (c : Char) : Bool := c.isAlphanum || c == '_' || (decide (128 ≤ c.toNat) && uni c)

/-- The pieces of the regular expressions: blanks `[ \t\n\r]*`, a keyword such as `[aA][dD][dD]`, a captured `(\w*)`, the table
``(`|\b)(\w*)\1`` (its name is captured), one character, and the end `;?$`. -/
inductive Pat where
  | ws
  | kw (w : List Char)
  | name
  | table
  | ch (c : Char)
  | fin
  deriving DecidableEq, Repr

section
variable (uni : Char → Bool) {α : Type}

/-- `p*` followed by the rest `k` of the expression, which gets what was matched and the character before: the longest match is tried first. -/
def star (p : Char → Bool) (k : List Char → Option Char → List Char → Option α) : List Char → Option Char → List Char → Option α
  | acc, prev, [] => k acc prev []
  | acc, prev, c :: t =>
    if p c then
      match star p k (acc ++ [c]) (some c) t with
      | some r => some r
      | none => k acc prev (c :: t)
    else k acc prev (c :: t)

/-- A keyword, in any case. -/
def word (k : Option Char → List Char → Option α) : List Char → Option Char → List Char → Option α
  | [], prev, s => k prev s
  | _ :: _, _, [] => none
  | w :: ws, _, c :: t => if c.toLower = w then word k ws (some c) t else none

/-- `\b`. -/
def boundary (prev : Option Char) (s : List Char) : Bool :=
  (match prev with | none => false | some c => isWord uni c) != (match s with | [] => false | c :: _ => isWord uni c)

/-- `;?$`: `$` matches at the end and before a newline at the end. -/
def atEnd (s : List Char) : Bool := s == [] || s == ['\n'] || s == [';'] || s == [';', '\n']

/-- The closing quote `\1` of a quoted table name `a`, and the rest `k`. -/
def closing (k : Option Char → List Char → Option (List (List Char))) (a : List Char) (_ : Option Char) : List Char → Option (List (List Char))
  | [] => none
  | d :: u => if d = '`' then (k (some d) u).map (a :: ·) else none

/-- One piece, and the rest `k` of the expression; the captured texts in order. -/
def step (k : Option Char → List Char → Option (List (List Char))) : Pat → Option Char → List Char → Option (List (List Char))
  | .ws, prev, s => star isWs (fun _ => k) [] prev s
  | .kw w, prev, s => word k w prev s
  | .name, prev, s => star (isWord uni) (fun a p r => (k p r).map (a :: ·)) [] prev s
  | .table, prev, s =>
    let quoted : Option (List (List Char)) :=
      match s with
      | [] => none
      | c :: t =>
        if c = '`' then
          star (isWord uni) (closing k) [] (some c) t
        else none
    match quoted with
    | some r => some r
    | none => if boundary uni prev s then star (isWord uni) (fun a p r => (k p r).map (a :: ·)) [] prev s else none
  | .ch c, _, s =>
    match s with
    | [] => none
    | d :: t => if d = c then k (some d) t else none
  | .fin, prev, s => if atEnd s then k prev s else none

/-- `re.match`: the captured texts, or nothing. -/
def run : List Pat → Option Char → List Char → Option (List (List Char))
  | [], _, _ => some []
  | p :: ps, prev, s => step uni (run ps) p prev s

end

/-- The beginning of every expression. -/
def head : List Pat := [.ws, .kw "alter".toList, .ws, .kw "table".toList, .ws, .table, .ws]

/-- `\([ \t\n\r]*(\w*)[ \t\n\r]*\)[ \t\n\r]*`. -/
def column : List Pat := [.ch '(', .ws, .name, .ws, .ch ')', .ws]

/-- 93-100. -/
def addPrimary : List Pat := head ++ [.kw "add".toList, .ws, .kw "primary".toList, .ws, .kw "key".toList, .ws] ++ column ++ [.fin]
/-- 105-111. -/
def dropPrimary : List Pat := head ++ [.kw "drop".toList, .ws, .kw "primary".toList, .ws, .kw "key".toList, .ws, .fin]
/-- 115-127. -/
def addForeign : List Pat :=
  head ++ [.kw "add".toList, .ws, .kw "constraint".toList, .ws, .name, .ws, .kw "foreign".toList, .ws, .kw "key".toList, .ws] ++ column ++
    [.kw "references".toList, .ws, .name, .ws] ++ column ++ [.fin]
/-- 134-141. -/
def dropForeign : List Pat := head ++ [.kw "drop".toList, .ws, .kw "foreign".toList, .ws, .kw "key".toList, .ws, .name, .ws, .fin]
/-- 145-152. -/
def addIndex : List Pat := head ++ [.kw "add".toList, .ws, .kw "index".toList, .ws, .name, .ws] ++ column ++ [.fin]
/-- 159-166. -/
def addFulltext : List Pat := head ++ [.kw "add".toList, .ws, .kw "fulltext".toList, .ws, .name, .ws] ++ column ++ [.fin]
/-- 173-180. -/
def addUnique : List Pat := head ++ [.kw "add".toList, .ws, .kw "unique".toList, .ws, .name, .ws] ++ column ++ [.fin]
/-- 187-193. -/
def dropIndex : List Pat := head ++ [.kw "drop".toList, .ws, .kw "index".toList, .ws, .name, .ws, .fin]

def str (s : List Char) : Json := .str (String.ofList s)

/-- `[{'value': i} for i in s.split(',')]`. -/
def values (s : List Char) : Json := .list ((Text.split ',' s).map fun i => .dict [("value", str i)])

/-- `parse_alter_key` 92-198: the expressions in the order of the code; the empty dict if none matches. -/
def parseAlter (uni : Char → Bool) (sql : List Char) : Dict String Json :=
  match run uni addPrimary none sql with
  | some [t, c] => [("alter", str t), ("add primary key", values c)]
  | _ =>
  match run uni dropPrimary none sql with
  | some [t] => [("alter", str t), ("drop primary key", .int 1)]
  | _ =>
  match run uni addForeign none sql with
  | some [t, n, c, u, d] =>
    [("alter", str t), ("add constraint", str n), ("add foreign key", values c), ("reference_table", str u), ("reference_feature", values d)]
  | _ =>
  match run uni dropForeign none sql with
  | some [t, n] => [("alter", str t), ("drop foreign key", str n)]
  | _ =>
  match run uni addIndex none sql with
  | some [t, n, c] => [("alter", str t), ("add index", str n), ("add index feature", values c)]
  | _ =>
  match run uni addFulltext none sql with
  | some [t, n, c] => [("alter", str t), ("add fulltext", str n), ("add fulltext feature", values c)]
  | _ =>
  match run uni addUnique none sql with
  | some [t, n, c] => [("alter", str t), ("add unique", str n), ("add unique feature", values c)]
  | _ =>
  match run uni dropIndex none sql with
  | some [t, n] => [("alter", str t), ("drop index", str n)]
  | _ => []

end EulerDB.Alter
