/-
C85: statements for which the hypotheses hold, and what goes wrong on characters.
-/
import Verif.Values.Dict

namespace EulerDB.Values

open EulerDB.Lex EulerDB.Group EulerDB.Rules

/-- What the tables of keywords.py 101-958 say of the words below. -/
def words (v : List Char) : TType :=
  if ["SELECT", "INSERT"].contains (upper v) then ["Keyword", "DML"]
  else if ["INTO", "LIMIT", "OFFSET", "WHERE", "NULL", "VALUES"].contains (upper v) then Keyword
  else if ["DATE"].contains (upper v) then Builtin
  else Name

def kwInsert : Token := ⟨["Keyword", "DML"], "INSERT".toList⟩
def kwSelect : Token := ⟨["Keyword", "DML"], "SELECT".toList⟩
def kwInto : Token := ⟨Keyword, "into".toList⟩
def kwValues : Token := ⟨Keyword, "Values".toList⟩
def kwFrom : Token := ⟨Keyword, "FROM".toList⟩
def kwLimit : Token := ⟨Keyword, "LIMIT".toList⟩
def blank : Token := ⟨Whitespace, [' ']⟩
def nameTok (s : String) : Token := ⟨Name, s.toList⟩

theorem nameTok_ok {s : String} (h1 : '`' ∉ s.toList) (h2 : '"' ∉ s.toList) (h3 : s.toList ≠ ['(']) (h4 : s.toList ≠ [')']) (h5 : s.toList ≠ ['.']) :
    Named (nameTok s) s.toList :=
  ⟨rfl, unquote_none h1 h2, h1, by simp [parenTok, nameTok, h3, h4], by simp [isDot, nameTok, h5]⟩

/-- `INSERT into t (a,b) Values (-1,'x'), (2,'y')` -/
def twoRows : List Token :=
  [kwInsert, blank, kwInto, blank, nameTok "t", blank, lpar, nameTok "a", comma, nameTok "b", rpar, blank, kwValues, blank,
   lpar, ⟨Integer, Text.intStr (-1)⟩, comma, quoted ['x'], rpar, comma, blank, lpar, ⟨Integer, Text.intStr 2⟩, comma, quoted ['y'], rpar]

example : values twoRows = .ok [.int (-1), .text ['x'], .int 2, .text ['y']] :=
  C85_values_partial (pre := [kwInsert, kwInto, nameTok "t", lpar, nameTok "a", comma, nameTok "b", rpar]) (kv := kwValues)
    (rows := [[⟨Integer, Text.intStr (-1)⟩, quoted ['x']], [⟨Integer, Text.intStr 2⟩, quoted ['y']]]) (post := [])
    (vals := [[.int (-1), .text ['x']], [.int 2, .text ['y']]])
    ⟨by decide, by decide, ⟨_, _, "INSERT", rfl, ⟨by decide, by decide, by decide, by decide⟩, by decide⟩, by decide, by decide,
      ⟨by decide, by decide, by decide, by decide⟩,
      .cons (.cons (C85_number _) (.cons (C85_literal ['x']) .nil)) (.cons (.cons (C85_number _) (.cons (C85_literal ['y']) .nil)) .nil),
      by simp, by decide⟩

/-- The same cells in one row. -/
def oneRow : List Token :=
  [kwInsert, blank, kwInto, blank, nameTok "t", blank, kwValues, blank,
   lpar, ⟨Integer, Text.intStr (-1)⟩, comma, quoted ['x'], comma, ⟨Integer, Text.intStr 2⟩, comma, quoted ['y'], rpar]

example : values oneRow = values twoRows :=
  C85_fails_rows (pre := [kwInsert, kwInto, nameTok "t"]) (kv := kwValues)
    (rows := [[⟨Integer, Text.intStr (-1)⟩, quoted ['x'], ⟨Integer, Text.intStr 2⟩, quoted ['y']]]) (post := [])
    (vals := [[.int (-1), .text ['x'], .int 2, .text ['y']]])
    (pre' := [kwInsert, kwInto, nameTok "t", lpar, nameTok "a", comma, nameTok "b", rpar]) (kv' := kwValues)
    (rows' := [[⟨Integer, Text.intStr (-1)⟩, quoted ['x']], [⟨Integer, Text.intStr 2⟩, quoted ['y']]]) (post' := [])
    (vals' := [[.int (-1), .text ['x']], [.int 2, .text ['y']]])
    ⟨by decide, by decide, ⟨_, _, "INSERT", rfl, ⟨by decide, by decide, by decide, by decide⟩, by decide⟩, by decide, by decide,
      ⟨by decide, by decide, by decide, by decide⟩,
      .cons (.cons (C85_number _) (.cons (C85_literal ['x']) (.cons (C85_number _) (.cons (C85_literal ['y']) .nil)))) .nil,
      by simp, by decide⟩
    ⟨by decide, by decide, ⟨_, _, "INSERT", rfl, ⟨by decide, by decide, by decide, by decide⟩, by decide⟩, by decide, by decide,
      ⟨by decide, by decide, by decide, by decide⟩,
      .cons (.cons (C85_number _) (.cons (C85_literal ['x']) .nil)) (.cons (.cons (C85_number _) (.cons (C85_literal ['y']) .nil)) .nil),
      by simp, by decide⟩ rfl

/-- `INSERT into t (a,b) Values (-1,'x');` -/
example : valuesDict [kwInsert, blank, kwInto, blank, nameTok "t", lpar, nameTok "a", comma, nameTok "b", rpar, kwValues,
      lpar, ⟨Integer, Text.intStr (-1)⟩, comma, quoted ['x'], rpar, semicolon] =
    .ok (some [(['a'], .int (-1)), (['b'], .text ['x'])]) :=
  C85_dict_partial (ki := kwInsert) (kn := kwInto) (kt := nameTok "t") (cols := [nameTok "a", nameTok "b"]) (kv := kwValues)
    (row := [⟨Integer, Text.intStr (-1)⟩, quoted ['x']]) (post := [semicolon]) (names := [['a'], ['b']]) (vals := [.int (-1), .text ['x']])
    ⟨by decide, by decide, ⟨"INSERT", ⟨by decide, by decide, by decide, by decide⟩, .inl rfl⟩, ⟨by decide, by decide, by decide, by decide⟩,
      ⟨['t'], nameTok_ok (by decide) (by decide) (by decide) (by decide) (by decide)⟩,
      .cons (nameTok_ok (by decide) (by decide) (by decide) (by decide) (by decide))
        (.cons (nameTok_ok (by decide) (by decide) (by decide) (by decide) (by decide)) .nil),
      ⟨by decide, by decide, by decide, by decide⟩, .cons (C85_number _) (.cons (C85_literal ['x']) .nil), by decide, by decide, by decide, by decide⟩
    (by decide)

/-- `SELECT a FROM t LIMIT 5, 10;` -/
example : limits [kwSelect, blank, nameTok "a", blank, kwFrom, blank, nameTok "t", blank, kwLimit, blank, number 5, comma, blank, number 10, semicolon] =
    .ok (some (10, 5)) :=
  C85_limit_partial (pre := [kwSelect, nameTok "a", kwFrom, nameTok "t"]) (post := [semicolon])
    ⟨by decide, by decide, ⟨_, _, "SELECT", rfl, ⟨by decide, by decide, by decide, by decide⟩, by decide⟩, by decide, by decide, ⟨0, by decide⟩,
      by decide, by decide⟩
    (.comma (k := kwLimit) 5 10 ⟨by decide, by decide, by decide, by decide⟩) (by decide)

/-- `SELECT a,3 FROM t LIMIT 5` -/
example : ∃ o, limits [kwSelect, blank, nameTok "a", comma, ⟨Integer, Text.intStr 3⟩, blank, kwFrom, blank, nameTok "t", blank, kwLimit, blank, number 5] =
    .ok (some (3, o)) :=
  C85_fails_list (a := [kwSelect, nameTok "a"]) (b := [kwFrom, nameTok "t"]) (q := comma) (k := kwLimit) (n := 5) rfl (by decide)
    ⟨by decide, by decide, by decide, by decide⟩
    ⟨by decide, by decide, ⟨_, _, "SELECT", rfl, ⟨by decide, by decide, by decide, by decide⟩, by decide⟩, by decide, by decide, ⟨0, by decide⟩,
      by simp, by decide⟩
    (by intro t ht h; simp only [List.mem_cons, List.not_mem_nil, or_false] at ht; rcases ht with rfl | rfl <;> exact absurd h (by decide)) (by decide)

/-! ### On characters -/

/-- The numbers of `IN (1, 2)` are the limit and the offset, whatever limit the query has, and if it has none. -/
theorem C85_fails_in :
    onText limits ascii words "SELECT a FROM t WHERE a IN (1, 2) LIMIT 5" = .ok (some (2, 1)) ∧
    onText limits ascii words "SELECT f(3) FROM t" = .ok (some (3, 0)) := by
  constructor <;> decide +kernel

/-- The limit of a query inside is taken for that of the whole. -/
theorem C85_fails_inner : onText limits ascii words "SELECT a FROM (SELECT a FROM t LIMIT 3) x LIMIT 5" = .ok (some (3, 0)) := by
  decide +kernel

/-- `NULL` and the string `'NULL'` are the same. -/
theorem C85_fails_null :
    onText values ascii words "INSERT INTO t VALUES (NULL)" = .ok [.text "NULL".toList] ∧
    onText values ascii words "INSERT INTO t VALUES ('NULL')" = .ok [.text "NULL".toList] := by
  constructor <;> decide +kernel

/-- Of an expression the last token is taken for the value; a function and its argument are two values. -/
theorem C85_fails_expression :
    onText values ascii words "INSERT INTO t VALUES (1 + 2)" = .ok [.int 2] ∧
    onText values ascii words "INSERT INTO t VALUES (f(3))" = .ok [.text ['f'], .int 3] := by
  constructor <;> decide +kernel

/-- Quotes at the ends of a literal are lost, and a doubled quote stays doubled. -/
theorem C85_fails_quotes :
    onText values ascii words "INSERT INTO t VALUES ('say \"hi\"')" = .ok [.text "say \"hi".toList] ∧
    onText values ascii words "INSERT INTO t VALUES ('it''s')" = .ok [.text "it''s".toList] := by
  constructor <;> decide +kernel

/-- A column whose name is a keyword is seen between two commas only; the others take its value. -/
theorem C85_fails_keyword :
    onText valuesDict ascii words "INSERT INTO t (date, a) VALUES ('x', 5)" = .ok (some [(['a'], .text ['x'])]) ∧
    onText valuesDict ascii words "INSERT INTO t (a, date, b) VALUES (1, 'x', 5)" =
      .ok (some [(['a'], .int 1), ("date".toList, .text ['x']), (['b'], .int 5)]) := by
  constructor <;> decide +kernel

/-- Of several rows the dictionary has the first, or, without columns, all of them as one. -/
theorem C85_fails_dict_rows :
    onText valuesDict ascii words "INSERT INTO t (a) VALUES (1), (2)" = .ok (some [(['a'], .int 1)]) ∧
    onText valuesDict ascii words "INSERT INTO t VALUES (1), (2)" = .ok (some [("column_1".toList, .int 1), ("column_2".toList, .int 2)]) := by
  constructor <;> decide +kernel

end EulerDB.Values
