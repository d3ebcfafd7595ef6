/-
The rules of the lexer and the path of a statement from its characters to its type.

Code: /repo/scheduler/compile/parse/keywords.py 13-19 (`is_keyword`), 22-100 (`SQL_REGEX`);
/repo/scheduler/compile/parser.py `_preprocess_query` 934-958, `tokens` 126-181 with
`_determine_opening_parenthesis_type` 845-872, `_determine_closing_parenthesis_type` 874-895,
`_determine_last_relevant_keyword` 960-977;
/repo/scheduler/compile/token.py 22-52, 105-110, 512-542;
/repo/scheduler/compile/keywords_lists.py 9-51, 109-122.

Simplifications:
  * the type that the keyword tables give a word is a parameter (`kw`);
  * of a token of `Parser.tokens` only what its classification and the bookkeeping of
    parentheses use is kept;
  * that the loop also sets `next_token` and attributes read only by `columns`, `tables` and the like
    is left out.
-/
import Verif.Rules.Re
import Verif.Group.Flatten

namespace EulerDB.Rules

open EulerDB.Lex EulerDB.Group

/-! ### Building regular expressions -/

def all : List Re → Re
  | [] => .eps
  | [a] => a
  | a :: r => .seq a (all r)

def anyOf : List Re → Re
  | [] => .eps
  | [a] => a
  | a :: r => .alt a (anyOf r)

def plus (a : Re) : Re := .seq a (.star a)
def opt (a : Re) : Re := .alt a .eps
def one (c : Char) : Re := .chr (.one c)

def oneOf : List Char → Set1
  | [] => .not .any
  | [c] => .one c
  | c :: r => .or (.one c) (oneOf r)

/-- A word, the case of its letters ignored. -/
def word (s : String) : Re := all (s.toList.map fun c => if c.isAlpha then .chr (.lit c) else one c)

def anyChar : Re := .chr .any
/-- `.`: any character but a line feed. -/
def dot : Re := .chr (.not (.one '\n'))
def blanks : Re := plus (.chr .space)
def optBlanks : Re := .star (.chr .space)
/-- `[A-ZÀ-Ü]\w*` -/
def name : Re := .seq (.chr .letter) (.star (.chr .word))
def digits1 : Re := plus (.chr .digit)
/-- `[_A-ZÀ-Ü]` -/
def nameStart : Re := .chr (.or (.one '_') .letter)
def eol : Re := anyOf [.seq (one '\r') (one '\n'), one '\r', one '\n']

/-- `q(qq|[^q])*q` -/
def quoted (q : Char) : Re := all [one q, .star (.alt (.seq (one q) (one q)) (.chr (.not (.one q)))), one q]

/-- `q(qq|\\\\|\\q|[^q])*q` -/
def string (q : Char) : Re :=
  all [one q, .star (anyOf [.seq (one q) (one q), .seq (one '\\') (one '\\'), .seq (one '\\') (one q), .chr (.not (.one q))]), one q]

def hintSingle : TType := ["Comment", "Single", "Hint"]
def multiline : TType := ["Comment", "Multiline"]
def hintMultiline : TType := ["Comment", "Multiline", "Hint"]
def Command : TType := ["Generic", "Command"]
def Literal : TType := ["Literal"]
def Hexadecimal : TType := ["Literal", "Number", "Hexadecimal"]

/-- A rule: the expression, and the type, or none for `is_keyword`. -/
abbrev Entry := Re × Option TType

/-- keywords.py 24-36. -/
def rules1 : List Entry :=
  [(all [.alt (word "--") (word "# "), one '+', .lazy dot, .alt eol .eot], hintSingle),
   (all [word "/*+", .lazy anyChar, word "*/"], hintMultiline),
   (all [.alt (word "--") (word "# "), .lazy dot, .alt eol .eot], CommentSingle),
   (all [word "/*", .lazy anyChar, word "*/"], multiline),
   (eol, Newline),
   (.seq (.chr .space) (.lazy (.chr .space)), Whitespace),
   (word ":=", Assignment),
   (word "::", Punctuation),
   (one '*', Wildcard)]

/-- keywords.py 38-52. -/
def rules2 : List Entry :=
  [(quoted '`', Name),
   (quoted '´', Name),
   (.again (all [.nbehind (.not .space), one '$', opt (.seq nameStart (.star (.chr .word))), one '$']), Literal),
   (one '?', Placeholder),
   (all [one '%', opt (all [one '(', plus (.chr .word), one ')']), word "S"], Placeholder),
   (all [.nbehind .word, .chr (oneOf ['$', ':', '?']), plus (.chr .word)], Placeholder),
   (.seq (one '\\') (plus (.chr .word)), Command),
   (all [opt (.seq (word "NOT") blanks), word "IN", .bound], Comparison),
   (.seq (anyOf [word "CASE", word "IN", word "VALUES", word "USING", word "FROM", word "AS"]) .bound, Keyword)]

/-- keywords.py 54-68. -/
def rules3 : List Entry :=
  [(all [anyOf [one '@', word "##", one '#'], .chr .letter, plus (.chr .word)], Name),
   (.seq name (.ahead (.seq optBlanks (one '.'))), Name),
   (.seq (.behind (.one '.')) name, Name),
   (.seq name (.ahead (one '(')), Name),
   (all [opt (one '-'), one '0', word "X",
      plus (.chr (.or .digit (.or (.lit 'A') (.or (.lit 'B') (.or (.lit 'C') (.or (.lit 'D') (.or (.lit 'E') (.lit 'F')))))))) ], Hexadecimal),
   (all [opt (one '-'), digits1, opt (.seq (one '.') digits1), word "E", opt (one '-'), digits1], Group.Float),
   (all [.nahead nameStart, opt (one '-'), .alt (all [digits1, one '.', .star (.chr .digit)]) (.seq (one '.') digits1),
      .nahead nameStart], Group.Float),
   (all [.nahead nameStart, opt (one '-'), digits1, .nahead nameStart], Integer)]

/-- keywords.py 69-76. -/
def rules4 : List Entry :=
  [(string '\'', Single),
   (string '"', Symbol),
   (.alt (word "\"\"") (all [one '"', .lazy dot, .chr (.not (.one '\\')), one '"']), Symbol),
   (.seq (.nbehind (.or .word (oneOf [']', ')']))) (all [one '[', plus (.chr (.not (oneOf [']', '[']))), one ']']), Name)]

/-- keywords.py 77-90. -/
def rules5 : List Entry :=
  [(all [opt (.alt
        (.seq (opt (anyOf [.seq (word "LEFT") blanks, .seq (word "RIGHT") blanks, .seq (word "FULL") blanks]))
          (opt (anyOf [.seq (word "INNER") blanks, .seq (word "OUTER") blanks, .seq (word "STRAIGHT") blanks])))
        (opt (.alt (.seq (word "CROSS") blanks) (.seq (word "NATURAL") blanks)))), word "JOIN", .bound], Keyword),
   (all [word "END", opt (anyOf [.seq blanks (word "IF"), .seq blanks (word "LOOP"), .seq blanks (word "WHILE")]), .bound], Keyword),
   (all [word "NOT", blanks, word "NULL", .bound], Keyword),
   (all [word "NULLS", blanks, .alt (word "FIRST") (word "LAST"), .bound], Keyword),
   (all [word "UNION", blanks, word "ALL", .bound], Keyword),
   (all [word "CREATE", opt (all [blanks, word "OR", blanks, word "REPLACE"]), .bound], DDL),
   (all [word "DOUBLE", blanks, word "PRECISION", .bound], Builtin),
   (all [word "GROUP", blanks, word "BY", .bound], Keyword),
   (all [word "ORDER", blanks, word "BY", .bound], Keyword),
   (all [word "HANDLER", blanks, word "FOR", .bound], Keyword),
   (all [word "LATERAL", blanks, word "VIEW", blanks,
      anyOf [word "EXPLODE", word "INLINE", word "PARSE_URL_TUPLE", word "POSEXPLODE", word "STACK"], .bound], Keyword)]

/-- keywords.py 91: `(AT|WITH')\s+TIME\s+ZONE\s+'[^']+'`. -/
def timeZone : Re :=
  all [.alt (word "AT") (word "WITH'"), blanks, word "TIME", blanks, word "ZONE", blanks, one '\'',
    plus (.chr (.not (.one '\''))), one '\'']

/-- keywords.py 91-96. -/
def rules6 : List Entry :=
  [(timeZone, TZCast),
   (all [opt (.seq (word "NOT") blanks), anyOf [word "LIKE", word "ILIKE", word "RLIKE"], .bound], Comparison),
   (.seq (.chr (.or (oneOf "0123456789".toList) (.or (.one '_') .letter))) (.star (.chr (.or (oneOf ['_', '$', '#']) .word))), none),
   (.chr (oneOf [';', ':', '(', ')', '[', ']', ',', '.']), Punctuation),
   (plus (.chr (oneOf ['<', '>', '=', '~', '!'])), Comparison),
   (plus (.chr (oneOf ['+', '/', '@', '#', '%', '^', '&', '|', '^', '-'])), Operator)]

def entries : List Entry := rules1 ++ rules2 ++ rules3 ++ rules4 ++ rules5 ++ rules6

/-- The rules as the lexer uses them; `kw` is what the keyword tables say. -/
def rules (k : Classes) (kw : List Char → TType) : List Rule :=
  entries.map fun e => ⟨e.1.match' k, fun v => match e.2 with | some ty => ty | none => kw v⟩

/-- Every rule takes a character. -/
theorem rules_positive (k : Classes) (kw : List Char → TType) : Positive (rules k kw) := by
  intro r hr b a n h
  obtain ⟨e, he, rfl⟩ := List.mem_map.1 hr
  obtain ⟨v, a', _, _, h3, _⟩ := Re.match'_took h
  have : ∀ e ∈ entries, 1 ≤ e.1.least := by decide +kernel
  exact Nat.le_trans (this e he) h3

/-! ### The quotes, `_preprocess_query` -/

/-- `re.sub(r"'.*?'", f, text)`. -/
def subQuoted (f : List Char → List Char) : Nat → List Char → List Char
  | 0, t => t
  | _ + 1, [] => []
  | n + 1, c :: t =>
    if c = '\'' then
      match (t.dropWhile fun x => x != '\'' && x != '\n') with
      | '\'' :: r => f (c :: ((t.takeWhile fun x => x != '\'' && x != '\n') ++ ['\''])) ++ subQuoted f n r
      | _ => c :: subQuoted f n t
    else c :: subQuoted f n t

def mark : List Char := "<!!__QUOTE__!!>".toList

/-- `re.sub('"', "<!!__QUOTE__!!>", text)`, 945. -/
def hide (t : List Char) : List Char := t.flatMap fun c => if c = '"' then mark else [c]

/-- `re.sub("<!!__QUOTE__!!>", '"', text)`, 948. -/
def unhide : Nat → List Char → List Char
  | 0, t => t
  | _ + 1, [] => []
  | n + 1, c :: t =>
    if mark.isPrefixOf (c :: t) then '"' :: unhide n ((c :: t).drop mark.length) else c :: unhide n t

/-- `"([^`]+?)"` at the quote that is before `t`: the group and what follows. -/
def inQuotes : List Char → Option (List Char × List Char)
  | [] => none
  | x :: t =>
    if x = '`' then none
    else
      match t.dropWhile fun y => y != '"' && y != '`' with
      | '"' :: r => some (x :: t.takeWhile (fun y => y != '"' && y != '`'), r)
      | _ => none

/-- `re.sub(r'"([^`]+?)"', r"`\1`", text)`, 955. -/
def backticks : Nat → List Char → List Char
  | 0, t => t
  | _ + 1, [] => []
  | n + 1, c :: t =>
    if c = '"' then
      match inQuotes t with
      | some (g, r) => '`' :: (g ++ '`' :: backticks n r)
      | none => c :: backticks n t
    else c :: backticks n t

/-- `"([^`]+?)"\."([^`]+?)"` at the quote that is before `t`; `g` is what the first group has. -/
def inTwo (g : List Char) : List Char → Option (List Char × List Char × List Char)
  | [] => none
  | x :: t =>
    if x = '`' then none
    else
      match (if g.isEmpty then none else if "\".\"".toList.isPrefixOf (x :: t) then inQuotes (t.drop 2) else none) with
      | some (h, r) => some (g, h, r)
      | none => inTwo (g ++ [x]) t

/-- The substitution of line 956. -/
def backticks2 : Nat → List Char → List Char
  | 0, t => t
  | _ + 1, [] => []
  | n + 1, c :: t =>
    if c = '"' then
      match inTwo [] t with
      | some (g, h, r) => '`' :: (g ++ "`.`".toList ++ h ++ '`' :: backticks2 n r)
      | none => c :: backticks2 n t
    else c :: backticks2 n t

/-- `_preprocess_query`. -/
def preprocess (t : List Char) : List Char :=
  let t1 := subQuoted hide t.length t
  let t2 := backticks t1.length t1
  let t3 := backticks2 t2.length t2
  subQuoted (fun v => unhide v.length v) t3.length t3

/-! ### The tokens of the parser -/

/-- What a parenthesis encloses, 849-870. -/
inductive Kind
  | subquery | columns | withQuery | create | partition | nested
  deriving DecidableEq, Repr

/-- A token of `Parser.tokens`. -/
structure PTok where
  value : List Char
  left : Bool
  right : Bool
  comment : Bool
  asWord : Bool
  position : Nat
  lastKeyword : String
  subLevel : Int
  level : Int
  inNested : Bool
  opened : Option Kind
  closed : Option Kind
  deriving DecidableEq, Repr

/-- The attributes of the parser that the loop changes, 66-71. -/
structure Book where
  opens : List Kind
  sub : Int
  nested : Int
  level : Int
  inNested : Bool
  last : String
  deriving DecidableEq, Repr

def Book.init : Book := ⟨[], 0, 0, 0, false, ""⟩

def beforeColumns : List String := ["SELECT", "WHERE", "ORDERBY", "GROUPBY", "ON", "SET", "USING"]
def beforeSubquery : List String :=
  ["FROM", "JOIN", "CROSSJOIN", "INNERJOIN", "FULLJOIN", "FULLOUTERJOIN", "LEFTJOIN", "RIGHTJOIN", "LEFTOUTERJOIN",
   "RIGHTOUTERJOIN"]
def relevant : List String :=
  beforeColumns ++ beforeSubquery ++ ["INTO", "UPDATE", "TABLE", "SELECT", "DELETE", "REPLACE", "INSERT", "LIMIT", "OFFSET",
    "RETURNING", "VALUES", "INDEX", "WITH"]

/-- `previous_token.normalized`; the empty token has none. -/
def prevNorm (made : List PTok) : String := match made with | [] => "" | p :: _ => normalized p.value

/-- `_determine_opening_parenthesis_type` 849-867; `made` are the tokens before, nearest first. -/
def openKind (made : List PTok) (last : String) : Kind :=
  if beforeSubquery.contains (prevNorm made) then .subquery
  else if beforeColumns.contains (prevNorm made) || prevNorm made == "," then .columns
  else if (match made with | [] => false | p :: _ => p.asWord) then .withQuery
  else if last == "TABLE" && !made.any (fun p => p.value == ['(']) then .create
  else if prevNorm made == "OVER" then .partition
  else .nested

def Book.opening (bk : Book) (kd : Kind) : Book :=
  { bk with
    opens := kd :: bk.opens
    sub := if kd = .subquery then bk.sub + 1 else bk.sub
    nested := if kd = .nested then bk.nested + 1 else bk.nested
    inNested := if kd = .nested then true else bk.inNested
    level := bk.level + 1 }

/-- `_determine_closing_parenthesis_type` 874-895; `pop` raises on an empty list. -/
def Book.closing (bk : Book) : Except PyErr (Kind × Book) :=
  match bk.opens with
  | [] => .error .indexError
  | kd :: r =>
    .ok (kd, { bk with
      opens := r
      sub := if kd = .subquery then bk.sub - 1 else bk.sub
      nested := if kd = .nested then bk.nested - 1 else bk.nested
      inNested := if kd = .nested ∧ bk.nested - 1 = 0 then false else bk.inNested
      level := bk.level - 1 })

/-- `is_keyword`, token.py 33-35. -/
def isKeywordTok (t : Token) : Bool := isIn t.ttype Keyword || (t.ttype.length == 2 && t.ttype.dropLast == Name)

/-- `_determine_last_relevant_keyword` 960-977; `made` are the tokens before. -/
def lastKeyword (t : Token) (v : List Char) (made : List PTok) (bk : Book) : String :=
  let nm := normalized v
  if isKeywordTok t && relevant.contains (normalized (v.filter fun c => !asciiSpace c)) &&
      !(nm == "FROM" && (match made[2]? with | none => "" | some p => normalized p.value) == "EXTRACT") &&
      !(nm == "ORDERBY" && bk.opens.head? == some .partition) &&
      !(nm == "USING" && bk.last == "SELECT") then nm
  else bk.last

/-- The body of the loop for a token that is no part of a longer name, 147-173. -/
def onToken (t : Token) (v : List Char) (pos : Nat) (made : List PTok) (bk : Book) : Except PyErr (PTok × Book) :=
  let tok : PTok := ⟨v, t.value == ['('], t.value == [')'], isCommentType t.ttype,
    t.ttype == Keyword && upper t.value == "AS", pos, bk.last, bk.sub, 0, false, none, none⟩
  if tok.left then
    let kd := openKind made bk.last
    let bk1 := bk.opening kd
    let bk2 := { bk1 with last := lastKeyword t v made bk1 }
    .ok ({ tok with subLevel := if kd = .subquery then bk1.sub else tok.subLevel, opened := some kd, level := bk2.level, inNested := bk2.inNested }, bk2)
  else if tok.right then
    match bk.closing with
    | .error e => .error e
    | .ok (kd, bk1) =>
      let bk2 := { bk1 with last := lastKeyword t v made bk1 }
      .ok ({ tok with closed := some kd, level := bk2.level, inNested := bk2.inNested }, bk2)
  else
    let bk2 := { bk with last := lastKeyword t v made bk }
    .ok ({ tok with level := bk2.level, inNested := bk2.inNested }, bk2)

/-- The loop 142-173, with the tokens before (nearest first), those of the lexer and those made. -/
def tokensFrom (before : List Token) (flag : Bool) (made : List PTok) (bk : Book) : List Token → Except PyErr (List PTok)
  | [] => .ok []
  | t :: r =>
    if isPart t r = true then tokensFrom (t :: before) true made bk r
    else if made = [] ∧ before ≠ [] then .error .indexError
    else
      match onToken t (if flag then combine before (unquote t.value) else unquote t.value) before.length made bk with
      | .error e => .error e
      | .ok (p, bk') =>
        match tokensFrom (t :: before) false (p :: made) bk' r with
        | .error e => .error e
        | .ok l => .ok (p :: l)

/-- `tokens` for the tokens of a statement. -/
def parserToks (l : List Token) : Except PyErr (List PTok) :=
  tokensFrom [] false [] .init (l.filter fun t => !isBlank t)

/-- What the classification uses of a token. -/
def PTok.sql (p : PTok) : SqlToken := ⟨p.value, p.left, p.comment, p.position⟩

/-- `Parser(text).query_type`, the whole of it. -/
def typeOf (k : Classes) (kw : List Char → TType) (text : List Char) : Except PyErr String :=
  match lex (rules k kw) (preprocess text) with
  | .error e => .error e
  | .ok stream =>
    match split stream with
    | [] => .error .valueError
    | st :: _ =>
      match parserTokens st with
      | .error e => .error e
      | .ok l =>
        match parserToks l with
        | .error e => .error e
        | .ok ps => queryType (ps.map PTok.sql)

/-- The tokeniser gives tokens for every text and loses no character of it. -/
theorem C44_lexer (k : Classes) (kw : List Char → TType) (text : List Char) :
    ∃ l, lex (rules k kw) text = .ok l ∧ l.flatMap Token.value = text := by
  obtain ⟨l, h⟩ := C44_tokens_total (rules_positive k kw) text
  exact ⟨l, h, (C44_tokens_make_text h).1⟩

end EulerDB.Rules
