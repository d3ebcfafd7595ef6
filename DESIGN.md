# EulerDB in Lean 4: design of the model and of the proofs

EulerDB is an encrypting SQL proxy. A client sends SQL; the proxy rewrites table and column names to
anonymous ones, encrypts literals, sends the rewritten SQL to MySQL, and decrypts the rows that come back.
The model follows that pipeline: ciphers, metadata, statement rewriting, execution, result handling, and the
support libraries (connection pool, SQL formatter and lexer) that the pipeline stands on.

## 1. How the model is organised

`lean/Verif/` has one directory per area. In each area

* `Model.lean` holds the definitions. Each definition cites the file and lines of `/repo` it follows, branch by
  branch, and says where it simplifies.
* `Spec.lean` (where needed) holds the small independent vocabulary used to state the properties
  (plaintext tables, LIKE matching, SQL aggregates, an SQL lexer, ...). It does not mention the model.
* `Lemmas.lean` holds auxiliary lemmas.
* `Props.lean` holds the property theorems, named after the property (`C01_...`), each with an `example`
  beside it showing that its hypotheses are met by a concrete non-trivial case.

Python exceptions are values: functions that may raise return `Except PyErr a`. Loops become structural or
well-founded recursion. Things outside the code become parameters, with the behaviour assumed of them written in the
hypotheses of the theorems:

| parameter | stands for | assumed |
|---|---|---|
| `E D : key -> block -> block` | AES-256 on one 16-byte block (package cryptography) | `D k (E k b) = b` and `E k (D k b) = b`, output length 16 |
| `coins`, HRUA acceptance | HMAC/AES-CTR tape and float comparisons in `hgd.py` | nothing (any bits, any floats); where totality is claimed the accepted candidate obeys the bound check in the code |
| Paillier | package `phe` | textbook Paillier is defined in Lean and *proved* additive; that `phe` computes it is assumed |
| random names, clock | `random`, `time.perf_counter`, `time.time` | nothing, or distinctness where stated |
| `isalnum` | CPython's Unicode table | nothing |
| MySQL | evaluation of the rewritten statement | comparison, LIKE, ORDER BY, DECIMAL(65), session variables, as in the `Spec` files |
| the SQL grammar | `sql_parsing` (a PEG on `parsing/`) | for C21-C35 statements enter the model as the JSON the parser returns; the operator tables, parse actions and the formatter are modelled separately (C43, C57-C64), and so is the parser on characters for the basic statements (C68-C70) |
| `Spark`, process pool, pandas | packages used by offline decryption and key rotation | a Spark job maps each partition and collects in order; a local function cannot be pickled; a pandas Index cannot be called |
| SM4 | package gmssl | decryption inverts encryption |

When the code violates a property the theorem says so: the negation is proved with a concrete witness
(`C.._fails...`) and the strongest true part is proved as `C.._..._partial`.

## 2. Trusted base

* Lean 4.33.0's kernel; axioms `propext`, `Classical.choice`, `Quot.sound` only (`#print axioms` of every property theorem;
  the list is in section 5). No `sorry`, no `native_decide`, no `bv_decide`, no axiom of our own.
* The reading of the Python: that each definition says what the cited lines do. Python `int` is `Int`/`Nat`, `str`
  is `List Char` (no lone surrogates) or `String`, `dict` is an association list in insertion order, `float` is treated as stated
  in each definition (exact rationals, or the 53-bit rounding where it decides control flow).
* The assumed behaviour of the parameters above.

## 3. Plan per property

| id | model | proof |
|---|---|---|
| C01 | `encrypt_recursive` with arbitrary sampler and tape, exceptions as values | induction on output range size; no assumption on the sampler |
| C02 | plus `decrypt_recursive` | the same induction, both directions |
| C03 | plus `sample_hgd`, `rhyper` bounds, `hypergeometric_hyp`, the bound check of `hypergeometric_hrua`, 53-bit `ceil(n/2.0)` | support lemma for the samplers, then induction for totality |
| C04 | the default ranges | prove the cipher is the identity for every key: the property is false |
| C05 | zero padding, ECB over an abstract block permutation, base64, UTF-8 | exact: result is the string without trailing NULs; full claim false for strings ending in NUL |
| C06 | same | exact characterisation of collisions; true for strings not ending in NUL |
| C07 | `get_type_and_len`, ciphertext length | arithmetic, for UTF-8 length <= t; false for t multi-byte characters |
| C08, C09 | n-grams, LIKE as a spec | list induction; alignment of 24-character blocks by the `==` marker; counterexamples for mixed classes, overlapping words |
| C10-C12 | `stretch`, `inverse_stretch`, `encode`, `decode` over exact rationals | piecewise algebra; counterexamples for double and negatives |
| C13-C15 | Paillier over `ZMod (n^2)`, the fold, phe's signed encoding, MySQL NULL and DECIMAL | algebra; counterexamples for NULL and overflow |
| C16, C17, C20 | memory (class and instance attribute) and stored rows as association lists, operations as a state machine | invariant by induction on histories; counterexample histories |
| C18, C19 | plus backend table set, failures and crash points | invariants; counterexample histories |
| C21, C22 | `rewrite_table` on column definitions with a supply of random names | induction on the column list |
| C23-C25 | `SQLColumns`, `SQLValues`, `SQLSelect`, `decrypt` | induction on columns; composed with C02, C05 |
| C26-C28 | `SQLWhere`, `SQLSet` on the JSON tree; evaluation of conditions on rows as a spec | structural induction on conditions |
| C29-C32 | `OrderBy`, `SQLSelect`, `SQLFrom`, `SQLDrop`, `AnonymousTable`, alter keys | case analysis, induction on lists |
| C33 | shared `table_json`, threads as step lists, schedules | counterexample schedule; invariant for schedules that do not interleave the critical pair |
| C34 | id map keyed by time | induction on histories with distinct ids; counterexample for equal ids |
| C35, C40 | controllers with the rewriter as a parameter | case analysis |
| C36 | pool table keyed by concatenation | counterexamples; exact characterisation |
| C37, C38 | `PooledDB` as a state machine (idle list, shared list, counter, handles) | invariants by induction |
| C39 | `tough_method` over an oracle of outcomes | case analysis counting executions |
| C41 | `batch_insert` over lists of chunks | induction on chunks |
| C42 | `escape`, `_literal`; SQL lexers as a spec | list induction; counterexample with backslash |
| C43 | `Operator` formatting with precedences; a precedence parser as spec | structural induction |
| C44 | `get_tokens` with arbitrary rules, `StatementSplitter` | induction on text/stream |
| C45, C49, C50 | handler list functions | list induction |
| C46 | `split_field`, `join_field` | list induction |
| C47 | `OXT` over an abstract PRF and a group | algebra |
| C48 | `rotate_key` as a sequence of steps with a crash point | counterexample; what remains true |
| C51, C52 | widths of the fuzzy and order-preserving columns | arithmetic on lengths and ranges; counterexamples |
| C53 | waiting callers of `PooledDB` as a state machine with a wait set | progress by case analysis on the schedule |
| C54, C55 | `resolve_connect`, the registered handlers | list lemmas on separators; case analysis per endpoint |
| C56 | `SQLSelect` on SUM and AVG | induction on the select list |
| C57, C58 | literal patterns of the grammar, `get_type` and the keyword tables | list induction against an SQL lexer |
| C59-C61 | `make_tree` / `infix_notation`, the operator table, `to_json_operator` | operator lists as trees; a MySQL precedence grammar as spec |
| C62, C63 | the whole `Formatter`, including nesting | a MySQL grammar as a relation; structural induction on queries |
| C64 | the eight regular expressions of `parse_alter_key` | all matches of a pattern as a set, then uniqueness |
| C65 | DEFAULT clauses through `rewrite_table` and AESCipher | case analysis; base64 padding puts `=` in the clause |
| C66 | CBC, PKCS7, ECB, base64, hex over an abstract block cipher | induction on blocks |
| C67 | the three modes of `OfflineDecryption` | induction on the partition |
| C68 | the skipping of whitespace and comments, against MySQL's | a two-state scan; exact characterisation of agreement |
| C69, C70 | scanner, names, numbers, expressions and statements of the grammar, on characters | spelling as a relation; reading proved by induction on it |
| C71, C72 | the layers joined: parser, rewriter, formatter, an SQL reader and executor for MySQL, decryption | a relation between client tables and encrypted tables, kept by every statement; induction on the session |
| C73 | the tree of a statement: all passes of `grouping.py`, tokens with identities | `Grown`: what a step does to leaves and identities; an invariant for the list of references; fuel bounded by the number of groups |
| C74 | `_group_matching` | texts with nested brackets as trees; every text is balanced pieces between brackets without partner |
| C75 | `_flatten_sqlparse` | from the invariants of C73; numbers joined with names as a relation |
| C76 | the 47 rules as regular expressions with a backtracking matcher, the rewriting of quotes, the count of parentheses | texts as plain characters and literals (a relation); for each rule what it can match at a place of such a text |
| C77 | the reader of `Whole/Mysql` against the grammar, on characters | from the tokens MySQL sees to the spelling relation of C70 (by recursion of MySQL's parser), then C71; conditions compared as truth values |
| C78 | the frame grammar on characters, the frame writer, MySQL's frames as sets of rows | a frame is told by its two offsets; the frames that survive are characterised exactly |
| C79 | the substitutions of the generaliser on characters, with `\s`, case folding, comment stripping and the merging of LIKEs as parameters | a relation between texts that differ in values is kept by every step and becomes equality |
| C80 | queries over several tables, the join loops of `Clause`, MySQL's joins with three-valued conditions | environments of rows side by side: every step of FROM keeps the relation of C71; equality of ciphertexts is equality of values under one key |
| C81 | queries with DISTINCT, aggregates, GROUP BY, HAVING, ORDER BY, LIMIT; MySQL's evaluation of them with ONLY_FULL_GROUP_BY; answers up to the order SQL leaves open | groups, extremes, first occurrences and permutations side by side: ciphertexts are equal (ordered) exactly when the values are, so every admissible answer on one side has one on the other |
| C82 | `StripCommentsFilter`, `SerializerUnicode`, `split_unquoted_newlines` on the trees of C73 | the loop of the filter is one sweep over each list of tokens; a group that is a comment holds comments and blanks only (a new invariant of the grouping), so what is taken out is known; blanks before every comment, or groups that do not begin with one, keep the words apart |
| C83 | `Data.__getitem__`, `__setitem__`, `leaves`, `_leaves_to_data`, `relative_field`, `concat_field` | false at null and scalar steps, at dotted names among missing names, at names ending with a backslash, at empty dicts and for a path relative to one leading on from it; proved for clear ways (`Clear`), for data without these (`GoodDict`), and as an equivalence for relative paths |
| C84 | CREATE TABLE from its text (`sql_parser.py` 529-546, `types.py`) through `rewrite_table` to the table in the backend, then sessions of statements (C71) on it | false for UNSIGNED, display widths, other types, UNIQUE, AUTO_INCREMENT, large rows and keys, and for a table created again; proved for sessions of INT, CHAR and VARCHAR columns within the limits of the backend (`Roomy`) and values that fit (`VFits`) |
| C85 | the tokens of the parser with their types, keywords and depth, `values`, `values_dict`, `limit_and_offset` (`compile/parser.py` 376-403, 564-602) | false: rows are not told apart, `NULL` is the string, expressions and quotes are cut, a column named by a keyword is lost, numbers after a punctuation and inner limits are taken for the limit; proved for INSERTs of literals and for queries without a number after a punctuation before the limit |
| C86 | queries with DISTINCT, joins, GROUP BY, HAVING, ORDER BY and LIMIT from the characters on (`sql_parser.py` 279-313, 365-406, 448-473, `keywords.py` 130-144) | false: a comment between `ORDER` and `BY` is a syntax error, `NATURAL` is an alias; proved for every other spelling, and with C81 and C80 up to the decrypted answers |
| C87 | sessions in which an INSERT leaves columns out, over a backend with NULL and three-valued conditions (`sql_columns.py`, `sql_values.py`, `sql_where.py`, `decrypt_handler.py` 64-66) | false: `IS NULL` on an encrypted column is sent under the client's name of it, NULL written out is refused; proved for columns that are left out: in every session they are NULL, no comparison selects them, and UPDATE gives them values |
| C88 | LIKE searches from the characters of the statement to the rows found, in sessions (`sql_where.py` 45-50, 72-84; `FuzzyCipher.encrypt`) | false: `%world%` misses `hello world`, `a_c` misses `abc`, `%abc%bcd%` finds `abcd`, NOT LIKE is sent as written; proved: what sessions answer with the search the backend really makes, that every word of the pattern occurs in a found value, and exact answers where words and values are of one kind |
| C89 | the parsing library's choice by a table of first characters (`parsing/expressions.py` `faster`, `Fast`, `MatchFirst`, `Or`; `regex_caseless`) for any list of alternatives (`Verif/Choice`) | false: `ab`, `a`, `ab` change places, names that begin with `Ə` or `İ` raise KeyError (the identifiers of `Verif/Sql` that begin with such letters are read there as if the table were not used), an optional alternative is not tried; proved: the choice made in order, where a key that two alternatives have is not passed over by one between them, the longest match in any order, and the condition for the three word lists of the grammar |
| C90 | NULL written in statements: UPDATE ... SET c = NULL, IS NULL, IS NOT NULL, comparisons with NULL, NULL among INSERT values, from characters to rows in sessions (`sql_parsing/utils.py` 158-187, `sql_set.py`, `sql_where.py`, formatter) (`Verif/NullLit`) | false: `WHERE n = NULL` is read as IS NULL and deletes the rows with NULL, IS NULL on an encrypted column names a column the backend does not have, an INSERT with NULL among its values is refused; proved: sessions that set columns to NULL and ask IS [NOT] NULL of plain columns are answered as without encryption |
| C91 | Queries over a table with an alias and over subqueries in FROM, of any depth, with their answers (`rewrite_hander.py` 54-66, 79-115, `clause/utils.py`, `sql_select.py`, `decrypt_handler.py` 64-73) (`Verif/Nested`) | false: WHERE and ORDER BY over an alias or a subquery are refused at any depth, so is a query for the column of a subquery of one column; `*` over a subquery is sent as all columns of the stored table, MAX of an encrypted column asks for a column the subquery does not give; proved: without these the answers at any depth are those of the query |
| C92 | The regular expressions that the parsing library writes for its parsers, how `re` reads them and what they match (`parsing/utils.py` 77-148, `tokens.py`, `expressions.py`, `enhancement.py`), and `~RESERVED` (`Verif/Regex`) | false: a set whose greatest character is 6 loses it, a Char whose characters are all excluded matches all others, a Word of exactly one character has no bound, CharsNotIn with a minimum matches braces, a word longer in capitals is not matched, `~` refuses what needs a second try, lets pass what has whitespace, two keywords, or a repetition of a repetition, forgets Empty; names such as "allée" are refused as reserved; proved: the pattern of any other parser is read as the composition of its elements, matches what the parser finds, and exactly that if no second try is needed; `~RESERVED` refuses exactly the reserved words |
| C93 | `expecting` and `min_length` of the parsers, the reading of a pattern by `parsing/regex.py` and its match by Python (`Verif/Expect`, on the parsers and expressions of C92 and the table of C89) | false: an Optional among four alternatives is not tried, a lookahead has a length, `ab*` is read as `(ab)*`, `a?b` as three characters, `[a]?` as `[a]*`, `\b` as b, `[\s\S]` as blanks, a pattern with `^` is refused and one with a blank cut off, digits of other scripts match and are not expected; proved: keys cover every parser that does not match nothing, lengths are right without lookahead, brackets of characters and ranges are read as Python reads them, and the patterns of the SQL grammar agree, alone and as alternatives |
| C94 | set operations: the grammar's chains, `to_union_call`, `to_query` and the formatter's `Operator`, `op`, `ordered_query`, `unordered_query`, `from_` (`Verif/SetOps`) | false: what follows a query in parentheses is dropped and so is its WITH, `LIMIT 0` and FETCH behind set operations are dropped, INTERSECT does not bind tighter, parentheses on the right are not written, UNION DISTINCT is written as a function, of WITH before a UNION only the WITH is written, WITH RECURSIVE is not written, FETCH is written with the number of OFFSET; proved: chains mean their operations from left to right, and outside these cases parsing, writing and both together keep the meaning, in every meaning of SELECTs and operations; a text is that of one query |
| C95 | what is read from a parse result: names, truth, iteration, items, lists, setting and deleting (`Verif/Results`) | false: `in` misses names whose value is 0 or an empty group, names behind a Forward are not among the keys, do not count for truth and are not deleted, `as_list` wraps a group behind a Forward twice, setting a name that is there loses the name, `tokens[-1]` raises; proved: reading a name gives what stands under it outside groups, and without Forward results keys, items, truth, iteration, lists, deleting and setting a new name agree with it |
| C96 | repetition: `Many.parse_impl`, `OneOrMore`, `ZeroOrMore`, `Optional` (`Verif/Repeat`) | false: an element that matches nothing is repeated for ever, repetitions of which nothing is kept (Suppress) are given back or not counted, at the end of the text nothing is tried; proved: for elements that take a character and keep something, the loop ends in at most as many rounds as there are characters left, and one, with all repetitions, and fails exactly if there are too few; ZeroOrMore and Optional never fail |
| C97 | white space and comments: the pattern of `Whitespace.__regex__` for the SQL parser with its backtracking, and the cache of `skip` (`Verif/Comment`) | proved: the first match of the pattern leaves the one text that follows white space and comments and begins with neither, which is what the scanner of C68–C70 and C86 leaves; positions go forward; the cache answers what the pattern would, for every sequence of calls |
| C98 | which parts of a statement `rewrite_query` reaches (`Verif/Clause/FrameProps`, over the model of C23-C30) | false: GROUP BY, HAVING, WITH and windows are sent as parsed; so is every query nested in a condition, also on the right of an encrypted column; set operations are refused, but with LIMIT they are replaced by None and success is reported; proved: keys outside the clause table keep their values and no clause disappears |
| C99 | the options of `format` besides `strip_comments`: case of words, cutting of literals, blanks around operators, fewer blanks, the literal of Python (`Verif/Layout`, over the models of C44, C73 and C76) | false: `->` and `@x` are torn apart, the line break that ends a `#comment` goes, `(::)` is an IndexError, names in backticks change case, a cut in a doubled quote ends the literal, and an escaped quote ends the literal of Python; proved: both filters of blanks end and keep every other token, white space between two tokens becomes one blank, keywords change in case only, and the partial statements for literals without quotes and backslashes |
| C100 | `one_of`: the order in which words are tried (`Verif/OneOf`) | false: the empty word goes before words of one character, a word of one letter is not caseless, keywords are tried in the order given (GROUP hides GROUP BY); proved: putting the words in order ends, no word is a beginning of a later one and none is lost, and the longest word that is there is taken |
| C101 | the formatter of the second SQL grammar and that grammar (`Verif/Presto`) | false: `-x` is written `+x`, quotes in a string double each time, a condition in parentheses is not read (only one pair, after WHERE), `asc` in lower case is written DESC, NULLS FIRST is written twice, a union is a TypeError; proved: values without these are read again, so are single conditions after WHERE, and without minus signs the text determines the expression |
| C102 | limits, joins and columns of the second SQL grammar (`Verif/Presto/Query`) | false: LIMIT after a simple query is lost, TOP 0 too, `left join` in lower case and NATURAL LEFT JOIN are inner joins, a join with USING is an AttributeError, the condition after ON is not read again, `*` is written as nothing; proved: TOP n, words in upper case, named columns are kept |
| C103 | `SkipTo` (`Verif/Skip`) | false: what `fail_on` matches ends the search as a match, and what is ignored and may be empty keeps it from ending; proved: otherwise it ends, finds the first place, and fails only if there is none; with text that is ignored (never empty), the first place outside of it |
| C104 | `PrecededBy` (`Verif/Behind`) | false: white space before the place is passed, `retreat` is not used, and most expressions have no regular expression; proved: an expression of one length is found exactly if it ends at the place, another from the nearest place that is enough |
| C105 | `_scan_string`, `_split`, `_transformString` (`Verif/Scan`) | false: an empty match after white space is given twice, with `overlap` any match; proved: the search ends, its matches are disjoint, in order and complete, and splitting and rebuilding keep the text |

### Specifications of MySQL

The properties about SQL text need a reader for that text which is not the code's own. These are trusted as descriptions of MySQL and are kept small:

* `Fuzzy/Spec`: LIKE. `Paillier/Spec`: SUM, AVG, COUNT and GROUP_CONCAT with NULL.
* `Format/Expr` (`Reads`), `Parse/Grammar` (`MReads`): operator precedence, as relations between text and trees.
* `Format/Literal` (`readStr`, `readItem`): string literals, quoted names and dotted names.
* `Parse/Action` (`Sem`): laws of the comparison and logic operators.
* `Statement/Grammar`, `Statement/InsertProps` (`rInsert`, `readLit`): queries, UPDATE, DELETE and INSERT.
* `Alter/Spell` (`Spells`): ALTER TABLE key statements with their letter cases and blanks.
* `Sql/Comment` (`mskip`): what MySQL skips between tokens. `Sql/Spell`, `Sql/Stmt` (`SpExpr`, `SpDelete`, ..): how expressions and statements are
  spelled. `Sql/NumberProps` (`decimal`): the value of a number.
* `Whole/Mysql`: tokens, conditions and the four statements as MySQL reads them from characters, and their execution on tables. `Whole/Session` (`pexec`): the
  same statements on unencrypted tables.
* `Join/Model` (`runJoin`): FROM with commas and joins, three-valued conditions, outer joins; `Query.answer`: the same on unencrypted tables.
* `Answer/Model` (`run`, `Answers`): grouping, aggregates, HAVING, DISTINCT, ORDER BY, LIMIT and what ONLY_FULL_GROUP_BY refuses; `Query.Answers`: the same on an unencrypted table.
* `Values/Props` (`Insert`, `Word`), `Values/Rows` (`Cell`, `rowsToks`), `Values/Limit` (`Query`, `Clause`), `Values/Dict` (`Plain`): an INSERT with rows of literals, a query with one of the three forms of LIMIT, and an INSERT with columns, each as the list of its tokens without blanks; `Clause` says which number is the limit and which the offset.
* `Create/Model` (`readCreate`, `legal`, `Store.fine`): CREATE TABLE as MySQL reads it, the limits on columns, rows and keys, and the values a column accepts; `Create/Session` (`Client.exec`): the same
  session without encryption.
* `Table/DefaultProps` (`Mysql`): two laws about the operand of DEFAULT.

One description is of Python: `Regex/Model` (`compile`, `Re.den`), how `re` reads a pattern and in which order it finds matches.

## 4. Not modelled

The PEG engine (`parsing/`) beyond the choice of alternatives (C89) the patterns of its parsers (C92), and what they expect and how Regex reads patterns (C93). Of the grammar, the operator levels, parse actions, literals, ALTER patterns and, on characters, expressions and the
basic DELETE, UPDATE, INSERT and SELECT are modelled; what these texts reach beyond that (`unmod`: CASE, CAST, joins, subqueries) enters as JSON.
tornado's HTTP layer, logging, `scheduler/compile/parse` beyond tokenising, splitting, grouping and classifying, the web front end, AES/SM4/HMAC/SHA internals, the log-gamma
arithmetic of the HRUA sampler (its outcome is an arbitrary oracle), MySQL itself beyond the specifications above.

## 5. Axioms used

`#print axioms` was run on every theorem listed in `MANIFEST.json` (902 at the time): 17 use no axiom, 112 `propext`, 126 `propext` and `Quot.sound`, and 647
`propext`, `Classical.choice` and `Quot.sound`. No other axiom occurs.

## 6. Wrong programs

`seeded/LOG.jsonl` has one line per deliberately wrong version of a definition: the edit, the claim it was meant to break, the theorems whose proofs
failed, and, where at first none did, the theorems added or sharpened so that one does. A `note` marks each edit for
which no theorem is named even so. It says either that the property is kept and why, or that no theorem fails and what the theorems leave open (such an
edit is a gap), or that the check of a module ended for lack of memory before it named a theorem, which shows neither.
