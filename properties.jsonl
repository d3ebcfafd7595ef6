{"id": "C01", "title": "Order-preserving encryption is strictly monotone", "statement": "For one key and one pair of ranges, whenever OPE.encrypt accepts the integers a and b, a < b holds exactly when encrypt(a) < encrypt(b); equal plaintexts give equal ciphertexts. So <, <=, >, >=, MIN, MAX and ORDER BY on the stored numbers agree with the plaintext numbers.", "quantifier": "all keys (all outputs of the keyed pseudo-random tape and of the hypergeometric sampler), all in/out ranges, all pairs of integers", "why_tests_cant": "The domain is 2^64 x 2^64 pairs per key and the sampler is randomised by the key; a test sees a few pairs of a few keys.", "anchors": ["scheduler/crypto/ope/ope.py: OPE.encrypt, OPE.encrypt_recursive", "scheduler/crypto/ope/stat.py: sample_hgd, sample_uniform", "scheduler/crypto/encrypt.py: OPECipher"]}
{"id": "C02", "title": "Order-preserving decryption inverts encryption and rejects everything else", "statement": "If OPE.encrypt(m) returns c then OPE.decrypt(c) returns m; and if OPE.decrypt(c) returns m then OPE.encrypt(m) returns c. Any other number, in or out of the output range, is answered with an exception and never with a wrong plaintext.", "quantifier": "all keys, all ranges, all plaintexts, all candidate ciphertexts", "why_tests_cant": "Needs the two recursions to follow the same path for every key and every value.", "anchors": ["scheduler/crypto/ope/ope.py: OPE.encrypt, OPE.decrypt, encrypt_recursive, decrypt_recursive"]}
{"id": "C03", "title": "Order-preserving encryption is total on its declared range", "statement": "With 1 <= |in range| <= |out range|, OPE.encrypt terminates and returns a value in the output range for every integer in the input range, and rejects with OutOfRangeError every integer outside; none of its internal assertions can fire, whatever random coins the key produces; the only other possible outcome is an error of the sampler's own float arithmetic (a draw of exactly zero).", "quantifier": "all ranges with |in| <= |out| up to the float range, all integers, all coin tapes", "why_tests_cant": "Assertion failures would occur only on rare coin values; the recursion is 64 levels deep with a rejection sampler inside.", "anchors": ["scheduler/crypto/ope/ope.py: OPE.encrypt_recursive", "scheduler/crypto/ope/stat.py: sample_hgd", "scheduler/crypto/ope/hgd.py: HGD.rhyper, hypergeometric_hyp, hypergeometric_hrua"]}
{"id": "C04", "title": "The order-preserving column does not store the plaintext", "statement": "For the ranges OPECipher actually uses, the number written to the order-preserving column depends on the key and is not simply the plaintext number.", "quantifier": "all keys, all 64-bit integers", "why_tests_cant": "A test can see one value unchanged and call it chance; only a proof over all keys and values shows what the cipher computes.", "anchors": ["scheduler/crypto/encrypt.py: OPECipher", "scheduler/crypto/ope/ope.py: DEFAULT_IN_RANGE_START, DEFAULT_OUT_RANGE_START, OPE.__init__", "scheduler/crypto/ope/stat.py: sample_hgd"]}
{"id": "C05", "title": "AES string cipher round trip", "statement": "AESCipher(k).decrypt(AESCipher(k).encrypt(s)) == s for every string s and every key k.", "quantifier": "all keys, all unicode strings of any length", "why_tests_cant": "Padding, UTF-8 and base64 interact with the last characters and the length mod 16 and mod 3 of the string.", "anchors": ["scheduler/crypto/encrypt.py: AESCipher.pad, AESCipher.unpad, AESCipher.encrypt, AESCipher.decrypt"]}
{"id": "C06", "title": "Equality search on the symmetric column is exact", "statement": "AESCipher(k).encrypt is deterministic and AESCipher(k).encrypt(a) == AESCipher(k).encrypt(b) exactly when a == b, so that WHERE col = v returns the rows holding v and no other row.", "quantifier": "all keys, all pairs of strings", "why_tests_cant": "A collision between two different strings would have to be guessed to be tested.", "anchors": ["scheduler/crypto/encrypt.py: AESCipher", "scheduler/handers/clause/sql_where.py: SQLWhere.rewrite", "scheduler/handers/clause/sql_values.py: SQLValues.encrypt_value"]}
{"id": "C07", "title": "The cipher column is wide enough for every admissible value", "statement": "For a column declared CHAR(t) or VARCHAR(t), every string the user may store in it (at most t characters) has an AESCipher ciphertext not longer than the width declared for the generated symmetric column.", "quantifier": "all t, all strings of at most t characters, all keys", "why_tests_cant": "The width formula depends on t mod 16 and mod 3 and on the UTF-8 length of every character.", "anchors": ["scheduler/schema/metadata.py: get_type_and_len", "scheduler/crypto/encrypt.py: AESCipher.encrypt", "scheduler/handers/table.py: rewrite_table"]}
{"id": "C08", "title": "Fuzzy search has no false negatives", "statement": "If a stored string matches a LIKE pattern made of %-separated words of length >= 3, its FuzzyCipher ciphertext matches the rewritten LIKE pattern that the proxy sends to the backend.", "quantifier": "all keys, all stored strings, all patterns with any number of words", "why_tests_cant": "The cipher cuts strings in overlapping 3- or 2-grams depending on the characters; the failing combinations are not visible from examples of one class.", "anchors": ["scheduler/crypto/encrypt.py: FuzzyCipher.encrypt", "scheduler/handers/clause/sql_where.py: SQLWhere.rewrite (fuzzy)"]}
{"id": "C09", "title": "Fuzzy search has no false positives", "statement": "If the FuzzyCipher ciphertext of a stored string matches the rewritten LIKE pattern, then the stored string matches the original LIKE pattern.", "quantifier": "all keys, all stored strings, all patterns with any number of words", "why_tests_cant": "Accidental matches across gram boundaries or between overlapping grams are only excluded by a proof about all strings.", "anchors": ["scheduler/crypto/encrypt.py: FuzzyCipher.encrypt", "scheduler/handers/clause/sql_where.py: SQLWhere.rewrite (fuzzy)"]}
{"id": "C10", "title": "Fixed-point encoding of float columns", "statement": "For a float column, decode(encode(v)) differs from v by less than 10^-12 and is exact when v has at most 12 decimals; encode is monotone so the order-preserving column sorts like the values; integers in int columns and strings are unchanged.", "quantifier": "all values (exact rational arithmetic)", "why_tests_cant": "Ranges over every numeric value.", "anchors": ["scheduler/crypto/encrypt.py: encode, decode"]}
{"id": "C11", "title": "Encoding of double columns round-trips", "statement": "For a double column, decode(encode(v)) differs from v by less than 10^-12 for every |v| <= 10^65 that the column accepts.", "quantifier": "all values in the supported range, both signs, all four pieces of the piecewise-linear map", "why_tests_cant": "The map has four pieces per sign; errors show only beyond the thresholds.", "anchors": ["scheduler/crypto/encrypt.py: stretch, inverse_stretch, encode, decode"]}
{"id": "C12", "title": "stretch is strictly increasing and inverse_stretch inverts it", "statement": "On |v| <= 10^65 stretch is strictly increasing, odd, and maps into |.| <= 10^24; inverse_stretch(stretch(v)) == v.", "quantifier": "all rationals in range, both signs", "why_tests_cant": "Piecewise function over a dense domain.", "anchors": ["scheduler/crypto/encrypt.py: stretch, inverse_stretch"]}
{"id": "C13", "title": "SUM over an encrypted column equals the plaintext sum", "statement": "For a key (p,q) of distinct primes and any list of integers, multiplying the stored Paillier ciphertexts modulo n^2 in any row order and decrypting returns the sum of the integers, as long as the sum and each value stay within +-(n/3-1); the empty list gives 0.", "quantifier": "all key pairs, all encryption randomness, all lists of integers, all row orders", "why_tests_cant": "Ranges over all keys, all randomisers and all multisets of rows.", "anchors": ["scheduler/crypto/encrypt.py: HomomorphicCipher.encrypt, HomomorphicCipher.decrypt", "scheduler/schema/metadata.py: Delta.set_sum_feature"]}
{"id": "C14", "title": "AVG over an encrypted column", "statement": "HomomorphicCipher.decrypt of the 'c1,...,ck,AVG' and 'c,num' forms returns the plaintext average (the latter rounded to 4 decimals), and of a single ciphertext returns its plaintext; no list of ciphertexts is misread as another form.", "quantifier": "all keys, all lists, all counts", "why_tests_cant": "Ranges over all lists and over the string forms sent back by the database.", "anchors": ["scheduler/crypto/encrypt.py: HomomorphicCipher.decrypt", "scheduler/schema/metadata.py: Delta.modify_sum_query, Delta.modify_avg_query"]}
{"id": "C15", "title": "Server-side SUM and AVG agree with SQL on NULLs and do not overflow", "statement": "The running product computed in the backend for SUM/AVG ignores NULL rows as SQL aggregates do, counts only non-NULL rows for AVG, and never exceeds the 65 digits of the backend's DECIMAL type for an accepted key.", "quantifier": "all columns (lists of values and NULLs), all keys", "why_tests_cant": "Depends on the position of NULLs and on the size of the key.", "anchors": ["scheduler/schema/metadata.py: Delta.set_sum_feature, Delta.set_total_feature_num, arithmetic_type_fixed", "scheduler/backend/executors/remote_executor.py: RemoteExecutor.inject_procedure"]}
{"id": "C16", "title": "Table metadata survives a restart", "statement": "After any history of CREATE TABLE and DROP TABLE through the proxy, restarting it (reloading the metadata from the metadata database) yields the same mapping of logical tables and columns to backend tables, columns and keys as before the restart.", "quantifier": "all histories of creates and drops over any number of databases, tables and columns, restart at any point between operations", "why_tests_cant": "The memory and the stored rows are updated by different code; they drift apart only after particular histories.", "anchors": ["scheduler/schema/metadata.py: Delta.update_delta, Delta.delete_delta, Delta.update_db_meta, Delta.load_delta"]}
{"id": "C17", "title": "Creating or dropping a table leaves every other table alone", "statement": "update_delta and delete_delta change the metadata of the named table of the named database only; after a create the table's metadata is the one just built, after a drop it is absent, both in memory and after a restart.", "quantifier": "all metadata states, all pairs of tables", "why_tests_cant": "Frame property over all states.", "anchors": ["scheduler/schema/metadata.py: Delta.update_delta, Delta.delete_delta, Delta.load_delta"]}
{"id": "C18", "title": "A statement the backend rejects does not lose the table", "statement": "If the backend refuses a DROP TABLE (or a repeated CREATE TABLE) the proxy keeps the metadata of the table that still exists, so its data stays readable; and the caller is told about the failure.", "quantifier": "all metadata states, all histories, any statement failing", "why_tests_cant": "Requires injecting failures at every statement of every history.", "anchors": ["scheduler/backend/executors/remote_executor.py: RemoteExecutor.call"]}
{"id": "C19", "title": "Metadata never points to a missing backend table", "statement": "At every point of every history, including a crash between the two updates, a table present in the metadata exists in the backend.", "quantifier": "all histories, all failures and all crash points", "why_tests_cant": "Crash points between metadata update and backend statement are not reachable by tests.", "anchors": ["scheduler/backend/executors/remote_executor.py: RemoteExecutor.call", "scheduler/handers/table.py: rewrite_table"]}
{"id": "C20", "title": "SUM/AVG find the metadata of every known table", "statement": "For every table the proxy knows, the aggregate path sees the same metadata as the rest of the proxy, also for the first table created on an empty metadata database.", "quantifier": "all histories of creates and drops starting from any stored metadata", "why_tests_cant": "Class attribute versus instance attribute aliasing depends on the history of the process.", "anchors": ["scheduler/schema/metadata.py: Delta.update_delta, Delta.get_paillier_procedure_info"]}
{"id": "C21", "title": "CREATE TABLE rewriting: backend columns and metadata agree", "statement": "The backend table created for a logical table has, in order, each plaintext column under its own name and, for each encrypted column, one column per cipher recorded in the metadata; the name of an encrypted column never occurs among the backend columns unless it collides with a random name; the recorded key, type and plaintext flag are the declared ones.", "quantifier": "all table definitions with distinct column names, all encryption options, all random names", "why_tests_cant": "Ranges over all table definitions.", "anchors": ["scheduler/handers/table.py: rewrite_table"]}
{"id": "C22", "title": "CREATE TABLE accepts exactly the documented encrypted types", "statement": "rewrite_table succeeds for every table whose encrypted columns are int, float, double without length or char/varchar with length and have no default value, and raises for every other encrypted column type without touching the metadata.", "quantifier": "all table definitions, all encryption options", "why_tests_cant": "Ranges over all declared types and options.", "anchors": ["scheduler/handers/table.py: rewrite_table", "scheduler/schema/metadata.py: element_type, get_type_and_len"]}
{"id": "C23", "title": "INSERT rewriting keeps columns and values aligned", "statement": "In a rewritten single-row INSERT the list of backend columns and the list of values have the same length and the value at each position is the encryption, under the cipher and key of that backend column, of the value the user gave for the logical column.", "quantifier": "all metadata, all column lists, all values", "why_tests_cant": "Ranges over all schemas and column orders.", "anchors": ["scheduler/handers/clause/sql_columns.py: SQLColumns.rewrite", "scheduler/handers/clause/sql_values.py: SQLValues.rewrite, SQLValues.encrypt_value"]}
{"id": "C24", "title": "INSERT never sends the plaintext of an encrypted column", "statement": "Every value of an encrypted column in a rewritten INSERT, single-row or multi-row, is the output of a cipher of that column; no user literal for an encrypted column and no logical name of an encrypted column is sent.", "quantifier": "all metadata, all INSERT statements", "why_tests_cant": "The leak depends on the form of the statement, for all tables and values.", "anchors": ["scheduler/handers/rewrite_hander.py: Rewriter.rewrite_query", "scheduler/handers/clause/__init__.py: clause", "scheduler/handers/clause/sql_values.py: SQLValues", "sql_parsing/utils.py: to_insert_call"]}
{"id": "C25", "title": "What is inserted is what SELECT returns", "statement": "After inserting a row through the proxy, selecting its columns (or *) through the proxy and decrypting yields the inserted values in the selected order.", "quantifier": "all metadata with int and string columns, all rows, all column selections", "why_tests_cant": "End-to-end over all schemas, values and keys.", "anchors": ["scheduler/handers/clause/sql_values.py: SQLValues", "scheduler/handers/clause/sql_select.py: SQLSelect", "scheduler/handers/decrypt_handler.py: decrypt"]}
{"id": "C26", "title": "WHERE rewriting keeps the meaning of the condition", "statement": "For conditions built with =, <, <=, >, >= against literals, AND and OR on int and string columns of one table, the rewritten condition holds of the stored encrypted row exactly when the original condition holds of the plaintext row.", "quantifier": "all metadata, all conditions of any nesting depth, all rows, all keys", "why_tests_cant": "Structural induction over all conditions and all rows.", "anchors": ["scheduler/handers/clause/sql_where.py: SQLWhere.rewrite"]}
{"id": "C27", "title": "WHERE never sends the plaintext of a searched encrypted value", "statement": "In a rewritten WHERE clause neither the logical name of an encrypted column nor a literal compared with it is sent to the backend in clear, whatever the operator; conditions that cannot be rewritten are refused.", "quantifier": "all metadata, all conditions, all operators", "why_tests_cant": "Ranges over all operators and nestings.", "anchors": ["scheduler/handers/clause/sql_where.py: SQLWhere.rewrite", "scheduler/utils/keywords.py: Logical_Operation"]}
{"id": "C28", "title": "UPDATE refreshes every cipher column of an assigned column", "statement": "UPDATE ... SET c = v on an encrypted column writes to each cipher column of c the same ciphertext an INSERT of v would write, never the plaintext.", "quantifier": "all metadata, all assignments", "why_tests_cant": "Ranges over all schemas, ciphers and values.", "anchors": ["scheduler/handers/clause/sql_set.py: SQLSet.rewrite", "scheduler/handers/clause/sql_where.py: SQLWhere.rewrite"]}
{"id": "C29", "title": "ORDER BY keeps its direction and key", "statement": "ORDER BY c [DESC] on an encrypted int column yields the rows in the order of the plaintext values in the direction asked for.", "quantifier": "all metadata, all sort specifications, all row sets", "why_tests_cant": "Ranges over all row sets and sort keys.", "anchors": ["scheduler/handers/clause/function.py: OrderBy.rewrite"]}
{"id": "C30", "title": "SELECT bookkeeping stays aligned with the result columns", "statement": "After rewriting a SELECT list, the recorded column names, types and cipher states have one entry per column of the result, in the same order, so that each value is decrypted with the key and cipher of its own column.", "quantifier": "all metadata, all select lists", "why_tests_cant": "Misalignment depends on the combination of expressions in the list.", "anchors": ["scheduler/handers/clause/sql_select.py: SQLSelect.rewrite", "scheduler/handers/decrypt_handler.py: decrypt"]}
{"id": "C31", "title": "Table and column names are replaced by their own anonymous names", "statement": "In every rewritten statement a logical table is replaced by its own backend table and a logical encrypted column by one of its own cipher columns, also in FROM, JOIN ... ON, DROP and foreign-key references.", "quantifier": "all metadata, all statements of the supported kinds", "why_tests_cant": "Ranges over all schemas and statements.", "anchors": ["scheduler/handers/clause/anonymous_table.py: AnonymousTable.rewrite", "scheduler/handers/clause/sql_from.py: SQLFrom", "scheduler/handers/clause/sql_drop.py: SQLDrop", "scheduler/handers/clause/sql_where.py: SQLWhere"]}
{"id": "C32", "title": "ALTER TABLE ... ADD key statements are executed as asked", "statement": "ALTER TABLE t ADD PRIMARY KEY (c) and ALTER TABLE t ADD FOREIGN KEY (c) REFERENCES u (d) are sent to the backend with t, c, u and d replaced by their own backend names.", "quantifier": "all metadata, all table and column names", "why_tests_cant": "Ranges over all names; the failing step is between two modules.", "anchors": ["sql_parsing/__init__.py: parse_alter_key, format_alter_key", "scheduler/handers/clause/anonymous_table.py: AnonymousTable", "scheduler/handers/clause/sql_select.py: SQLSelect"]}
{"id": "C33", "title": "Concurrent requests do not exchange their queries", "statement": "In every interleaving of concurrent SELECT requests each request sends to the backend the rewriting of its own query.", "quantifier": "all numbers of requests, all interleavings of their steps", "why_tests_cant": "Races show up only in particular schedules.", "anchors": ["scheduler/schema/metadata.py: Delta.table_json, Delta.get_paillier_procedure_info", "scheduler/handers/rewrite_hander.py: Rewriter.rewrite_query", "scheduler/backend/executors/remote_executor.py: RemoteExecutor.inject_procedure"]}
{"id": "C34", "title": "encrypt_sql ids identify their own query", "statement": "The id returned by the two-step API (encrypt SQL, then decrypt data) makes the later decryption use the columns of the query it was returned for, whatever other requests happen in between.", "quantifier": "all histories of encrypt and decrypt requests with any arrival times", "why_tests_cant": "Depends on two requests falling in the same millisecond.", "anchors": ["scheduler/backend/execution_context.py: encrypt_sql2, decrypt_data", "controller/rewriter.py: ControllerEncryptSql2, ControllerDecrypt"]}
{"id": "C35", "title": "A query that cannot be rewritten is not returned in clear", "statement": "The encrypt-SQL endpoints never answer with the user's original statement; if rewriting fails they answer with an error.", "quantifier": "all queries, all metadata, all rewriting failures", "why_tests_cant": "Every exception path of the rewriter is concerned.", "anchors": ["controller/rewriter.py: ControllerEncryptSql1, ControllerEncryptSql2"]}
{"id": "C36", "title": "A connection is only reused for the same database and credentials", "statement": "A request is served with a pooled connection only if the connection was opened for the same host, port, database and user and with the password the request carries.", "quantifier": "all histories of requests, all host, port, database, user and password strings", "why_tests_cant": "Collisions of the concatenated key must be constructed.", "anchors": ["scheduler/backend/executors/remote_executor.py: RemoteExecutor.connect_db"]}
{"id": "C37", "title": "The connection pool respects its limit", "statement": "With a positive connection limit, at no time are more connections in use than the limit allows, the internal counter equals the number of connections handed out, and returned connections are cached up to the cache limit and closed beyond.", "quantifier": "all configurations, all sequences of connection requests, cursor use and returns", "why_tests_cant": "Invariant over all histories.", "anchors": ["dbutils/pooled_db.py: PooledDB.connection, PooledDB.unshare, PooledDB.cache, PooledDB.close"]}
{"id": "C38", "title": "A dedicated pooled connection has one owner", "statement": "Two live dedicated handles never refer to the same physical connection, and a physical connection returned to the pool is reset before it is handed out again; returning a handle twice has no further effect.", "quantifier": "all sequences of requests, returns and double returns", "why_tests_cant": "Aliasing arises only after particular histories.", "anchors": ["dbutils/pooled_db.py: PooledDB.connection, PooledDB.cache, PooledDedicatedDBConnection.close"]}
{"id": "C39", "title": "A statement is not executed twice", "statement": "The hardened cursor re-executes a failed statement only outside transactions, at most twice more, and inside a transaction never; a statement that succeeded is never executed again.", "quantifier": "all outcomes of every attempt, reconnect and reset", "why_tests_cant": "Failures must be injected at each step of the retry protocol.", "anchors": ["dbutils/steady_db.py: SteadyDBCursor._get_tough_method"]}
{"id": "C40", "title": "The JDBC endpoint executes queries", "statement": "A POST to /jdbc_query with a supported non-CREATE statement is rewritten and executed like the same statement on /query.", "quantifier": "all non-CREATE statements", "why_tests_cant": "The failing condition is a property of the call chain for every statement.", "anchors": ["handler.py: QueryHandler._post", "controller/rewriter.py: ControllerDatabase.do_query", "scheduler/handers/rewrite_hander.py: Rewriter.rewrite_query"]}
{"id": "C41", "title": "Batch insert stores what single inserts would store", "statement": "batch_insert writes every row of the CSV exactly once, in order, across chunks, and each cell is encrypted like a single INSERT of that cell.", "quantifier": "all CSV contents and lengths (any number of chunks), all schemas", "why_tests_cant": "Chunk boundaries at 20000 rows and all schemas.", "anchors": ["scheduler/backend/executors/remote_executor.py: RemoteExecutor.batch_insert, batch_enc"]}
{"id": "C42", "title": "String literals and identifiers survive being written to SQL text", "statement": "A string literal or identifier formatted by the proxy is read back by the backend's SQL lexer as exactly the same string, whatever characters it contains, and the text after it is unaffected.", "quantifier": "all strings, all following text", "why_tests_cant": "Injection strings have to be guessed to be tested.", "anchors": ["sql_parsing/formatting.py: escape, should_quote, Formatter._literal"]}
{"id": "C43", "title": "Formatting an expression keeps its structure", "statement": "Formatting a rewritten condition to SQL text and parsing the text again yields the same condition: parentheses are put wherever precedence requires them.", "quantifier": "all expression trees of any depth over and/or/comparison/arithmetic operators", "why_tests_cant": "Structural induction over all expression trees.", "anchors": ["sql_parsing/formatting.py: Operator, Formatter.dispatch, Formatter.op"]}
{"id": "C44", "title": "Tokenising and splitting SQL loses nothing", "statement": "The tokens produced for a text concatenate to the text, and the statements produced by the splitter concatenate to the text up to a trailing all-whitespace statement.", "quantifier": "all texts, all token rules that match at least one character", "why_tests_cant": "Ranges over all texts.", "anchors": ["scheduler/compile/parse/lexer.py: Lexer.get_tokens", "scheduler/compile/parse/engine/statement_splitter.py: StatementSplitter.process"]}
{"id": "C45", "title": "Schema listing shows every table with its own columns", "statement": "For metadata rows grouped by table, the schema endpoint returns one entry per table, in order, with exactly the columns of that table; with no table it returns an empty list.", "quantifier": "all metadata row lists", "why_tests_cant": "Ranges over all row lists; boundary at first, last and single tables.", "anchors": ["handler.py: SchemaHandler.get, SchemaHandler.format_result"]}
{"id": "C46", "title": "Dotted names split and join back", "statement": "split_field(join_field(path)) == path for every non-empty list of non-empty names, and join_field(split_field(s)) == s for every dotted name, so qualified columns keep their table.", "quantifier": "all names and lists of names", "why_tests_cant": "Special characters interact with the escaping.", "anchors": ["dots/__init__.py: split_field, join_field"]}
{"id": "C47", "title": "Searchable index returns exactly the matching rows", "statement": "A conjunctive search over the encrypted inverted index returns every row containing all the searched words, and returns a row that lacks one of them only if two keyed hash values collide.", "quantifier": "all databases (lists of rows), all conjunctions of words, all keys", "why_tests_cant": "Ranges over all databases and all pseudo-random functions.", "anchors": ["sql_research/pysse/oxt.py: OXT.setup_edb, OXT.search_encryption, RawOXT.search_keyword"]}
{"id": "C48", "title": "Key rotation does not lose data", "statement": "If key rotation is interrupted at any point, every value is still decryptable with the key recorded in the metadata; if it completes, values decrypt to the same plaintext under the new key.", "quantifier": "all column contents, all keys, all crash points", "why_tests_cant": "Crash points cannot be enumerated by tests.", "anchors": ["scheduler/utils/key_rotation_support.py: rotate_key, drop_data, update_proxy_db"]}
{"id": "C49", "title": "Result rows are returned complete", "statement": "format_result of the query endpoint returns one JSON object per row holding, for each selected column, the decrypted value of that column.", "quantifier": "all result sets, all column lists", "why_tests_cant": "Depends on duplicate column names and on row widths.", "anchors": ["handler.py: QueryHandler.format_result"]}
{"id": "C50", "title": "The table definition assembled from the creation form is the one entered", "statement": "The CREATE TABLE text and the encryption options built from the creation form contain every listed column once, in order, with its own type, length, key and options.", "quantifier": "all forms of any size", "why_tests_cant": "Ranges over all forms.", "anchors": ["handler.py: CreateHandler.generate_table, CreateHandler.build_columns"]}
{"id": "C51", "title": "The fuzzy column is wide enough for every admissible value", "statement": "For a string column with fuzzy search, the FuzzyCipher ciphertext of every string the user may store is not longer than the width declared for the generated fuzzy column.", "quantifier": "all strings up to the declared length, all keys", "why_tests_cant": "Ranges over all lengths; the bound is hit only by long strings.", "anchors": ["scheduler/schema/metadata.py: fuzzy_type_fixed", "scheduler/crypto/encrypt.py: FuzzyCipher.encrypt"]}
{"id": "C52", "title": "Every value of a float or double column can be stored and compared", "statement": "INSERT of a number into an encrypted float or double column with the order-preserving option succeeds for every value the declared type admits, and the stored numbers are ordered like the values.", "quantifier": "all values, all keys", "why_tests_cant": "The failing values start at an internal limit (64 bits after scaling by 10^12) no test approaches by accident.", "anchors": ["scheduler/handers/clause/sql_values.py: SQLValues.encrypt_value", "scheduler/crypto/encrypt.py: encode, OPECipher", "scheduler/crypto/ope/ope.py: OPE.encrypt"]}
{"id": "C53", "title": "A caller waiting for a pooled connection is served when one becomes free", "statement": "In blocking mode, a caller that waits for a connection is woken and receives a connection, not an exception, as soon as a connection it may use is returned or leaves its transaction.", "quantifier": "all configurations, all histories of requests, transactions and returns", "why_tests_cant": "Needs particular interleavings of a waiting and a returning thread.", "anchors": ["dbutils/pooled_db.py: PooledDB.connection, PooledDB.unshare, PooledDB.cache, PooledDB._wait_lock"]}
{"id": "C54", "title": "A data source URL is decomposed into its own host, port and database", "statement": "The handlers that read a stored JDBC URL split it into exactly the host, the port and the database name the URL denotes.", "quantifier": "all JDBC MySQL URLs", "why_tests_cant": "Ranges over all URLs, including the legal ones without a port or with options.", "anchors": ["handler.py: QueryHandler._post, CreateHandler.post, QueryComponentHandler._post"]}
{"id": "C55", "title": "Every registered endpoint can be used", "statement": "For each registered URL there are request bodies or ids that reach the work the endpoint is named after, and every id the schema endpoint's route is meant for is routed to the handler as that id.", "quantifier": "all requests, all ids", "why_tests_cant": "A refutation must cover every request to the endpoint, which no finite test does.", "anchors": ["service.py: HANDLERS", "scheduler/backend/execution_context.py: rewrite", "controller/rewriter.py: ControllerRewriter.do_rewrite", "handler.py: QueryComponentHandler, SchemaHandler.get"]}
{"id": "C56", "title": "Every SUM and AVG over an arithmetic column is computed under encryption", "statement": "In a rewritten SELECT each SUM and AVG over a column with arithmetic encryption is replaced by the product of that column's ciphertexts modulo the square of that column's own modulus, for every row of the answer; the rest of the statement is kept.", "quantifier": "all select lists, all tables, all keys", "why_tests_cant": "Ranges over all select lists and name combinations; a wrong modulus still yields a number.", "anchors": ["scheduler/backend/executors/remote_executor.py: RemoteExecutor.inject_procedure", "scheduler/schema/metadata.py: Delta.get_paillier_procedure_info, modify_sum_query, modify_avg_query"]}
{"id": "C57", "title": "String literals of a statement mean to the proxy what they mean to MySQL", "statement": "For every string literal in a client's statement, the value the proxy encrypts or passes on is the value MySQL's lexer would give that literal, and the literal the proxy passes on has that value again.", "quantifier": "all literal texts, single- and double-quoted, with any characters and escapes", "why_tests_cant": "Escapes have to be guessed to be tested; each works in isolation.", "anchors": ["sql_parsing/utils.py: to_string, unquote, ansi_string, mysql_doublequote_string", "sql_parsing/formatting.py: Formatter._literal"]}
{"id": "C58", "title": "A statement is classified by its first word", "statement": "The type the parser gives a text is the one its first keyword denotes, whatever comments and opening parentheses precede it, and no statement of the text escapes the classification.", "quantifier": "all token streams: any comments, any number of opening parentheses, any number of statements", "why_tests_cant": "Wrong only for particular arrangements of comments, parentheses and statement separators.", "anchors": ["scheduler/compile/parser.py: Parser.query_type, Parser.tokens, Parser._get_sqlparse_tokens", "scheduler/compile/token.py: SQLToken.find_nearest_token, SQLToken.normalized"]}
{"id": "C59", "title": "No operand is lost when an expression is parsed", "statement": "The tree the parser builds for an expression contains every operand and operator of the text, in order.", "quantifier": "all runs of operands, infix operators, prefix operators and BETWEEN", "why_tests_cant": "The parser returns the first item of what its reduction loop leaves and drops the rest without an error, so a lost operand is seen only by comparing the tree with the text; whether it happens depends on which operator precedes which prefix operator.", "anchors": ["parsing/infix.py: make_tree", "sql_parsing/keywords.py: KNOWN_OPS", "sql_parsing/sql_parser.py: parser", "sql_parsing/types.py: unary_ops"]}
{"id": "C60", "title": "Operators are grouped as MySQL groups them", "statement": "The tree the parser builds for an expression is the tree MySQL reads the same text as.", "quantifier": "all expressions MySQL's grammar derives from the operators both sides know", "why_tests_cant": "There are several hundred pairs of operators and nesting is unbounded; most pairs agree, and a disagreement changes the result without any error.", "anchors": ["parsing/infix.py: make_tree", "sql_parsing/keywords.py: KNOWN_OPS"]}
{"id": "C61", "title": "Operators keep their meaning when the parser names them", "statement": "The value of an expression, NULL included, is the value of the tree of named operators the parser makes of it, as that tree is written back for the backend.", "quantifier": "all expressions of any depth over the operators of the grammar, all rows, all values including NULL", "why_tests_cant": "Ranges over all expressions and all values; a wrong rule for NULL shows only on rows with NULL in the right place.", "anchors": ["sql_parsing/utils.py: to_json_operator, binary_ops", "sql_parsing/formatting.py: Formatter.op, Formatter._missing, Formatter._exists"]}
{"id": "C62", "title": "A query is written back as the query that was parsed", "statement": "For every parsed query, with joins, derived tables nested to any depth, WHERE, GROUP BY, HAVING, ORDER BY, LIMIT and OFFSET, the text the formatter writes is read by the backend's grammar as the same query: the same tables joined the same way, the same clauses with the same expressions.", "quantifier": "all query structures of any size and nesting depth, all join kinds and conditions", "why_tests_cant": "The text differs from the query only for certain mixtures (a comma list together with a join, a USING of one column, an ON condition that Python takes for false, FETCH, NULLS FIRST, recursive WITH); it is usually still valid SQL with another meaning, so that an executed test passes unless the data tell the two apart.", "anchors": ["sql_parsing/formatting.py:109-128", "sql_parsing/formatting.py:166-266", "sql_parsing/formatting.py:432-582", "sql_parsing/formatting.py:630-636"]}
{"id": "C63", "title": "An INSERT reaches the backend with exactly its columns and values", "statement": "For every parsed INSERT the text sent is an INSERT into the renamed table with the rewritten columns and values, and the row the backend stores from it is the row the statement means.", "quantifier": "all column lists, all numbers and texts including quotes and backslashes, any number of rows, every crypto configuration", "why_tests_cant": "Tests insert a few well-behaved values; NULL, DEFAULT, expressions, one-column inserts, INSERT ... SELECT and texts with backslashes each take another path through the formatter.", "anchors": ["sql_parsing/formatting.py:370-380", "sql_parsing/formatting.py:584-628", "sql_parsing/utils.py:422-451", "sql_parsing/utils.py:528-547", "scheduler/handers/clause/sql_values.py:9-33"]}
{"id": "C64", "title": "An ALTER TABLE key statement is recognised as what it says", "statement": "A statement that adds or drops a primary key, foreign key, index, unique or fulltext index is recognised as that statement with its table, name and columns, however its keywords and blanks are written; and no other statement is taken for one.", "quantifier": "all table, key and column names (including names that begin with a keyword), all spellings of keywords in upper and lower case, all blanks, every kind of statement", "why_tests_cant": "Eight regular expressions with optional blanks are tried one after another with backtracking; that a name like addindex is not cut into keywords, and that a column called primarykey is, can be seen only by reasoning over all names.", "anchors": ["sql_parsing/__init__.py: parse_alter_key", "sql_parsing/__init__.py: format_alter_key", "scheduler/handers/rewrite_hander.py:27-28"]}
{"id": "C65", "title": "A column left out of an INSERT takes its declared default", "statement": "For every column declared with DEFAULT in CREATE TABLE, plaintext or encrypted, the backend column is created with a DEFAULT that stands for the declared value.", "quantifier": "all column definitions, types and options, all defaults (NULL, words, strings, numbers, booleans, expressions), all keys", "why_tests_cant": "The existing tests create tables with DEFAULT NULL at most; that a number, a string, zero or any default of an encrypted column goes wrong on its own path is not seen from one accepted statement.", "anchors": ["scheduler/handers/table.py:43-50", "scheduler/handers/table.py:68-74", "sql_parsing/types.py:213"]}
{"id": "C66", "title": "The byte ciphers give back what they were given", "statement": "AESCrypto, AESCipherBytes and SM4CipherBytes decrypt every ciphertext they produced to the value that was encrypted, and accept no other ciphertext for it.", "quantifier": "all texts and all byte strings of any length, all keys and initialisation vectors, any block cipher", "why_tests_cant": "Round-trip tests use short ASCII strings; block boundaries, multi-byte characters, byte strings that are no text, and appended bytes need all lengths and contents.", "anchors": ["scheduler/crypto/encrypt.py:30-32", "scheduler/crypto/encrypt.py:88-154", "scheduler/crypto/encrypt.py:192-236"]}
{"id": "C67", "title": "Every way of decrypting an exported column gives the same plaintexts", "statement": "Offline decryption of a file returns, for every column, the decoded plaintexts in order, whether it runs in one process, in a process pool or on Spark, however the data is partitioned.", "quantifier": "all files, all metadata, all modes, all partitions of the data, working, failing and absent clusters", "why_tests_cant": "The modes need a process pool and a Spark cluster; that they agree for every partition, and what is returned when one of them fails, is not observable in a unit test.", "anchors": ["scheduler/utils/decrypt_support.py:15-26", "scheduler/utils/decrypt_support.py:44-62", "scheduler/utils/decrypt_support.py:65-118"]}
{"id": "C68", "title": "The proxy skips between two tokens exactly what MySQL skips", "statement": "At every position of a statement, the whitespace and comments the proxy's parser skips are those the MySQL backend skips, so that no part of a statement is invisible to one of them only.", "quantifier": "all texts, all positions, all sequences and nestings of whitespace, dashes, hashes and block comments", "why_tests_cant": "Tests contain hardly any comments; 5--1, /*! .. */ and an unclosed comment are each read in two ways, and every combination of them needs the scanner followed over all texts.", "anchors": ["sql_parsing/sql_parser.py:70-76", "parsing/whitespaces.py:124-166", "sql_parsing/sql_parser.py:48-57"]}
{"id": "C69", "title": "A number in a statement is read as the number it spells", "statement": "Every numeric literal of MySQL, with or without a point or exponent, becomes in the parsed statement the number that MySQL takes it for.", "quantifier": "all digit sequences of any length, all exponents, all positions, any rounding to floats", "why_tests_cant": "Tests use small integers; negative exponents, decimals without an exact float, hexadecimal numbers and huge exponents each take another branch of the grammar.", "anchors": ["sql_parsing/utils.py:592-608", "sql_parsing/sql_parser.py:242-248", "sql_parsing/sql_parser.py:250-277"]}
{"id": "C70", "title": "A statement is read as what it spells", "statement": "A text that spells a DELETE, UPDATE, INSERT or SELECT in MySQL's notation - keywords in any case, any gaps and comments between tokens, names plain or quoted, expressions of any nesting - is parsed to the JSON with exactly the tables, columns, values and conditions that it spells.", "quantifier": "all statements of these kinds, all expressions of any depth, all spellings of keywords, gaps, names, numbers and strings", "why_tests_cant": "A test parses a handful of texts; that no gap, case, quoting or nesting changes what is read is a statement about infinitely many spellings of each statement, and the words and dashes that are misread lie among them.", "anchors": ["sql_parsing/sql_parser.py:250-277", "sql_parsing/sql_parser.py:317-360", "sql_parsing/sql_parser.py:439-444", "sql_parsing/sql_parser.py:599-630", "sql_parsing/__init__.py:75-83"]}
{"id": "C71", "title": "A session through the proxy is a session with a database without encryption", "statement": "Statements sent one after the other as text - INSERT, SELECT, UPDATE, DELETE - are parsed, rewritten, encrypted, written and executed by MySQL so that every answer, after decryption, is the answer an unencrypted database would have given, and the encrypted tables always hold what that database would hold.", "quantifier": "all sequences of statements of any length, all spellings, all tables and contents, all keys", "why_tests_cant": "Each layer is tested alone on a few statements; that parser, rewriter, cipher, formatter and MySQL agree on every statement and after every history is only true of all layers together, for unboundedly many sessions.", "anchors": ["scheduler/handers/rewrite_hander.py:19-77", "scheduler/handers/decrypt_handler.py:22-39", "sql_parsing/__init__.py:42-89", "scheduler/handers/clause/sql_where.py:12-89", "scheduler/handers/clause/sql_set.py:10-19"]}
{"id": "C72", "title": "The characters of a rewritten condition mean to MySQL what the condition means", "statement": "A WHERE condition, after rewriting and writing, is read by MySQL from its characters as a condition that is true of a stored row exactly if the client's condition is true of the client's row.", "quantifier": "all conditions of any nesting of AND, OR and comparisons, all tables, values, keys and rows", "why_tests_cant": "Precedence, parentheses, quoting and ciphertext characters interact; a test sees one nesting with one value.", "anchors": ["sql_parsing/formatting.py:66-88", "sql_parsing/formatting.py:370-380", "scheduler/handers/clause/sql_where.py:12-89"]}
{"id": "C73", "title": "Grouping a statement keeps its tokens", "statement": "The tree that parse builds for a statement has exactly the statement's tokens as leaves, in their order, with their text; no token is lost, doubled or moved, every group has tokens, and no statement makes grouping raise or run forever.", "quantifier": "all token lists of any length and content, through all 25 grouping passes; all texts through parse", "why_tests_cant": "The passes rewrite lists while iterating over copies of them and work on tokens that earlier steps have moved into groups; whether indices stay right depends on every combination of neighbours, of which there are unboundedly many.", "anchors": ["scheduler/compile/parse/engine/grouping.py:12-455", "scheduler/compile/parse/sql.py:307-335", "scheduler/compile/parse/utils.py:63-102"]}
{"id": "C74", "title": "Brackets are grouped as they are nested", "statement": "Each opening bracket of a statement is grouped with the closing bracket that belongs to it, with all that is between them; brackets without a partner stay tokens; a group in brackets begins and ends with its brackets.", "quantifier": "all texts of any nesting depth, balanced or not, for parentheses, square brackets, CASE, IF, FOR and BEGIN", "why_tests_cant": "Indices are corrected by an offset after each group that was made; unbalanced and deeply nested texts of every shape have to be considered.", "anchors": ["scheduler/compile/parse/engine/grouping.py:16-75", "scheduler/compile/parse/sql.py:307-335"]}
{"id": "C75", "title": "The parser reads the tokens of the statement from its tree", "statement": "Flattening the tree of a statement gives the tokens of the lexer in their order, names that begin with digits being one token; reading them never raises.", "quantifier": "all statements", "why_tests_cant": "Depends on the shape of the tree that 25 passes build for an arbitrary statement; an empty group or a group with a token type would raise or hide tokens.", "anchors": ["scheduler/compile/parser.py:1012-1057"]}
{"id": "C76", "title": "The type of a statement is found whatever its literals contain", "statement": "A statement whose parentheses outside of literals are balanced is classified by its first word: quotes, parentheses, keywords and escapes inside its literals and quoted names neither change the type nor make the parser raise.", "quantifier": "all statements of characters of any length, any literals, any blanks before the first word", "why_tests_cant": "The text passes a rewriting of quotes by regular expressions, 47 regular expressions with backtracking and look-behind, and a count of parentheses; whether a parenthesis inside a literal is counted depends on how all of them see every other character of the statement.", "anchors": ["scheduler/compile/parser.py:87-124", "scheduler/compile/parser.py:126-181", "scheduler/compile/parser.py:934-977", "scheduler/compile/parse/keywords.py:22-97", "scheduler/compile/parse/lexer.py:28-73"]}
{"id": "C77", "title": "The proxy answers a text as the database itself does", "statement": "A statement that an unencrypted MySQL database reads and executes is, given to the proxy as the same characters, answered with the same rows, and leaves the encrypted tables holding what the unencrypted tables hold.", "quantifier": "all texts of INSERT, SELECT, UPDATE and DELETE of any length, spelling, blanks, letter case, quotes and nesting of conditions; all tables; sessions of any length", "why_tests_cant": "Two parsers of different kinds have to agree on every text, not on chosen ones, and then rewriting, encryption, formatting and decryption have to agree with execution in the clear; no finite set of statements covers the texts on which the two readers might differ.", "anchors": ["sql_parsing/sql_parser.py:66-635", "sql_parsing/__init__.py:42-83", "scheduler/handers/rewrite_hander.py:19-77", "scheduler/handers/decrypt_handler.py:14-39"]}
{"id": "C78", "title": "The frame of a window function reaches the backend as it was asked for", "statement": "For every frame clause of a window function (ROWS or RANGE, one bound or two, any numbers, any case, whitespace and comments) that MySQL accepts, the frame clause that the proxy writes for the backend after parsing is accepted too and, for every partition, every row of it and every sorting key, contains exactly the rows that the frame asked for contains.", "quantifier": "all frame clauses that MySQL accepts and all their spellings, all partitions, rows and sorting keys", "why_tests_cant": "There are infinitely many pairs of bounds, the frames that are lost lie at special values (zero, unbounded), and whether a frame is lost is seen only in results over data with rows on both sides and with equal keys.", "anchors": ["sql_parsing/windows.py:21-61", "sql_parsing/windows.py:72-107", "sql_parsing/formatting.py:206-261"]}
{"id": "C79", "title": "The generalised form of a statement tells nothing of the values in it", "statement": "For every statement, the text that the generaliser makes of it for logs contains no digit, and any two statements that differ only in their numbers and in the contents of their quoted literals have the same generalised form.", "quantifier": "all statements, all pairs of statements that differ in any number of numbers and literals of any length", "why_tests_cant": "That nothing is told is a statement about pairs of inputs; tests look at single inputs, and the leaks are in combinations (an escape within LIKE, the other kind of quotes) of rewriting steps that are right one by one.", "anchors": ["scheduler/compile/generalizator.py:17-40", "scheduler/compile/generalizator.py:42-92"]}
{"id": "C80", "title": "A join through the proxy answers what the join would answer without encryption", "statement": "For every query over several tables (separated by commas or joined by JOIN, INNER, LEFT or RIGHT JOIN, with conditions that are equalities of columns under AND and OR, any select list or *), the rows that the proxy returns from the encrypted tables are the rows the query means on the client's tables: the same pairs are joined, and NULL stands where an outer join found nothing.", "quantifier": "all queries with any number of tables, all nestings of the conditions, all contents of the tables", "why_tests_cant": "Which rows are joined depends on equality of ciphertexts of columns of different tables, over any number of tables and rows; the names of the columns pass three resolutions (table list, select list, decryption) that have to agree for every query.", "anchors": ["scheduler/handers/clause/sql_from.py:13-55", "scheduler/handers/clause/sql_where.py:21-38", "scheduler/handers/clause/sql_select.py:20-101", "scheduler/handers/clause/utils.py:23-41", "scheduler/handers/decrypt_handler.py:14-78"]}
{"id": "C81", "title": "A query with DISTINCT, aggregates, GROUP BY, HAVING, ORDER BY and LIMIT answers what it would answer without encryption", "statement": "For every query of one table with these clauses, the answers that the proxy can return from the encrypted table are exactly the answers that the query can have on the client's table: the same groups, the same counts, greatest and least values, the same rows kept by HAVING, left out by DISTINCT and cut by LIMIT, in an order that ORDER BY allows.", "quantifier": "all queries with any number of items and any combination of the clauses, all conditions, all contents of the table, all orders of texts", "why_tests_cant": "Each clause is rewritten (or not) by itself, but what an answer is depends on all of them together and on which rows are equal and which comes first among the ciphertexts; a lost DESC is seen only where LIMIT or the order matters.", "anchors": ["scheduler/handers/clause/__init__.py:11-29", "scheduler/handers/clause/function.py:4-13", "scheduler/handers/clause/sql_select.py:14-135", "scheduler/handers/rewrite_hander.py:19-77", "scheduler/handers/decrypt_handler.py:14-78"]}
{"id": "C82", "title": "Taking the comments out of a text keeps everything else", "statement": "For every text, `format(sql, strip_comments=True)` ends without an error, leaves no comment, keeps every token that is neither comment nor blank as it is and in its order, keeps two words apart that a blank or a comment set apart, and changes no string literal; and it takes out exactly what the database takes for a comment.", "quantifier": "all texts, all positions of comments, all nestings of groups", "why_tests_cant": "Whether a blank takes the place of a comment depends on the neighbours of the comment inside its group, and the groups are made by a series of passes over the tree; the texts that go wrong need a comment at the seam of two groups.", "anchors": ["scheduler/compile/generalizator.py:42-51", "scheduler/compile/parse/filters/others.py:15-57", "scheduler/compile/parse/filters/others.py:133-137", "scheduler/compile/parse/utils.py:21-52", "scheduler/compile/parse/engine/filter_stack.py:25-44", "scheduler/compile/parse/formatter.py:157-159"]}
{"id": "C83", "title": "Nested data keep what is stored under a path", "statement": "For every nested data and every dotted key, a value stored under the key is found under it afterwards and nothing changes under keys that lead elsewhere; for every nested data, the leaves with their keys make the same data again and every leaf is found under its key; and for any two paths, the path of the first relative to the second, followed from the second, leads to the first.", "quantifier": "all nested data (dicts, lists, atoms of any kind), all keys with any number of names and escaped dots, all pairs of paths", "why_tests_cant": "Keys are escaped, split, made literal and split again by four functions that treat the escapes differently; whether they agree depends on dots, backslashes and missing or null values at any depth.", "anchors": ["dots/datas.py:100-129", "dots/datas.py:131-173", "dots/datas.py:416-442", "dots/nones.py:213-226", "dots/nones.py:250-293", "dots/__init__.py:194-204", "dots/__init__.py:228-247", "dots/__init__.py:602-650"]}
{"id": "C84", "title": "A table created through the proxy can be used as declared", "statement": "For every CREATE TABLE text and every choice of columns to encrypt, the proxy reads the declared columns, asks the backend for a table that the backend accepts, and from then on every statement on the table whose values fit the declared columns is accepted by the backend and answered as a database without encryption would answer; creating other tables does not change this.", "quantifier": "all sessions of CREATE TABLE texts and statements in any order, all numbers of tables, columns and rows, all random names that differ", "why_tests_cant": "Whether the rewritten table is accepted depends on the sizes of all ciphertexts together, on keys and options, and whether later values fit depends on the ciphers; the failures appear only with certain types, options or many columns.", "anchors": ["scheduler/handers/table.py:12-148", "scheduler/schema/metadata.py:44-78", "sql_parsing/sql_parser.py:529-546", "sql_parsing/types.py:37-218"]}
{"id": "C85", "title": "The values and the limit the parser reports are those of the statement", "statement": "For every INSERT with a list of values, `Parser.values` are the values of the literals, in their order and telling the rows apart, and `values_dict` pairs each column with its value; for every query, `limit_and_offset` is the limit and the offset MySQL applies to the whole query, and none if it has none.", "quantifier": "all statements, all numbers of rows, columns and values, all literals, all places of numbers before the limit", "why_tests_cant": "The tokens are read with one flag for the last keyword and one for the punctuation before; which statements this mistakes depends on everything between the keyword and the value, and no list of statements shows that all others are read right.", "anchors": ["scheduler/compile/parser.py:126-181", "scheduler/compile/parser.py:188-232", "scheduler/compile/parser.py:376-403", "scheduler/compile/parser.py:564-602", "scheduler/compile/token.py:31-44", "scheduler/compile/token.py:164-173", "scheduler/compile/token.py:329-337"]}
{"id": "C86", "title": "A query is read as the columns, tables, joins, condition, groups, order and limits it spells, and answered as such", "statement": "For every query text of the form SELECT [DISTINCT] items FROM tables [joins] [WHERE c] [GROUP BY keys] [HAVING c] [ORDER BY keys] [LIMIT n [OFFSET m] | LIMIT m, n] - with any gaps and comments that SQL allows between its tokens, any case of the keywords and any spelling of names, numbers and strings - parse_mysql returns the parts that the text spells, each in its entry and in order; and the rewritten query has the answers of the query over the client's own tables.", "quantifier": "all environments, all texts with a derivation in the grammar of queries (unbounded lists of items, tables, joins, keys and nested expressions), all stored tables, all previous statements", "why_tests_cant": "Tests parse a few queries without comments; the number of spellings and of combinations of clauses is unbounded.", "anchors": ["sql_parsing/sql_parser.py:279-313", "sql_parsing/sql_parser.py:365-406", "sql_parsing/sql_parser.py:448-473", "sql_parsing/utils.py:361-373", "sql_parsing/utils.py:497-525", "sql_parsing/keywords.py:130-144", "scheduler/handers/rewrite_hander.py:27-77"]}
{"id": "C87", "title": "A column left out of an INSERT is NULL, and stays NULL through the proxy until it is set", "statement": "For every session of INSERT, SELECT, UPDATE and DELETE texts in which columns may be left out of an INSERT, the proxy and its backend answer what a database without encryption would answer: the columns left out are NULL in every row that is shown, a comparison with NULL selects no row whatever the operator, and NULL can be stored, tested for and replaced by a value.", "quantifier": "all sessions, all tables with any number of columns, all choices of columns left out, all conditions of any depth, all values that fit the columns", "why_tests_cant": "An encrypted column is stored as several backend columns, each of which must be NULL and must stay NULL under every later statement; which of them a condition reads depends on its operator, and no fixed list of sessions covers every set of columns left out with every condition.", "anchors": ["scheduler/handers/clause/sql_columns.py:8-17", "scheduler/handers/clause/sql_values.py:9-33", "scheduler/handers/clause/sql_where.py:12-54", "scheduler/handers/decrypt_handler.py:20-78", "scheduler/handers/rewrite_hander.py:19-77"]}
{"id": "C88", "title": "A LIKE search through the proxy finds exactly the rows the pattern matches", "statement": "For every session of INSERT, SELECT, UPDATE and DELETE texts in which WHERE may be a LIKE search, the rows that a LIKE search shows, changes or deletes through the proxy are those whose values match the pattern that the client wrote, whether or not the searched column is encrypted.", "quantifier": "all sessions, all tables, all patterns with any number of words and percent signs, all stored texts and numbers", "why_tests_cant": "The words of the pattern and the stored values are cut in pieces and encrypted separately, the pattern is sent as text through the formatter and read again by the backend; whether a search misses or adds rows depends on which characters both sides contain, which examples of one kind do not show.", "anchors": ["scheduler/handers/clause/sql_where.py:45-50", "scheduler/handers/clause/sql_where.py:72-84", "scheduler/crypto/encrypt.py: FuzzyCipher.encrypt", "scheduler/handers/rewrite_hander.py:19-77"]}
{"id": "C89", "title": "Choosing by lookup table gives the alternative that trying them in order gives", "statement": "When the parsing library replaces a list of alternatives by a table from first characters to parsers, the choice made with the table is the one made without it: MatchFirst answers what the first alternative that succeeds answers, and Or finds the longest match of all alternatives.", "quantifier": "for every list of alternatives, every set of first words, every text and every behaviour of the parsers", "why_tests_cant": "The table merges keys that begin with one another, cuts them as short as they stay apart and looks the text up in lower case; whether an alternative is missed or overtaken depends on the whole list of first words and on the case rules of every character.", "anchors": ["parsing/expressions.py:567-612", "parsing/expressions.py:615-625", "parsing/expressions.py:628-702", "parsing/expressions.py:502-514", "parsing/expressions.py:372-409", "parsing/utils.py:101-110", "sql_parsing/keywords.py:159-224", "sql_parsing/types.py:104-143"]}
{"id": "C90", "title": "NULL written in a statement means NULL", "statement": "A session of statements that write NULL - UPDATE ... SET c = NULL, WHERE c IS NULL, WHERE c IS NOT NULL, NULL among the values of an INSERT, a comparison with NULL - is answered through the proxy as by a database without encryption, and leaves the same contents.", "quantifier": "for every session of INSERT, UPDATE, SELECT and DELETE statements in every spelling, every number of columns set, every table contents and schema", "why_tests_cant": "A comparison with NULL is true of no row, so a statement with one changes nothing on a database; that the parser turns it into IS NULL shows only in tables that have NULLs. An encrypted column is named by its client name in IS NULL, which fails at the backend only.", "anchors": ["sql_parsing/utils.py:158-187", "sql_parsing/__init__.py:75-83", "sql_parsing/formatting.py:184-185", "sql_parsing/formatting.py:297-301", "scheduler/handers/clause/sql_set.py", "scheduler/handers/clause/sql_where.py:30-84"]}
{"id": "C91", "title": "A query over an alias or a subquery is answered as the query says", "statement": "A SELECT whose FROM is a table with an alias, or a subquery with an alias, or a subquery of a subquery, is answered through the proxy as by a database without encryption: the proxy accepts it and the decrypted rows are the rows that the query has on the plain tables.", "quantifier": "for every depth of subqueries, every select list, alias, condition, grouping, order and LIMIT in every layer, every table contents and schema", "why_tests_cant": "Each layer is rewritten by a recursive call that looks the stored table up through nested dicts; which column a name stands for, which key decrypts it and whether the next layer still finds the columns depend on the form of every layer below.", "anchors": ["scheduler/handers/rewrite_hander.py:54-66", "scheduler/handers/rewrite_hander.py:79-115", "scheduler/handers/clause/utils.py:2-41", "scheduler/handers/clause/sql_select.py:20-52", "scheduler/handers/clause/sql_select.py:88-101", "scheduler/handers/clause/sql_where.py:12-46", "scheduler/handers/clause/function.py:8-13", "scheduler/handers/decrypt_handler.py:64-73"]}
{"id": "C92", "title": "The patterns that the parsing library writes match what its parsers match", "statement": "Every regular expression that the parsing library writes for one of its parsers - a set of characters, a word, a literal, a keyword, a sequence, a choice, a repetition, a lookahead - is read by re.compile as the composition of the patterns of the elements and matches where the parser finds something and only there; in particular ~e refuses exactly the texts in which e is found.", "quantifier": "for every parser built of characters, literals, keywords, sequences, choices, repetitions and lookaheads in any nesting, every set of characters and every text", "why_tests_cant": "The pattern is text: whether a group, an escape or a sign of repetition is missing depends on the nesting and on the characters, and the pattern tries again where the parser does not; the difference shows only for particular nestings and texts.", "anchors": ["parsing/utils.py:77-148", "parsing/tokens.py:177-228", "parsing/tokens.py:334-458", "parsing/tokens.py:461-531", "parsing/expressions.py:252-308", "parsing/expressions.py:473-562", "parsing/enhancement.py:105-197", "parsing/enhancement.py:200-371", "parsing/core.py:567-613", "sql_parsing/keywords.py:159-225", "sql_parsing/sql_parser.py:78"]}
{"id": "C93", "title": "A parser is tried wherever it can match", "statement": "What a parser of the parsing library says it is expecting covers what it matches: if it names first characters at all, every text on which it succeeds begins with one of them, and it takes at least as many characters as its min_length says. For Regex parsers, which match by Python's expression and say what they expect by a parser read from the same pattern, the two agree.", "quantifier": "for every parser built of characters, literals, keywords, sequences, choices, repetitions and lookaheads, every pattern, and every text", "why_tests_cant": "The keys only matter in lists of four and more alternatives, and there a parser that is missing from the table fails silently; whether the two readings of a pattern agree depends on the characters, the repetitions and the script of the digits in it.", "anchors": ["parsing/regex.py:54-77", "parsing/regex.py:100-138", "parsing/regex.py:141-259", "parsing/regex.py:267-368", "parsing/core.py:427-443", "parsing/expressions.py:54-72", "parsing/expressions.py:230-246", "parsing/expressions.py:491-496", "parsing/enhancement.py:61-68", "parsing/enhancement.py:185-189", "parsing/enhancement.py:240-243", "parsing/tokens.py:445-449", "sql_parsing/utils.py:30", "sql_parsing/utils.py:592-617"]}
{"id": "C94", "title": "Queries combined by UNION, INTERSECT, EXCEPT and MINUS keep their meaning", "statement": "A query combined from others by set operations - with parentheses, WITH clauses, ORDER BY, LIMIT, OFFSET and FETCH at any level - is parsed to a result that means what the text means, and the text the formatter writes for that result is the text of a query with the same meaning.", "quantifier": "for every query of any number of operands nested to any depth, every choice of operations and clauses, and every meaning of the SELECTs and operations", "why_tests_cant": "Whether the grouping of the operands is kept shows only when the operations do not commute and the rows of the operands overlap in particular ways; clauses are lost for particular combinations of values and positions (LIMIT 0, FETCH, a tail after parentheses).", "anchors": ["sql_parsing/sql_parser.py:448-486", "sql_parsing/utils.py:497-525", "sql_parsing/utils.py:550-558", "sql_parsing/formatting.py:66-88", "sql_parsing/formatting.py:109-128", "sql_parsing/formatting.py:153-157", "sql_parsing/formatting.py:166-197", "sql_parsing/formatting.py:268-292", "sql_parsing/formatting.py:456-499", "sql_parsing/formatting.py:531-549", "sql_parsing/formatting.py:580-582", "sql_parsing/keywords.py:283-291"]}
{"id": "C95", "title": "What is read from a parse result agrees with what is in it", "statement": "The ways to read a parse result agree: a name is in the result exactly if it is among its keys and exactly if reading it gives something, the items are the named parts, the result is true exactly if iterating it or its items yields something, as_list gives the values iterated over, and after a name is set or deleted reading it gives the new value or nothing while all else is as before.", "quantifier": "for every result: tokens, groups, forwards and annotations nested to any depth, and every name and value", "why_tests_cant": "The ways agree on flat results, which tests use; they differ for particular nestings (a forward around a group or a named expression, an empty named group, a value that is 0).", "anchors": ["parsing/results.py:43-58", "parsing/results.py:60-78", "parsing/results.py:80-106", "parsing/results.py:136-151", "parsing/results.py:155-164", "parsing/results.py:166-170", "parsing/results.py:187-206", "parsing/results.py:220-223", "parsing/results.py:276-315", "parsing/results.py:339-362", "parsing/results.py:365-378"]}
{"id": "C96", "title": "Repetition ends, and takes every repetition there is", "statement": "Many, ZeroOrMore and OneOrMore end on every text; they match the element as often as it is there, up to the bound, from the start of the first to the end of the last, and fail exactly if it is there too seldom; ZeroOrMore and Optional never fail.", "quantifier": "for every element (any function from positions to results), every text length, skipping of whitespace, bounds and start position", "why_tests_cant": "That the loop does not end needs an element that matches nothing at a position before the end of the text; whether a repetition is counted depends on whether anything of it is kept in the result.", "anchors": ["parsing/enhancement.py:249-312", "parsing/enhancement.py:390-408", "parsing/enhancement.py:411-434", "parsing/enhancement.py:458-465", "parsing/enhancement.py:849-875", "parsing/results.py:136-151"]}
{"id": "C97", "title": "The pattern for white space and comments matches exactly them, and its cache changes nothing", "statement": "Before a token the parser's pattern for white space and comments matches all of them and nothing else: what is left is the one text that follows them and begins with neither, whatever backtracking does; positions only go forward; and the cache of positions never changes an answer.", "quantifier": "for every text, every position, and every sequence of calls on any texts and positions", "why_tests_cant": "The pattern nests repetitions and a lazy repetition, so its match depends on the order of backtracking over the whole rest of the text; a wrong entry of the cache shows only for particular orders of texts and positions.", "anchors": ["parsing/whitespaces.py:106-126", "parsing/whitespaces.py:137-162", "parsing/whitespaces.py:164-173", "sql_parsing/sql_parser.py:73-76", "parsing/helpers.py:789-790", "parsing/enhancement.py:503-509", "parsing/expressions.py:307-308"]}
{"id": "C98", "title": "Every part of a statement is rewritten before it is sent", "statement": "The rewriter goes through every part of a parsed statement in which tables, columns or literals can be named: every clause (also GROUP BY, HAVING, WITH, windows), every operand of a set operation, and every query nested in a condition; what it does not know it refuses rather than sending it in clear or dropping it.", "quantifier": "for every parse result, every catalogue, every nesting, and all ciphers", "why_tests_cant": "The rewriter looks only for a fixed list of keys; whatever stands under another key is sent as parsed, without an error, and tests see only the keys they use. Whether a part is reached depends on the key, the operator and the shape of the value.", "anchors": ["scheduler/handers/rewrite_hander.py:31-77", "scheduler/handers/clause/__init__.py:11-38", "scheduler/handers/clause/sql_where.py:12-89", "scheduler/handers/clause/sql_from.py:13-43"]}
{"id": "C99", "title": "Formatting a statement changes its layout and nothing else", "statement": "Each option of format changes only what it is for: changing the case of words changes letters only, blanks around operators and fewer blanks change white space only and separate what was separated, cutting a literal leaves a literal, and the statement written as a literal of Python is read by Python as the statement.", "quantifier": "for every list and tree of tokens, every width and mark, every function that changes case", "why_tests_cant": "The filters work token by token and list by list; whether an operator is one token or two, whether a line break ends a comment, whether a cut falls into a doubled quote and whether a quote stands behind a backslash shows only for particular texts.", "anchors": ["scheduler/compile/parse/filters/tokens.py:11-59", "scheduler/compile/parse/filters/others.py:60-127", "scheduler/compile/parse/filters/output.py:12-75", "scheduler/compile/parse/formatter.py:132-198", "scheduler/compile/parse/engine/filter_stack.py:25-44", "scheduler/compile/parse/sql.py:359-375"]}
{"id": "C100", "title": "Of several words the longest that is there is taken, in whatever order they are given", "statement": "one_of puts words in an order in which none hides a longer one, whatever order they are given in: it ends for every list of words, and the parser it makes finds a word exactly if one of them is there, and then the longest; with caseless, whatever the case of the letters.", "quantifier": "for every list of words, every text, every function that folds case", "why_tests_cant": "A word hidden by its own beginning shows only when both are given, in the wrong order, and the longer one is in the text; a loop that inserts while it iterates may not end for particular lists.", "anchors": ["parsing/infix.py:46-121", "parsing/tokens.py:112-175", "parsing/tokens.py:176-268"]}
{"id": "C101", "title": "An expression written by the second SQL formatter is read again as the same expression", "statement": "For every expression the text written by the formatter of scheduler/lex_module/lacquer is read by its own grammar as that expression, two different expressions have different texts, a sort item keeps its direction and its order of nulls, and a set operation is written.", "quantifier": "for every expression built from null, numbers, strings, names, signs, arithmetic, comparisons, and, or, not, is null, between and like, every sort item, every list of relations", "why_tests_cant": "Whether text is read again depends on how operators are nested: one comparison after WHERE works, two joined by AND do not; a sign or a quote changes the value without an error.", "anchors": ["scheduler/lex_module/lacquer/formatter/formatter.py:24-289", "scheduler/lex_module/lacquer/formatter/formatter.py:499-518", "scheduler/lex_module/lacquer/formatter/formatter.py:817-851", "scheduler/lex_module/lacquer/parsers/parser.py:95-112", "scheduler/lex_module/lacquer/parsers/parser.py:415-604"]}
{"id": "C102", "title": "A statement of the second SQL grammar keeps its limit, its joins and its columns", "statement": "Reading a statement with the grammar of scheduler/lex_module/lacquer and writing it again keeps its LIMIT or TOP, the kind of each join and its condition, and its columns, so that the statement written asks for the same rows.", "quantifier": "for every TOP and LIMIT, every spelling of the words of a join, every condition, every list of columns, every table", "why_tests_cant": "A lost limit or an outer join read as an inner join gives an answer of the right form that is wrong only for tables large enough or rows without a partner.", "anchors": ["scheduler/lex_module/lacquer/parsers/parser.py:35-63", "scheduler/lex_module/lacquer/parsers/parser.py:195-227", "scheduler/lex_module/lacquer/parsers/parser.py:330-370", "scheduler/lex_module/lacquer/tree/query_specification.py:18-28", "scheduler/lex_module/lacquer/tree/select_item.py:24-33", "scheduler/lex_module/lacquer/formatter/formatter.py:374-449"]}
{"id": "C103", "title": "Text is skipped up to the first place where the expression is", "statement": "SkipTo ends for every text, finds the first place at or after the start where its expression matches, fails exactly if there is none, and does not match if what fail_on gives is found before the expression.", "quantifier": "for every text, every start, every expression, every fail_on and ignore", "why_tests_cant": "Whether fail_on is obeyed shows only in texts in which it is found before the expression; a loop that may not end cannot be found by running it on examples.", "anchors": ["parsing/enhancement.py:474-564", "sql_parsing/sql_parser.py:76"]}
{"id": "C104", "title": "Looking back matches exactly what ends at the place", "statement": "PrecededBy matches at a place exactly if its expression matches a text that ends at that place and begins at most retreat characters before it; it does not move the place, and it has a regular expression.", "quantifier": "for every text, every place, every expression and every retreat", "why_tests_cant": "Whether the text found ends at the place shows only where white space or line breaks are between them; that retreat is a bound shows only in texts longer than it.", "anchors": ["parsing/enhancement.py:878-946", "parsing/expressions.py:252-284", "parsing/tokens.py:694-715"]}
{"id": "C105", "title": "All matches in a text are found, once and in order", "statement": "scan_string ends, gives matches only and no more than max_matches, gives each match once and in order, misses none that lies outside of those given, and with overlap=True also gives each match once; the parts of split with their separators are the text, and transform_string with matches that keep their text returns it.", "quantifier": "for every text, every parser, every kind of white space and every max_matches", "why_tests_cant": "That a match is given twice shows only where an empty match, or with overlap any match, follows white space; termination and completeness are statements about all texts.", "anchors": ["parsing/core.py:179-195", "parsing/core.py:221-239", "parsing/core.py:284-291"]}
