{
 "claims": [
  {
   "property": "C01",
   "status": "proved",
   "theorems": [
    "EulerDB.Ope.C01_ope_order_preserving",
    "EulerDB.Ope.C01_ope_le_eq",
    "EulerDB.Ope.C01_ope_in_range"
   ],
   "note": "for every key (any bit tape, any sampler) and all ranges"
  },
  {
   "property": "C02",
   "status": "proved",
   "theorems": [
    "EulerDB.Ope.C02_ope_decrypt_iff_encrypt",
    "EulerDB.Ope.C02_ope_decrypt_rejects"
   ],
   "note": "decrypt c = m iff encrypt m = c; otherwise an exception"
  },
  {
   "property": "C03",
   "status": "proved",
   "theorems": [
    "EulerDB.Ope.C03_ope_total",
    "EulerDB.Ope.C03_sampler_errors",
    "EulerDB.Ope.C03_ope_rejects_outside",
    "EulerDB.Ope.C03_zero_draw_raises"
   ],
   "note": "totality up to the exceptions of the sampler's float loop, which are listed and shown real"
  },
  {
   "property": "C04",
   "status": "partial",
   "theorems": [
    "EulerDB.Ope.C04_fails_ope_is_identity",
    "EulerDB.Ope.C04_fails_key_irrelevant",
    "EulerDB.Ope.C04_larger_range_depends_on_key_partial"
   ],
   "note": "the property is false of the code: the negation is proved (OPECipher is the identity for every key). C04_larger_range_depends_on_key_partial shows what a larger output range would give"
  },
  {
   "property": "C05",
   "status": "partial",
   "theorems": [
    "EulerDB.Aes.C05_aes_roundtrip_exact",
    "EulerDB.Aes.C05_aes_roundtrip_partial",
    "EulerDB.Aes.C05_fails_trailing_nul"
   ],
   "note": "exact result proved for all strings (the string without trailing NULs); the property holds iff the string does not end in NUL, and is refuted for the others"
  },
  {
   "property": "C06",
   "status": "partial",
   "theorems": [
    "EulerDB.Aes.C06_equal_ciphertexts_iff",
    "EulerDB.Aes.C06_equality_search_exact_partial",
    "EulerDB.Aes.C06_fails_collision",
    "EulerDB.Aes.C06_empty_string"
   ],
   "note": "exact collision condition proved; holds for strings not ending in NUL, refuted by x / x+NUL. Equality in the backend is taken as binary equality of ciphertexts"
  },
  {
   "property": "C07",
   "status": "partial",
   "theorems": [
    "EulerDB.Aes.C07_width_sufficient_bytes_partial",
    "EulerDB.Aes.C07_width_sufficient_ascii_partial",
    "EulerDB.Aes.C07_char_width_legal",
    "EulerDB.Aes.C07_fails_multibyte"
   ],
   "note": "holds for values of at most t UTF-8 bytes (all ASCII values); refuted for every t >= 5 with multi-byte characters"
  },
  {
   "property": "C08",
   "status": "partial",
   "theorems": [
    "EulerDB.Fuzzy.C08_pattern_accepted_iff",
    "EulerDB.Fuzzy.C08_no_false_negatives_partial",
    "EulerDB.Fuzzy.C08_fails_mixed",
    "EulerDB.Fuzzy.C08_fails_hello_world"
   ],
   "note": "proved for any number of words when the stored text is alphanumeric or no word is; refuted in all other cases (C08_fails_mixed is general)"
  },
  {
   "property": "C09",
   "status": "partial",
   "theorems": [
    "EulerDB.Fuzzy.C09_no_false_positives_partial",
    "EulerDB.Fuzzy.C09_every_word_occurs_partial",
    "EulerDB.Fuzzy.C09_fails_overlap"
   ],
   "note": "proved for one word; for several words every word occurs; refuted by overlapping words"
  },
  {
   "property": "C10",
   "status": "proved",
   "theorems": [
    "EulerDB.Codec.C10_float_roundtrip_error",
    "EulerDB.Codec.C10_float_roundtrip_exact",
    "EulerDB.Codec.C10_float_monotone"
   ],
   "note": "exact rational arithmetic in place of IEEE doubles"
  },
  {
   "property": "C11",
   "status": "partial",
   "theorems": [
    "EulerDB.Codec.C11_double_roundtrip_partial",
    "EulerDB.Codec.C11_fails_large"
   ],
   "note": "proved for |v| <= 1000, refuted for every 1001 <= |v| <= 10^65 (the stretched value is decoded without unstretching the truncation error)"
  },
  {
   "property": "C12",
   "status": "partial",
   "theorems": [
    "EulerDB.Codec.C12_stretch_total",
    "EulerDB.Codec.C12_stretch_odd",
    "EulerDB.Codec.C12_stretch_strictMono",
    "EulerDB.Codec.C12_inverse_partial",
    "EulerDB.Codec.C12_fails_negative"
   ],
   "note": "totality, oddness and strict monotonicity proved; inverse_stretch inverts stretch except below -10^15, where it is refuted"
  },
  {
   "property": "C13",
   "status": "proved",
   "theorems": [
    "EulerDB.Paillier.C13_encrypt_accepts",
    "EulerDB.Paillier.C13_sum",
    "EulerDB.Paillier.C13_sum_text",
    "EulerDB.Paillier.C13_empty",
    "EulerDB.Paillier.C13_out_of_range"
   ],
   "note": "for all distinct primes, random numbers, lists and row orders; phe is written out in the model (including CRT decryption); string form included. C13_out_of_range shows the range condition is needed"
  },
  {
   "property": "C14",
   "status": "proved",
   "theorems": [
    "EulerDB.Paillier.C14_single",
    "EulerDB.Paillier.C14_avg",
    "EulerDB.Paillier.C14_pair",
    "EulerDB.Paillier.C14_untagged_refused"
   ],
   "note": "all three string forms, parsed by the modelled decrypt; exact rationals in place of floats"
  },
  {
   "property": "C15",
   "status": "partial",
   "theorems": [
    "EulerDB.Paillier.C15_sum_partial",
    "EulerDB.Paillier.C15_avg_partial",
    "EulerDB.Paillier.C15_empty",
    "EulerDB.Paillier.C15_fails_null",
    "EulerDB.Paillier.C15_fails_overflow"
   ],
   "note": "proved for non-empty columns without NULL and keys whose ciphertext products fit in 65 digits; refuted for every column with a NULL beside a value and for every larger odd key"
  },
  {
   "property": "C16",
   "status": "partial",
   "theorems": [
    "EulerDB.Delta.C16_restart_partial",
    "EulerDB.Delta.C16_restart_again_partial",
    "EulerDB.Delta.C16_restart_synced_partial",
    "EulerDB.Delta.C16_fails_recreate",
    "EulerDB.Delta.C16_fails_comment"
   ],
   "note": "proved for every history in which no table is created over an existing one (any databases, any drops, any restarts in between); refuted for every re-creation under a new backend name, and for the table comment"
  },
  {
   "property": "C17",
   "status": "partial",
   "theorems": [
    "EulerDB.Delta.C17_create",
    "EulerDB.Delta.C17_create_stored_partial",
    "EulerDB.Delta.C17_drop",
    "EulerDB.Delta.C17_drop_raises",
    "EulerDB.Delta.C17_fails_collation"
   ],
   "note": "memory: proved in every state; after a restart: proved for a metadata database that compares names exactly (sqlite) and tables without leftover rows; refuted for case-insensitive comparison"
  },
  {
   "property": "C18",
   "status": "partial",
   "theorems": [
    "EulerDB.Delta.C18_fails_drop",
    "EulerDB.Delta.C18_fails_recreate",
    "EulerDB.Delta.C18_fails_silent",
    "EulerDB.Delta.C18_refused_partial"
   ],
   "note": "refuted for every refused DROP and every refused repeated CREATE of an existing table (metadata lost, success reported) and for refused INSERT/UPDATE/DELETE (success reported); proved: a refused statement touches no other table, and a refused SELECT is reported"
  },
  {
   "property": "C19",
   "status": "partial",
   "theorems": [
    "EulerDB.Delta.C19_between_statements_partial",
    "EulerDB.Delta.C19_fails_crash_create",
    "EulerDB.Delta.C19_fails_crash_drop"
   ],
   "note": "proved at every point between complete statements, accepted or refused, with reboots, for distinct backend names; refuted for a crash inside CREATE and inside DROP"
  },
  {
   "property": "C20",
   "status": "partial",
   "theorems": [
    "EulerDB.Delta.C20_fails_first_start",
    "EulerDB.Delta.C20_later_start_partial"
   ],
   "note": "proved when the proxy starts on non-empty stored metadata; refuted for every history that starts on empty metadata"
  },
  {
   "property": "C21",
   "status": "proved",
   "theorems": [
    "EulerDB.Table.C21_metadata_columns",
    "EulerDB.Table.C21_metadata_is_declared",
    "EulerDB.Table.C21_backend_columns",
    "EulerDB.Table.C21_encrypted_name_hidden",
    "EulerDB.Table.C21_backend_names_distinct",
    "EulerDB.Table.C21_primary_key_column"
   ],
   "note": "for all column lists with distinct names, all options and all random names; distinct backend names when the random names are distinct and are not declared names"
  },
  {
   "property": "C22",
   "status": "proved",
   "theorems": [
    "EulerDB.Table.C22_accepts_exactly",
    "EulerDB.Table.C22_documented_types_accepted",
    "EulerDB.Table.C22_other_types_rejected",
    "EulerDB.Table.C22_recorded_iff_rewritten"
   ],
   "note": "acceptance characterised exactly for tables without constraints, and for PRIMARY KEY constraints over declared columns; every other encrypted type is refused with the metadata unchanged"
  },
  {
   "property": "C23",
   "status": "partial",
   "theorems": [
    "EulerDB.Clause.C23_insert_aligned_partial",
    "EulerDB.Clause.C23_same_length_partial",
    "EulerDB.Clause.C23_fails_extra_values_dropped",
    "EulerDB.Clause.C23_fails_sm4_none",
    "EulerDB.Clause.C23_fails_single_column"
   ],
   "note": "for accepted INSERTs of known ciphers and typed values the columns and values are aligned and of the same length; refuted for surplus values, sm4 columns and one-column INSERTs"
  },
  {
   "property": "C24",
   "status": "partial",
   "theorems": [
    "EulerDB.Clause.C24_single_row_encrypted_partial",
    "EulerDB.Clause.C24_fails_multi_row",
    "EulerDB.Clause.C24_fails_multi_row_accepted"
   ],
   "note": "single-row INSERTs send only ciphertexts for encrypted columns; multi-row INSERTs are sent in clear"
  },
  {
   "property": "C25",
   "status": "partial",
   "theorems": [
    "EulerDB.Clause.C25_null_result",
    "EulerDB.Clause.C25_null_row",
    "EulerDB.Clause.C25_float_partial",
    "EulerDB.Clause.C25_insert_then_select_partial",
    "EulerDB.Clause.C25_insert_accepted_partial",
    "EulerDB.Clause.C25_insert_then_select_star_partial",
    "EulerDB.Clause.C25_fails_null",
    "EulerDB.Clause.C25_fails_eval"
   ],
   "note": "INSERT then SELECT (by name and by *) returns the inserted integers and texts for every table of plain names; refuted for NULL and for texts in int columns (eval)"
  },
  {
   "property": "C26",
   "status": "partial",
   "theorems": [
    "EulerDB.Clause.C26_statement_where_partial",
    "EulerDB.Clause.C26_delete_partial",
    "EulerDB.Clause.C26_where_meaning_partial",
    "EulerDB.Clause.C26_fails_range_not_int",
    "EulerDB.Clause.C26_inserted_row_holds_partial",
    "EulerDB.Clause.C26_insert_then_where_partial"
   ],
   "note": "conditions of any depth over =, <, <=, >, >= with AND/OR on int and text columns; refuted for ranges over columns that are not int"
  },
  {
   "property": "C27",
   "status": "partial",
   "theorems": [
    "EulerDB.Clause.C27_statement_where_partial",
    "EulerDB.Clause.C27_only_ciphertexts_partial",
    "EulerDB.Clause.C27_like_partial",
    "EulerDB.Clause.C27_fails_other_operators",
    "EulerDB.Clause.C27_fails_range_not_int",
    "EulerDB.Clause.C27_fails_quoted_number"
   ],
   "note": "for the same conditions and LIKE everything sent is characterised; refuted for every other operator, for ranges over columns that are not int and for quoted numbers"
  },
  {
   "property": "C28",
   "status": "partial",
   "theorems": [
    "EulerDB.Clause.C28_update_like_insert_partial",
    "EulerDB.Clause.C28_no_other_column_partial",
    "EulerDB.Clause.C28_fails_other_ciphers",
    "EulerDB.Clause.C28_fails_float_literal",
    "EulerDB.Clause.C28_fails_quoted_number",
    "EulerDB.Clause.C28_fails_percent",
    "EulerDB.Clause.C28_fails_float_column"
   ],
   "note": "UPDATE writes to every symmetric, order-preserving and fuzzy column what INSERT writes, for integers in int columns and texts without %; refuted for other ciphers, float literals and columns, quoted numbers and texts with %"
  },
  {
   "property": "C29",
   "status": "partial",
   "theorems": [
    "EulerDB.Clause.C29_order_partial",
    "EulerDB.Clause.C29_fails_direction_dropped",
    "EulerDB.Clause.C29_fails_wrong_order",
    "EulerDB.Clause.C29_fails_several_keys",
    "EulerDB.Clause.C29_fails_no_cipher"
   ],
   "note": "ascending order over encrypted int columns and any direction over plaintext columns; refuted for DESC over encrypted columns, several sort keys and columns without the cipher"
  },
  {
   "property": "C30",
   "status": "partial",
   "theorems": [
    "EulerDB.Clause.C30_max_min_partial",
    "EulerDB.Clause.C30_max_is_max_partial",
    "EulerDB.Clause.C30_select_list_aligned_partial",
    "EulerDB.Clause.C30_select_one_aligned_partial",
    "EulerDB.Clause.C30_fails_count_column",
    "EulerDB.Clause.C30_fails_literal",
    "EulerDB.Clause.C30_fails_add_alone",
    "EulerDB.Clause.C30_fails_add_names",
    "EulerDB.Clause.C30_fails_add_encrypted"
   ],
   "note": "Proved for select lists of plain columns, functions over a column and count(*): names, types and ciphers line up with the columns returned. False for count(column), literals and arithmetic (C30_fails_*)."
  },
  {
   "property": "C31",
   "status": "partial",
   "theorems": [
    "EulerDB.Clause.C31_statement_table_partial",
    "EulerDB.Clause.C31_drop_partial",
    "EulerDB.Clause.C31_from_partial",
    "EulerDB.Clause.C31_from_one_partial",
    "EulerDB.Clause.C31_fails_value_in_table_name",
    "EulerDB.Clause.C31_fails_using_dropped",
    "EulerDB.Clause.C31_fails_other_joins_dropped",
    "EulerDB.Clause.C31_fails_joined_alias",
    "EulerDB.Clause.C31_fails_qualified_column",
    "EulerDB.Clause.C31_fails_other_clauses",
    "EulerDB.Clause.C31_fails_alias",
    "EulerDB.Table.C31_key_constraint_own_names"
   ],
   "note": "INSERT/UPDATE/DELETE/ALTER/DROP, FROM with any number of listed tables or tables joined on equalities, CREATE TABLE key constraints; refuted for table names containing \"value\", USING, other join kinds, joined aliases, qualified columns of one table, select aliases, GROUP BY and other clauses"
  },
  {
   "property": "C32",
   "status": "partial",
   "theorems": [
    "EulerDB.Clause.C32_fails_primary_key",
    "EulerDB.Clause.C32_fails_foreign_key",
    "EulerDB.Clause.C32_fails_reference_table",
    "EulerDB.Clause.C32_drop_primary_key_partial",
    "EulerDB.Clause.C32_drop_foreign_key_partial",
    "EulerDB.Clause.C32_drop_index_partial",
    "EulerDB.Clause.C32_fails_index_column"
   ],
   "note": "refuted: every ADD PRIMARY KEY and ADD FOREIGN KEY raises, the referenced table becomes the altered table, index columns are sent under their logical names; proved only for DROP PRIMARY KEY, DROP FOREIGN KEY and DROP INDEX"
  },
  {
   "property": "C33",
   "status": "partial",
   "theorems": [
    "EulerDB.Web.C33_own_query_partial",
    "EulerDB.Web.C33_no_aggregate",
    "EulerDB.Web.C33_sent_stable",
    "EulerDB.Web.C33_fails_exchanged",
    "EulerDB.Web.C33_fails_error"
   ],
   "note": "False: the statement record of inject_procedure is shared, so two interleaved requests can send each other statements (C33_fails_exchanged) or fail (C33_fails_error). Proved: a request whose parse and read are not interleaved sends its own statement whatever others did before; statements without aggregates never use the record."
  },
  {
   "property": "C34",
   "status": "partial",
   "theorems": [
    "EulerDB.Web.C34_own_query_partial",
    "EulerDB.Web.C34_like_one_step_partial",
    "EulerDB.Web.C34_fails_same_millisecond",
    "EulerDB.Web.C34_fails_dropped",
    "EulerDB.Web.C34_fails_recreated",
    "EulerDB.Web.C34_fails_not_text",
    "EulerDB.Web.C34_unknown_id",
    "EulerDB.Web.C34_round_trip_partial"
   ],
   "note": "False: two requests in one millisecond share an id (C34_fails_same_millisecond), a table dropped or recreated between the steps changes or breaks the decoding (C34_fails_dropped, C34_fails_recreated), non-text values are refused. Proved when the id is unique and the metadata unchanged: the second step decodes exactly as a one-step query would, and inserted values come back."
  },
  {
   "property": "C35",
   "status": "partial",
   "theorems": [
    "EulerDB.Web.C35_rewritten_partial",
    "EulerDB.Web.C35_first_endpoint",
    "EulerDB.Web.C35_fails_original",
    "EulerDB.Web.C35_fails_unknown_table"
   ],
   "note": "False: on any error of the rewriter the original statement, plaintext literals included, is returned as the encrypted one (C35_fails_original, C35_fails_unknown_table). Proved when the rewriter succeeds, and for the first endpoint, which reports the error."
  },
  {
   "property": "C36",
   "status": "partial",
   "theorems": [
    "EulerDB.Web.C36_served_by_first",
    "EulerDB.Web.C36_same_key",
    "EulerDB.Web.C36_parts_partial",
    "EulerDB.Web.C36_same_server_partial",
    "EulerDB.Web.C36_own_credentials_partial",
    "EulerDB.Web.C36_first_request",
    "EulerDB.Web.C36_fails_password",
    "EulerDB.Web.C36_fails_ambiguous",
    "EulerDB.Web.C36_fails_server"
   ],
   "note": "False: the pool key has no password (C36_fails_password) and is a concatenation without separators (C36_fails_ambiguous, C36_fails_server). Proved: the pool belongs to the first request with the key; equal keys mean equal servers if host and port have fixed shapes."
  },
  {
   "property": "C37",
   "status": "partial",
   "theorems": [
    "EulerDB.Pool.C37_counter_partial",
    "EulerDB.Pool.C37_counter_dedicated",
    "EulerDB.Pool.C37_limit_dedicated",
    "EulerDB.Pool.C37_limit_partial",
    "EulerDB.Pool.C37_limit_shared_partial",
    "EulerDB.Pool.C37_idle_limit",
    "EulerDB.Pool.C37_served_below_limit",
    "EulerDB.Pool.C37_refused_at_limit",
    "EulerDB.Pool.C37_fails_shared_limit",
    "EulerDB.Pool.C37_fails_after_close",
    "EulerDB.Pool.C37_init_partial",
    "EulerDB.Pool.C37_fails_init"
   ],
   "note": "False with sharing: a limit of 2 lets three connections out (C37_fails_shared_limit), and closing the pool makes the counter negative (C37_fails_after_close); mincached > maxconnections blocks the constructor (C37_fails_init). Proved for every history: without sharing (the configuration of the application) the counter is exact and the limit holds, closing included; the idle cache limit always holds; with sharing and before closing the counter is exact and the excess is less than maxshared; requests below the limit are served and at the limit refused."
  },
  {
   "property": "C38",
   "status": "partial",
   "theorems": [
    "EulerDB.Pool.C38_dedicated_exclusive",
    "EulerDB.Pool.C38_dedicated_not_elsewhere",
    "EulerDB.Pool.C38_shared_not_idle",
    "EulerDB.Pool.C38_share_count",
    "EulerDB.Pool.C38_new_unowned",
    "EulerDB.Pool.C38_handed_out_clean",
    "EulerDB.Pool.C38_close_twice",
    "EulerDB.Pool.C38_fails_concurrent_close"
   ],
   "note": "Proved for every history of atomic pool operations: dedicated connections have one handle, are neither idle nor shared, a new handle gets a connection nobody holds and which is in no transaction, share counts equal the handles, closing twice changes nothing. False if two threads close one handle at once, because close() is not atomic (C38_fails_concurrent_close)."
  },
  {
   "property": "C39",
   "status": "partial",
   "theorems": [
    "EulerDB.Steady.C39_at_most_three",
    "EulerDB.Steady.C39_once_in_transaction",
    "EulerDB.Steady.C39_stops_after_success",
    "EulerDB.Steady.C39_exactly_once_partial",
    "EulerDB.Steady.C39_transaction_partial",
    "EulerDB.Steady.C39_fails_pending_lost",
    "EulerDB.Steady.C39_fails_deadlock",
    "EulerDB.Steady.C39_fails_executed_twice",
    "EulerDB.Steady.C39_fails_maxusage",
    "EulerDB.Steady.C39_fails_stays_in_transaction"
   ],
   "note": "Proved for every behaviour of the driver: at most three executions, none after a success, success reported iff an execution succeeded, exactly one execution inside begin/commit, such transactions are committed whole and once, and single statements exactly once if failed executions have no effect. False without begin, which the application never calls: pending statements are lost silently (C39_fails_pending_lost, _deadlock, _maxusage), a statement may be executed twice (C39_fails_executed_twice)."
  },
  {
   "property": "C40",
   "status": "partial",
   "theorems": [
    "EulerDB.Web.C40_strip",
    "EulerDB.Web.C40_query_partial",
    "EulerDB.Web.C40_fails_jdbc",
    "EulerDB.Web.C40_fails_differs",
    "EulerDB.Web.C40_fails_create_plaintext",
    "EulerDB.Web.C40_fails_empty"
   ],
   "note": "False: on /jdbc_query every statement other than CREATE TABLE raises (C40_fails_jdbc), so the two endpoints differ (C40_fails_differs); CREATE TABLE there stores every column in clear (C40_fails_create_plaintext); an empty statement raises IndexError (C40_fails_empty). Proved: /query executes the rewriting of the statement, and exactly the trailing semicolons are removed (C40_strip)."
  },
  {
   "property": "C41",
   "status": "partial",
   "theorems": [
    "EulerDB.Batch.C41_chunks",
    "EulerDB.Batch.C41_rows_partial",
    "EulerDB.Batch.C41_stored_prefix",
    "EulerDB.Batch.C41_cell_partial",
    "EulerDB.Batch.C41_names_partial",
    "EulerDB.Batch.C41_fails_arithmetic",
    "EulerDB.Batch.C41_fails_float",
    "EulerDB.Batch.C41_fails_missing",
    "EulerDB.Batch.C41_fails_missing_text",
    "EulerDB.Batch.C41_fails_digits",
    "EulerDB.Batch.C41_fails_digits_chunk",
    "EulerDB.Batch.C41_fails_upcast",
    "EulerDB.Batch.C41_fails_not_atomic",
    "EulerDB.Batch.C41_file_partial"
   ],
   "note": "False: tables with an arithmetic column raise for every file (C41_fails_arithmetic), FLOAT columns are not encoded (C41_fails_float), missing fields become the text nan or raise (C41_fails_missing), digit texts and integers beside floats change, depending on the chunk (C41_fails_digits, C41_fails_upcast), and a failing chunk leaves the earlier ones stored (C41_fails_not_atomic). Proved for files of integer and text columns: every row once and in order across chunks, each cell as a single INSERT."
  },
  {
   "property": "C42",
   "status": "partial",
   "theorems": [
    "EulerDB.Format.C42_literal_no_escapes",
    "EulerDB.Format.C42_literal_partial",
    "EulerDB.Format.C42_ciphertext",
    "EulerDB.Format.C42_literal_exact",
    "EulerDB.Format.C42_list_partial",
    "EulerDB.Format.C42_fails_injection",
    "EulerDB.Format.C42_name_partial",
    "EulerDB.Format.C42_quoted_ansi",
    "EulerDB.Format.C42_fails_quoted",
    "EulerDB.Format.C42_fails_quoted_constant",
    "EulerDB.Format.C42_fails_reserved",
    "EulerDB.Format.C42_fails_newline",
    "EulerDB.Format.C42_dotted_partial",
    "EulerDB.Format.C42_bare_iff",
    "EulerDB.Format.C42_names_ansi_partial"
   ],
   "note": "String literals are read back unchanged with the following text untouched: for all strings in NO_BACKSLASH_ESCAPES mode, and in the default mode exactly for strings whose every backslash is followed by % or _ (C42_literal_exact); ciphertexts always. The code does not escape backslashes, so a string ending in one swallows its closing quote and the next literal becomes code (C42_fails_injection). Quoted identifiers are printed in double quotes, which MySQL reads as strings in its default mode (C42_fails_quoted); fine in ANSI_QUOTES mode. Names ending in a newline and reserved words unknown to the proxy also fail."
  },
  {
   "property": "C43",
   "status": "partial",
   "theorems": [
    "EulerDB.Format.C43_read_back_partial",
    "EulerDB.Format.C43_text_determines_partial",
    "EulerDB.Format.C43_same_text",
    "EulerDB.Format.C43_chains_partial",
    "EulerDB.Format.C43_conditions_partial",
    "EulerDB.Format.C43_fails_grouping",
    "EulerDB.Format.C43_fails_level",
    "EulerDB.Format.C43_fails_pairs",
    "EulerDB.Format.C43_fails_value",
    "EulerDB.Format.C43_fails_null",
    "EulerDB.Format.C43_fails_not",
    "EulerDB.Format.C43_fails_binary_not",
    "EulerDB.Format.C43_fails_negation",
    "EulerDB.Format.C43_fails_concat"
   ],
   "note": "Holds for every tree in which the operands left bare are allowed bare by MySQL (Safe), and for every condition made of comparisons of values with AND/OR/NOT up to regrouping of AND and OR chains, which does not change the value. False in general: a op (b op c) is printed like (a op b) op c for every operator; mixed operators of one level, IS NULL under a comparison, NOT under a comparison, ~ of a sum, unary minus and || are read differently."
  },
  {
   "property": "C44",
   "status": "proved",
   "theorems": [
    "EulerDB.Lex.C44_rules_nonempty",
    "EulerDB.Lex.C44_tokens_make_text",
    "EulerDB.Lex.C44_tokens_total",
    "EulerDB.Lex.C44_empty_match_raises",
    "EulerDB.Lex.C44_unknown_kept",
    "EulerDB.Lex.C44_statements_make_stream",
    "EulerDB.Lex.C44_statements_make_text",
    "EulerDB.Lex.C44_cut_after_semicolon",
    "EulerDB.Lex.C44_statement_nonempty",
    "EulerDB.Lex.C44_one_statement",
    "EulerDB.Lex.C44_cut",
    "EulerDB.Lex.C44_parentheses",
    "EulerDB.Lex.C44_cut_outside",
    "EulerDB.Rules.C44_lexer"
   ],
   "note": "Whatever the rules, tokens concatenate to the text and none is empty; rules that match at least one character tokenise every text, and the 47 regular expressions of the code (transcribed as far as lengths go) all do; an empty match raises. The statements concatenate to the stream up to trailing blank tokens, none is empty, and every statement but the last ends with a semicolon followed only by blanks and line comments. C44_lexer: the 47 rules, transcribed as regular expressions with a backtracking matcher, tokenise every text."
  },
  {
   "property": "C45",
   "status": "partial",
   "theorems": [
    "EulerDB.Web.C45_tables_partial",
    "EulerDB.Web.C45_listing_partial",
    "EulerDB.Web.C45_fails_types",
    "EulerDB.Web.C45_fails_empty",
    "EulerDB.Web.C45_fails_interleaved",
    "EulerDB.Web.C45_fails_database_name"
   ],
   "note": "False: the metadata are looked up under host:port/database but stored under the database name, so nothing is ever listed (C45_fails_database_name); columns of types other than varchar and int lose their name (C45_fails_types); no table gives one empty table (C45_fails_empty). Proved for the formatting of grouped rows of varchar and int columns."
  },
  {
   "property": "C46",
   "status": "partial",
   "theorems": [
    "EulerDB.Format.C46_split_join_partial",
    "EulerDB.Format.C46_join_split_partial",
    "EulerDB.Format.C46_split_injective_partial",
    "EulerDB.Format.C46_fails_bell",
    "EulerDB.Format.C46_fails_backspace",
    "EulerDB.Format.C46_fails_empty"
   ],
   "note": "Both directions proved for all names without the control characters BEL and BS, which the code uses as marks; joining needs a non-empty first name. The failing cases are proved too."
  },
  {
   "property": "C47",
   "status": "partial",
   "theorems": [
    "EulerDB.Oxt.C47_inverted_exact",
    "EulerDB.Oxt.C47_plain_exact",
    "EulerDB.Oxt.C47_agrees_partial",
    "EulerDB.Oxt.C47_fails_absent_word",
    "EulerDB.Oxt.C47_fails_empty_text",
    "EulerDB.Oxt.C47_fails_leading_separator",
    "EulerDB.Oxt.C47_fails_whole_index",
    "EulerDB.Oxt.C47_fails_zero_byte",
    "EulerDB.Oxt.C47_word_numbers_partial",
    "EulerDB.Oxt.C47_pieces_partial",
    "EulerDB.Oxt.C47_fails_full_stop",
    "EulerDB.Oxt.C47_fails_key_boundary",
    "EulerDB.Oxt.C47_prf_injective",
    "EulerDB.Oxt.C47_search_exact",
    "EulerDB.Oxt.C47_complete_partial",
    "EulerDB.Oxt.C47_sound_partial",
    "EulerDB.Oxt.C47_setup_total",
    "EulerDB.Oxt.C47_fails_zero_hash",
    "EulerDB.Oxt.C47_fails_name_collision",
    "EulerDB.Oxt.C47_fails_false_hit",
    "EulerDB.Oxt.C47_fails_products",
    "EulerDB.Oxt.C47_fails_products_witness"
   ],
   "note": "Proved: the inverted index lists a row under a word exactly if the row has it (C47_inverted_exact); the search in clear is exact and never raises (C47_plain_exact); the encrypted search returns exactly the rows of the first word whose tag with every other word is in x_set (C47_search_exact), hence every matching row is found when no two words share an entry name (C47_complete_partial), a false hit means two equal tags (C47_sound_partial), and under no collisions it agrees with the search in clear (C47_agrees_partial). The index is built whenever no hash under k_z is 0 mod p (C47_setup_total), words are split and numbered faithfully (C47_pieces_partial, C47_word_numbers_partial). Fails: for every hash there are two rows among the first p+1 giving a false hit (C47_fails_false_hit); tags, being products mod a 27-bit p, coincide with all hashes distinct (C47_fails_products, witness); a hash 0 mod p makes construction raise (C47_fails_zero_hash); two words with one entry name overwrite (C47_fails_name_collision); an absent word raises KeyError (C47_fails_absent_word); an empty text or one that starts with a separator stops the whole index (C47_fails_empty_text, C47_fails_leading_separator, C47_fails_whole_index); a leading zero byte is lost (C47_fails_zero_byte); key and word are concatenated without a boundary (C47_fails_key_boundary)."
  },
  {
   "property": "C48",
   "status": "partial",
   "theorems": [
    "EulerDB.Rotation.C48_fails_update",
    "EulerDB.Rotation.C48_no_metadata",
    "EulerDB.Rotation.C48_fails_never_completes",
    "EulerDB.Rotation.C48_metadata_kept",
    "EulerDB.Rotation.C48_no_loss_partial",
    "EulerDB.Rotation.C48_drop_text",
    "EulerDB.Rotation.C48_rejected_partial",
    "EulerDB.Rotation.C48_fails_durable",
    "EulerDB.Rotation.C48_fails_decrypt",
    "EulerDB.Rotation.C48_fails_no_file",
    "EulerDB.Rotation.C48_values_partial"
   ],
   "note": "Proved: where changes need a commit, every state that an interruption can leave equals the start, because no step commits (C48_no_loss_partial); the same for any table on a server that rejects the blanking statement, which ends in \"= ;\" (C48_drop_text, C48_rejected_partial); the metadata always keep the old key (C48_metadata_kept); decrypting and re-encrypting keep the values (C48_values_partial). Fails: no rotation ever completes, for any data, key and server (C48_fails_never_completes, C48_fails_update); the column cannot be decrypted by the worker pool (C48_fails_decrypt) nor without a file (C48_fails_no_file); on a table without transactions whose server takes the statement, an interruption leaves the blanked column (C48_fails_durable, with a worked run in which the new values are in the table, the metadata name the old key and the run has failed)."
  },
  {
   "property": "C49",
   "status": "partial",
   "theorems": [
    "EulerDB.Web.C49_rows_partial",
    "EulerDB.Web.C49_fails_duplicate",
    "EulerDB.Web.C49_fails_duplicate_value",
    "EulerDB.Web.C49_fails_wide",
    "EulerDB.Web.C49_fails_type",
    "EulerDB.Web.C49_empty"
   ],
   "note": "False for repeated column names, of which only the last value is kept (C49_fails_duplicate), for rows wider than the column list (C49_fails_wide) and for the announced types (C49_fails_type). Proved for distinct names and rows of matching width."
  },
  {
   "property": "C50",
   "status": "partial",
   "theorems": [
    "EulerDB.Web.C50_definition_partial",
    "EulerDB.Web.C50_text_determines_partial",
    "EulerDB.Web.C50_fails_small",
    "EulerDB.Web.C50_fails_large",
    "EulerDB.Web.C50_fails_length",
    "EulerDB.Web.C50_fails_duplicate",
    "EulerDB.Web.C50_fails_injected"
   ],
   "note": "False when size differs from the number of lines, for lengths that are no integers, for repeated names and for names containing a definition (C50_fails_*). Proved otherwise: text and options are exactly those entered, and the text determines the form."
  },
  {
   "property": "C51",
   "status": "partial",
   "theorems": [
    "EulerDB.Fuzzy.C51_fuzzy_fits_partial",
    "EulerDB.Fuzzy.C51_fails_long"
   ],
   "note": "holds up to 84 characters, refuted for every string of 86 or more"
  },
  {
   "property": "C52",
   "status": "partial",
   "theorems": [
    "EulerDB.Codec.C52_store_partial",
    "EulerDB.Codec.C52_order_partial",
    "EulerDB.Codec.C52_fails_float",
    "EulerDB.Codec.C52_fails_double"
   ],
   "note": "holds up to 9223372 in magnitude, refuted for every value of magnitude 9223373 or more (OutOfRangeError)"
  },
  {
   "property": "C53",
   "status": "partial",
   "theorems": [
    "EulerDB.Pool.C53_served_after_close_partial",
    "EulerDB.Pool.C53_fails_index_error",
    "EulerDB.Pool.C53_fails_wake_empty",
    "EulerDB.Pool.C53_fails_commit_not_notified"
   ],
   "note": "False with sharing: a woken caller may get IndexError (C53_fails_index_error, C53_fails_wake_empty), and the end of a transaction wakes nobody (C53_fails_commit_not_notified). Proved without sharing: closing a handle notifies, and the next request is served."
  },
  {
   "property": "C54",
   "status": "partial",
   "theorems": [
    "EulerDB.Web.C54_parts_partial",
    "EulerDB.Web.C54_fails_options",
    "EulerDB.Web.C54_fails_default_port"
   ],
   "note": "False for URLs with options (C54_fails_options) and for URLs without port (C54_fails_default_port); proved for jdbc:mysql://host:port/db."
  },
  {
   "property": "C55",
   "status": "partial",
   "theorems": [
    "EulerDB.Web.C55_fails_rewrite",
    "EulerDB.Web.C55_fails_component",
    "EulerDB.Web.C55_fails_long_id",
    "EulerDB.Web.C55_short_id_partial"
   ],
   "note": "False: /rewrite_query always raises TypeError (C55_fails_rewrite), the component endpoint always raises (C55_fails_component), ids of two or more characters are not routed (C55_fails_long_id). One-character ids are routed (C55_short_id_partial)."
  },
  {
   "property": "C56",
   "status": "partial",
   "theorems": [
    "EulerDB.Web.C56_list_partial",
    "EulerDB.Web.C56_single_partial",
    "EulerDB.Web.C56_modulus",
    "EulerDB.Web.C56_replaced_partial",
    "EulerDB.Web.C56_replaced_avg_partial",
    "EulerDB.Web.C56_replaced_all_partial",
    "EulerDB.Web.C56_recognised",
    "EulerDB.Web.C56_qualified",
    "EulerDB.Web.C56_fails_unrecognised",
    "EulerDB.Web.C56_fails_nested",
    "EulerDB.Web.C56_fails_grouped",
    "EulerDB.Web.C56_fails_same_variable"
   ],
   "note": "False for aggregates inside other functions (C56_fails_nested), for grouped queries, which always get LIMIT 1 (C56_fails_grouped), and for names that differ in dot and underscore only (C56_fails_same_variable). Proved for select lists of columns, functions, SUM and AVG: exactly the aggregates over arithmetic columns get a variable, with the modulus of their own column."
  },
  {
   "property": "C57",
   "status": "partial",
   "theorems": [
    "EulerDB.Format.C57_single_partial",
    "EulerDB.Format.C57_passes_partial",
    "EulerDB.Format.C57_double_partial",
    "EulerDB.Format.C57_fails_backslash",
    "EulerDB.Format.C57_fails_escaped_quote",
    "EulerDB.Format.C57_fails_apostrophe",
    "EulerDB.Format.C57_fails_double",
    "EulerDB.Format.C57_fails_escapes",
    "EulerDB.Format.C57_fails_line_break",
    "EulerDB.Format.C57_escapes_partial",
    "EulerDB.Format.C57_escapes_exact"
   ],
   "note": "Proved for single-quoted literals without backslashes and line breaks (any quotes), and for double-quoted ones that also contain no quotes. Literals with backslashes, apostrophes inside double quotes, doubled double quotes and line breaks are changed or rejected (C57_fails_*)."
  },
  {
   "property": "C58",
   "status": "partial",
   "theorems": [
    "EulerDB.Lex.C58_numbered",
    "EulerDB.Lex.C58_looked_at",
    "EulerDB.Lex.C58_parentheses_partial",
    "EulerDB.Lex.C58_comments_partial",
    "EulerDB.Lex.C58_empty",
    "EulerDB.Lex.C58_fails_comment",
    "EulerDB.Lex.C58_fails_comment_witness",
    "EulerDB.Lex.C58_fails_hint",
    "EulerDB.Lex.C58_fails_quoted_name",
    "EulerDB.Lex.C58_fails_drop",
    "EulerDB.Lex.C58_fails_dotted",
    "EulerDB.Lex.C58_first_statement",
    "EulerDB.Lex.C58_fails_later_statements"
   ],
   "note": "False of the code. Proved: without a comment before leading parentheses the first word after them decides (CREATE and ALTER excluded), and without a leading parenthesis comments play no part. Refuted: a comment before a leading parenthesis shifts the word looked at, a hint hides the statement, a quoted name counts as a keyword, DROP of anything is DROP TABLE, a leading dotted name raises, and everything after the first statement is ignored."
  },
  {
   "property": "C59",
   "status": "partial",
   "theorems": [
    "EulerDB.Parse.C59_prefix",
    "EulerDB.Parse.C59_complete_iff",
    "EulerDB.Parse.C59_infix_partial",
    "EulerDB.Parse.C59_fails_prefix",
    "EulerDB.Parse.C59_fails_mul_neg",
    "EulerDB.Parse.C59_fails_between"
   ],
   "note": "False of the code. Proved: the symbols of the tree are always an initial part of the text; without BETWEEN nothing is lost exactly when every prefix operator stands before the infix (or prefix) operator in front of it in the operator table, so runs without prefix operators lose nothing. Refuted for every infix operator placed before a prefix operator in the table: `a * -b` becomes `a * \"-\"` and b is dropped."
  },
  {
   "property": "C60",
   "status": "partial",
   "theorems": [
    "EulerDB.Parse.C60_reads_back",
    "EulerDB.Parse.C60_agrees_partial",
    "EulerDB.Parse.C60_usual_partial",
    "EulerDB.Parse.C60_agrees_iff",
    "EulerDB.Parse.C60_fails_compare",
    "EulerDB.Parse.C60_fails_predicate",
    "EulerDB.Parse.C60_fails_neg",
    "EulerDB.Parse.C60_fails_pipes",
    "EulerDB.Parse.C60_fails_between",
    "EulerDB.Parse.C60_two_operators"
   ],
   "note": "False of the code. Proved: the parser reads back every tree grouped by its own table; it agrees with MySQL on conditions as usually written (comparisons not nested in comparisons, no ||, unary minus not directly beside * or /); without BETWEEN it agrees exactly when the MySQL tree is grouped by the table. Refuted: a = b < c, a = b IN s, -a * b, a = b || c = d, a BETWEEN b AND c = d. The MySQL grammar (Parse/Grammar.lean) is trusted."
  },
  {
   "property": "C61",
   "status": "partial",
   "theorems": [
    "EulerDB.Parse.C61_kept_partial",
    "EulerDB.Parse.C61_fails_eq_null",
    "EulerDB.Parse.C61_fails_neq_null",
    "EulerDB.Parse.C61_fails_is",
    "EulerDB.Parse.C61_fails_is_true",
    "EulerDB.Parse.C61_fails_null_safe",
    "EulerDB.Parse.C61_fails_distinct",
    "EulerDB.Parse.C61_fails_regroup"
   ],
   "note": "False of the code. Proved for every meaning of the operators with the stated laws: expressions in which = and <> are not applied to the NULL literal, IS and IS NOT only to it, <=> only with it on one side, and minus only to numbers keep their value, including the merging of nested +, *, AND, OR. Refuted: e = NULL and e <> NULL (for every e and every row), IS [NOT] with TRUE or FALSE, <=> between two expressions (cannot be written), IS [NOT] DISTINCT FROM (taken for its opposite), regrouping of sums that are not associative."
  },
  {
   "property": "C62",
   "status": "partial",
   "theorems": [
    "EulerDB.Statement.C62_written_partial",
    "EulerDB.Statement.C62_total",
    "EulerDB.Statement.C62_fails_comma_join",
    "EulerDB.Statement.C62_read_back_iff",
    "EulerDB.Statement.C62_fails_comma_alias",
    "EulerDB.Statement.C62_fails_on_false",
    "EulerDB.Statement.C62_fails_using",
    "EulerDB.Statement.C62_fails_recursive",
    "EulerDB.Statement.C62_fails_nulls",
    "EulerDB.Statement.C62_fails_fetch",
    "EulerDB.Statement.C62_fails_fetch_alone",
    "EulerDB.Statement.C62_update_partial",
    "EulerDB.Statement.C62_delete_partial",
    "EulerDB.Statement.C62_fails_drop",
    "EulerDB.Statement.C62_joins",
    "EulerDB.Statement.C62_fails_lateral"
   ],
   "note": "C62_written_partial: every query (any nesting) whose joins are MySQL joins with a condition that is written and that does not mix commas with joins is read back as it was; C62_total: writing never fails; C62_read_back_iff: with a comma list exactly the queries without a join are read back. False of the code: C62_fails_comma_join, _comma_alias, _on_false, _using, _recursive, _nulls, _fetch, _fetch_alone, _drop. UPDATE and DELETE: C62_update_partial, C62_delete_partial. Also C62_joins (the joins of a query) and C62_fails_lateral."
  },
  {
   "property": "C63",
   "status": "partial",
   "theorems": [
    "EulerDB.Statement.C63_written_partial",
    "EulerDB.Statement.C63_stored_iff",
    "EulerDB.Statement.C63_rewritten_partial",
    "EulerDB.Statement.C63_rows_partial",
    "EulerDB.Statement.C63_fails_rows_plain",
    "EulerDB.Statement.C63_fails_expression",
    "EulerDB.Statement.C63_fails_name",
    "EulerDB.Statement.C63_fails_insert_select",
    "EulerDB.Statement.C63_fails_no_values",
    "EulerDB.Statement.C63_fails_one_column",
    "EulerDB.Statement.C63_fails_rows_without_columns",
    "EulerDB.Statement.C63_rows_stored_partial"
   ],
   "note": "C63_written_partial/C63_stored_iff: an INSERT of one row of numbers and strings is written exactly, and the backend stores the row exactly if its texts have only harmless backslashes; C63_rewritten_partial carries this through the rewriter (ciphertexts always survive). C63_rows_partial, C63_rows_stored_partial: several rows. False of the code: C63_fails_expression (NULL, calls, sums raise), _name (DEFAULT becomes a string), _insert_select (FROM, WHERE lost), _no_values, _one_column, _rows_without_columns, _rows_plain (several rows are sent in plaintext)."
  },
  {
   "property": "C64",
   "status": "partial",
   "theorems": [
    "EulerDB.Alter.C64_recognised_partial",
    "EulerDB.Alter.C64_unambiguous",
    "EulerDB.Alter.C64_dropped_partial",
    "EulerDB.Alter.C64_fails_other_character",
    "EulerDB.Alter.C64_fails_two_columns",
    "EulerDB.Alter.C64_fails_after_semicolon",
    "EulerDB.Alter.C64_fails_quoted_names",
    "EulerDB.Alter.C64_fails_drop_column_index",
    "EulerDB.Alter.C64_fails_drop_column_primary",
    "EulerDB.Alter.C64_fails_drop_column_foreign",
    "EulerDB.Alter.C64_fails_drop_column_sent",
    "EulerDB.Alter.C64_fails_two_words",
    "EulerDB.Alter.C64_fails_unnamed",
    "EulerDB.Whole.C64_proxy_partial",
    "EulerDB.Whole.C64_fails_proxy"
   ],
   "note": "Proved for the eight kinds with one column and unquoted key and column names, over all names, letter cases and blanks (recognised_partial), with the DROP statements followed to the backend text (dropped_partial). Proved failures: a comma, a quoted key or column name, or anything after the semicolon makes the statement unrecognised; ADD UNIQUE KEY u (c) likewise; an unnamed index is recognised but None is sent; DROP primarykey, DROP indexfoo and DROP foreignkeyfoo, which drop a column, are taken for DROP PRIMARY KEY, DROP INDEX foo and DROP FOREIGN KEY foo."
  },
  {
   "property": "C65",
   "status": "partial",
   "theorems": [
    "EulerDB.Table.C65_plain_partial",
    "EulerDB.Table.C65_fails_literal",
    "EulerDB.Table.C65_fails_zero",
    "EulerDB.Table.C65_plain_accepted_iff",
    "EulerDB.Table.C65_fails_encrypted",
    "EulerDB.Table.C65_fails_encrypted_null",
    "EulerDB.Table.C65_fails_encrypted_literal",
    "EulerDB.Table.C65_encrypted_absent_partial",
    "EulerDB.Table.C65_fails_statement"
   ],
   "note": "C65_plain_partial: plaintext columns with DEFAULT NULL or a bare word get it; C65_plain_accepted_iff says exactly which defaults are accepted. False of the code: strings, numbers, TRUE and expressions raise (C65_fails_literal), 0 and FALSE are dropped (C65_fails_zero), and no default of an encrypted column works: it raises or declares an unquoted ciphertext that MySQL rejects (C65_fails_encrypted, _encrypted_null, _encrypted_literal, and for whole statements _statement). The limit of C65_fails_encrypted is a default whose padded length is a multiple of 48 bytes. C65_encrypted_absent_partial: without DEFAULT nothing is added."
  },
  {
   "property": "C66",
   "status": "partial",
   "theorems": [
    "EulerDB.Bytes.C66_cbc_text",
    "EulerDB.Bytes.C66_cbc_bytes_iff",
    "EulerDB.Bytes.C66_fails_cbc_bytes",
    "EulerDB.Bytes.C66_fails_cbc_trailing",
    "EulerDB.Bytes.C66_cbc_injective",
    "EulerDB.Bytes.C66_bytes",
    "EulerDB.Bytes.C66_fails_bytes_text",
    "EulerDB.Bytes.C66_fails_bytes_text_back",
    "EulerDB.Bytes.C66_sm4_text",
    "EulerDB.Bytes.C66_sm4_bytes_iff",
    "EulerDB.Bytes.C66_sm4_raw",
    "EulerDB.Bytes.C66_sm4_upper",
    "EulerDB.Bytes.C66_sm4_blank",
    "EulerDB.Bytes.C66_fails_bytes_zero"
   ],
   "note": "Proved for all texts through AESCrypto (C66_cbc_text, C66_cbc_injective) and SM4CipherBytes (C66_sm4_text) and all bytes through AESCipherBytes (C66_bytes). Exact for bytes through the first two: C66_cbc_bytes_iff, C66_sm4_bytes_iff. False of the code: bytes that are no UTF-8 (C66_fails_cbc_bytes), appended bytes are accepted (C66_fails_cbc_trailing), text through AESCipherBytes raises or does not come back (C66_fails_bytes_text, an exact condition, and _text_back). Raw bytes, upper-case hexadecimal and blanks given to SM4CipherBytes: C66_sm4_raw, C66_sm4_upper, C66_sm4_blank; a zero byte at the end is lost: C66_fails_bytes_zero."
  },
  {
   "property": "C67",
   "status": "partial",
   "theorems": [
    "EulerDB.Offline.C67_single_iff",
    "EulerDB.Offline.C67_distributed_partial",
    "EulerDB.Offline.C67_fails_distributed_local",
    "EulerDB.Offline.C67_fails_distributed_hides",
    "EulerDB.Offline.C67_fails_pool",
    "EulerDB.Offline.C67_pool_partial",
    "EulerDB.Offline.C67_fails_file",
    "EulerDB.Offline.C67_file_partial",
    "EulerDB.Offline.C67_fails_file_pool",
    "EulerDB.Offline.C67_decrypter",
    "EulerDB.Offline.C67_fails_columns_dropped",
    "EulerDB.Offline.C67_fails_cipher"
   ],
   "note": "C67_single_iff (exact) and C67_distributed_partial for every partition on a working cluster; C67_file_partial for whole files if the columns could be listed. False of the code: decrypt_file always raises (C67_fails_file), the pool raises (C67_fails_pool), without or after a failure of Spark values come back undecoded (C67_fails_distributed_local, _hides), columns without a named cipher are dropped (_columns_dropped), fuzzy and sm4 have no decrypter (_cipher). The mode taken, the pool and the decrypter chosen: C67_pool_partial, C67_fails_file_pool, C67_decrypter."
  },
  {
   "property": "C68",
   "status": "partial",
   "theorems": [
    "EulerDB.Sql.C68_exact_partial",
    "EulerDB.Sql.C68_everywhere_partial",
    "EulerDB.Sql.C68_fails_dashes",
    "EulerDB.Sql.C68_fails_executed",
    "EulerDB.Sql.C68_fails_form_feed",
    "EulerDB.Sql.C68_fails_update",
    "EulerDB.Sql.C68_fails_delete",
    "EulerDB.Sql.C68_fails_hidden"
   ],
   "note": "The parser and MySQL skip the same text at a position exactly when a decidable walk over what is skipped finds no trap (C68_exact_partial); hence a statement in which no dashes, executable comment, unclosed comment, vertical tab or form feed occurs is skipped alike at all its positions (C68_everywhere_partial). The property is false otherwise: -- not followed by whitespace hides the rest of the line from the proxy only (C68_fails_dashes), the text of /*! .. */ is executed by MySQL and skipped by the proxy (C68_fails_executed), and a form feed or vertical tab is whitespace for MySQL only (C68_fails_form_feed). The difference changes statements: C68_fails_update, C68_fails_delete, C68_fails_hidden."
  },
  {
   "property": "C69",
   "status": "partial",
   "theorems": [
    "EulerDB.Sql.C69_digits_partial",
    "EulerDB.Sql.C69_whole_partial",
    "EulerDB.Sql.C69_decimal_partial",
    "EulerDB.Sql.C69_exponent_partial",
    "EulerDB.Sql.C69_exponent_whole_partial",
    "EulerDB.Sql.C69_fails_overflow",
    "EulerDB.Sql.C69_fails_hex",
    "EulerDB.Sql.C69_fails_inexact",
    "EulerDB.Sql.C69_fails_exponent"
   ],
   "note": "False as stated: a whole number with a negative exponent is read as a product with the column e and a difference (C69_fails_exponent), a decimal number whose last digit is not 0 or 5 is not kept exactly by any binary float (C69_fails_inexact), 0x1F is indistinguishable from HEX(1F) (C69_fails_hex), and a huge exponent raises (C69_fails_overflow). Proved: digits of any length, every natural number, decimals and exponents up to rounding."
  },
  {
   "property": "C70",
   "status": "partial",
   "theorems": [
    "EulerDB.Sql.C70_sign_partial",
    "EulerDB.Sql.C70_word_partial",
    "EulerDB.Sql.C70_between_partial",
    "EulerDB.Sql.C70_minus_partial",
    "EulerDB.Sql.C70_minus_real_partial",
    "EulerDB.Sql.C70_parens_partial",
    "EulerDB.Sql.C70_fails_null_parens",
    "EulerDB.Sql.C70_star",
    "EulerDB.Sql.C70_quoted_name",
    "EulerDB.Sql.C70_bracketed_partial",
    "EulerDB.Sql.C70_fails_option",
    "EulerDB.Sql.C70_fails_reserved",
    "EulerDB.Sql.C70_fails_twice",
    "EulerDB.Sql.C70_fails_dash",
    "EulerDB.Sql.C70_fails_dash_select",
    "EulerDB.Sql.C70_tree_partial",
    "EulerDB.Sql.C70_delete_partial",
    "EulerDB.Sql.C70_update_partial",
    "EulerDB.Sql.C70_insert_partial",
    "EulerDB.Sql.C70_select_partial"
   ],
   "note": "Proved for DELETE, UPDATE with distinct columns, INSERT .. VALUES and SELECT .. FROM .. WHERE over expressions of any nesting built from names, numbers, strings, NULL, calls, parentheses, prefix and infix operators and BETWEEN, with any gaps and any case of keywords. False beyond: a dash between two names (C70_fails_dash, C70_fails_dash_select), names that the grammar reserves (C70_fails_reserved), options of a SELECT (C70_fails_option), a column assigned twice (C70_fails_twice). Joins, grouping and subqueries at the level of characters are left out. The table of operators one by one: C70_sign_partial, C70_word_partial, C70_between_partial, C70_minus_partial, C70_minus_real_partial, C70_parens_partial (and C70_fails_null_parens), C70_star, C70_quoted_name."
  },
  {
   "property": "C71",
   "status": "partial",
   "theorems": [
    "EulerDB.Whole.C71_fails_hidden",
    "EulerDB.Whole.C71_fails_dashes",
    "EulerDB.Whole.C71_fails_one_column",
    "EulerDB.Whole.C71_fails_short",
    "EulerDB.Whole.C71_statement_partial",
    "EulerDB.Whole.C71_session_partial",
    "EulerDB.Whole.C71_fresh_partial"
   ],
   "note": "C71_session_partial: sessions of any length of spelled INSERT (all columns, at least two), SELECT of columns, UPDATE and DELETE, with conditions of AND, OR, = and comparisons, keep the relation between client tables and encrypted tables and answer as an unencrypted database; C71_fresh_partial begins with empty tables. False as stated: an INSERT of one column and an UPDATE with a text of one or two characters in a fuzzy column are refused (C71_fails_one_column, C71_fails_short); a WHERE inside /*! */ is lost and the whole table deleted (C71_fails_hidden); 1--1 cuts off the WHERE of an UPDATE (C71_fails_dashes)."
  },
  {
   "property": "C72",
   "status": "partial",
   "theorems": [
    "EulerDB.Whole.C72_written_partial",
    "EulerDB.Whole.C72_condition_partial",
    "EulerDB.Whole.C72_fails_backslash"
   ],
   "note": "C72_written_partial: every written condition is read back as the condition, of any nesting; C72_condition_partial: truth on every stored row equals truth of the client condition, for conditions that fit the table. False for a text ending in a backslash in a plaintext column (C72_fails_backslash)."
  },
  {
   "property": "C73",
   "status": "proved",
   "theorems": [
    "EulerDB.Group.C73_leaves_are_tokens",
    "EulerDB.Group.C73_text_kept",
    "EulerDB.Group.C73_each_token_once",
    "EulerDB.Group.C73_groups_have_tokens",
    "EulerDB.Group.C73_parse_keeps_text"
   ],
   "note": "For every list of tokens grouping ends without an error and the leaves of the tree are the tokens with their values and types, in order (C73_leaves_are_tokens; a * that is an operator gets that type), the text is kept (C73_text_kept), each token is in the tree once (C73_each_token_once) and groups are not empty (C73_groups_have_tokens). C73_parse_keeps_text is the whole of parse. Python's recursion limit is left out."
  },
  {
   "property": "C74",
   "status": "partial",
   "theorems": [
    "EulerDB.Group.C74_balanced",
    "EulerDB.Group.C74_any_text",
    "EulerDB.Group.C74_statement",
    "EulerDB.Group.C74_brackets_enclose",
    "EulerDB.Group.C74_fails_cast"
   ],
   "note": "C74_balanced, C74_any_text: _group_matching on leaves gives the tree of the brackets, for each of the six pairs; C74_statement: the first three functions on a statement without comments and square brackets; C74_brackets_enclose: up to group_where every group begins and ends with its brackets. Later functions do not keep that: (::) becomes a parenthesis without parentheses of its own (C74_fails_cast)."
  },
  {
   "property": "C75",
   "status": "partial",
   "theorems": [
    "EulerDB.Group.C75_tokens",
    "EulerDB.Group.C75_text",
    "EulerDB.Group.C75_each_token",
    "EulerDB.Group.C75_sql_tokens",
    "EulerDB.Group.C75_type",
    "EulerDB.Group.C75_digit_name_joined",
    "EulerDB.Group.C75_fails_in_list",
    "EulerDB.Rules.C75_fails_text"
   ],
   "note": "C75_tokens, C75_text: reading never raises and keeps the text; C75_each_token, C75_sql_tokens, C75_type: without a number right before a name the tokens and the type of the statement are those of the lexer. A name that begins with digits is one token on its own (C75_digit_name_joined), but stays cut in two in a list or in parentheses (C75_fails_in_list, on characters C75_fails_text)."
  },
  {
   "property": "C76",
   "status": "partial",
   "theorems": [
    "EulerDB.Rules.C76_classified_partial",
    "EulerDB.Rules.C76_double_quotes_partial",
    "EulerDB.Rules.C76_names_partial",
    "EulerDB.Rules.C76_by_word",
    "EulerDB.Rules.C76_fails_empty_string",
    "EulerDB.Rules.C76_fails_apostrophe",
    "EulerDB.Rules.C76_fails_dot",
    "EulerDB.Rules.C76_fails_comment",
    "EulerDB.Rules.C76_before_dot"
   ],
   "note": "C76_classified_partial: without double quotes, comments, # and : (as `plainChar`, `badPair` say) a statement is classified by its first word, whatever stands in its literals; C76_double_quotes_partial: the same with double quotes inside single quotes. Fails: an empty string in double quotes or an apostrophe in double quotes lets the rewriting of quotes uncover a parenthesis (C76_fails_empty_string, C76_fails_apostrophe); a parenthesis before a dot is read as a name (C76_fails_dot); a comment that MySQL skips is counted (C76_fails_comment). Keyword tables and the classes of characters beyond ASCII are parameters."
  },
  {
   "property": "C77",
   "status": "partial",
   "theorems": [
    "EulerDB.Whole.C77_statement_partial",
    "EulerDB.Whole.C77_session_partial",
    "EulerDB.Whole.C77_fails_reserved"
   ],
   "note": "C77_statement_partial, C77_session_partial: any text that the reader of Whole/Mysql accepts, with conditions of comparisons of a column with a constant under AND, OR and parentheses, without backslashes, with names that the grammar does not reserve (GoodName) and without quotes inside strings if double quotes are used (GoodText), that fits the tables (MStmt.Fit, as Fine in C71). Semicolons and blanks may follow. Fails: names that only the grammar reserves (C77_fails_reserved), and the statements of C71_fails_hidden and C71_fails_dashes."
  },
  {
   "property": "C78",
   "status": "partial",
   "theorems": [
    "EulerDB.Window.C78_read_partial",
    "EulerDB.Window.C78_rows_partial",
    "EulerDB.Window.C78_frame_partial",
    "EulerDB.Window.C78_over_partial",
    "EulerDB.Window.C78_fails_onward",
    "EulerDB.Window.C78_fails_whole",
    "EulerDB.Window.C78_fails_empty",
    "EulerDB.Window.C78_fails_range",
    "EulerDB.Window.C78_fails_peers",
    "EulerDB.Window.C78_fails_named",
    "EulerDB.Window.C78_fails_expression"
   ],
   "note": "False of the code. C78_rows_partial/C78_frame_partial say exactly which ROWS frames survive (not those from the current row onward, not the whole partition of an ordered window, not BETWEEN n FOLLOWING AND 0 FOLLOWING); C78_read_partial says what a clause is parsed to and C78_over_partial where it is written. C78_fails_onward: ROWS n FOLLOWING is sent, which MySQL rejects; C78_fails_whole: the frame is dropped silently; C78_fails_empty: an empty frame becomes another one; C78_fails_range with C78_fails_peers: RANGE is sent as ROWS, which sees other rows; C78_fails_named: a named window is sent as OVER (); C78_fails_expression: an expression FOLLOWING is parsed as PRECEDING."
  },
  {
   "property": "C79",
   "status": "partial",
   "theorems": [
    "EulerDB.General.C79_digits_partial",
    "EulerDB.General.C79_same_partial",
    "EulerDB.General.C79_fails_double_quoted",
    "EulerDB.General.C79_fails_like",
    "EulerDB.General.C79_empty",
    "EulerDB.General.C79_lists"
   ],
   "note": "False of the code. C79_digits_partial: no digit ever remains. C79_same_partial: statements without LIKE, double quotes, backslashes and per cent signs that differ only in numbers and single-quoted literals generalise alike. C79_fails_double_quoted: every word in double quotes is told; C79_fails_like: the rest of a pattern after an escaped quote is told."
  },
  {
   "property": "C80",
   "status": "partial",
   "theorems": [
    "EulerDB.Join.C80_session_partial",
    "EulerDB.Join.C80_fails_keys",
    "EulerDB.Join.C80_fails_mixed",
    "EulerDB.Join.C80_fails_literal",
    "EulerDB.Join.C80_fails_range",
    "EulerDB.Join.C80_fails_order",
    "EulerDB.Join.C80_fails_star_name",
    "EulerDB.Join.C80_fails_using",
    "EulerDB.Join.C80_join_partial"
   ],
   "note": "C80_join_partial: if the encrypted tables hold the client's (relation of C71), every query over any number of known tables, comma-separated or joined, with equalities of comparable columns under AND/OR and any select list or *, is rewritten, answered by MySQL (three-valued conditions, outer joins) and decrypted to exactly the rows meant; C80_session_partial: the same after any session of statements sent as text. False in general: columns under different keys (C80_fails_keys) or one in clear and one encrypted (C80_fails_mixed) are never equal; conditions on values (C80_fails_literal), ranges and LIKE (C80_fails_range), ORDER BY (C80_fails_order) and * with a table named like a join (C80_fails_star_name) raise; USING is dropped, giving a product (C80_fails_using). Aliases of joined tables raise (C31_fails_joined_alias). The text of the rewritten query is the subject of C62."
  },
  {
   "property": "C81",
   "status": "partial",
   "theorems": [
    "EulerDB.Answer.C81_session_partial",
    "EulerDB.Answer.C81_fails_desc",
    "EulerDB.Answer.C81_fails_last",
    "EulerDB.Answer.C81_fails_group",
    "EulerDB.Answer.C81_fails_having",
    "EulerDB.Answer.C81_fails_distinct",
    "EulerDB.Answer.C81_fails_alias",
    "EulerDB.Answer.C81_taken_partial",
    "EulerDB.Answer.C81_query_partial",
    "EulerDB.Answer.C81_answered"
   ],
   "note": "C81_query_partial: if the encrypted table holds the client's (relation of C71), every query of one table over columns, COUNT(*), MAX and MIN with any condition, GROUP BY plaintext columns, HAVING over COUNT(*) or plaintext numbers, DISTINCT, ORDER BY a plaintext column or (ascending) an encrypted int column, LIMIT and OFFSET is rewritten and accepted by MySQL, and the answers MySQL may give, decrypted, are exactly the answers the query may have in clear (both inclusions); C81_session_partial: the same after any session of statements sent as text; C81_taken_partial: the exact answers without the condition on the direction; C81_answered: there always is an answer. False in general: DESC over an encrypted column is lost (C81_fails_desc, C81_fails_last: ORDER BY a DESC LIMIT 1 gives the least); GROUP BY and HAVING are sent as they are and rejected for encrypted columns (C81_fails_group, C81_fails_having); DISTINCT with ORDER BY an encrypted column is rejected (C81_fails_distinct); ORDER BY an alias raises (C81_fails_alias)."
  },
  {
   "property": "C82",
   "status": "partial",
   "theorems": [
    "EulerDB.Strip.C82_fails_as",
    "EulerDB.Strip.C82_fails_minus",
    "EulerDB.Strip.C82_fails_executable",
    "EulerDB.Strip.C82_fails_operator",
    "EulerDB.Strip.C82_fails_number_sign",
    "EulerDB.Strip.C82_fails_literal",
    "EulerDB.Strip.C82_fails_name",
    "EulerDB.Strip.C82_words_kept",
    "EulerDB.Strip.C82_apart_partial",
    "EulerDB.Strip.C82_blank_before_partial",
    "EulerDB.Strip.C82_strings_kept_partial",
    "EulerDB.Strip.C82_one_line_partial",
    "EulerDB.Strip.C82_characters_kept"
   ],
   "note": "For every text and the 47 rules of the lexer: format does not raise (C82_characters_kept), no comment token is left and every other token stays, in order (C82_words_kept), all characters outside comments that are no blanks stay. Words stay apart if a blank stands before every comment (C82_blank_before_partial) or no group begins with a comment (C82_apart_partial); strings stay if they hold no backslash (C82_strings_kept_partial). False in general: SELECT id/*c*/AS y becomes SELECT idAS y (C82_fails_as); what is taken for a comment is not what MySQL takes for one (C82_fails_minus, C82_fails_executable, C82_fails_operator, C82_fails_number_sign); literals with a backslash before a line break and names in backticks lose blanks (C82_fails_literal, C82_fails_name)."
  },
  {
   "property": "C83",
   "status": "partial",
   "theorems": [
    "EulerDB.Dots.C83_fails_scalar",
    "EulerDB.Dots.C83_fails_null",
    "EulerDB.Dots.C83_fails_dotted_step",
    "EulerDB.Dots.C83_fails_empty_key",
    "EulerDB.Dots.C83_fails_backslash",
    "EulerDB.Dots.C83_fails_same_leaves",
    "EulerDB.Dots.C83_fails_empty_dict",
    "EulerDB.Dots.C83_fails_relative",
    "EulerDB.Dots.C83_fails_parent",
    "EulerDB.Dots.C83_through_list",
    "EulerDB.Dots.C83_stored_partial",
    "EulerDB.Dots.C83_leaves_partial",
    "EulerDB.Dots.C83_leaf_found_partial",
    "EulerDB.Dots.C83_relative_iff"
   ],
   "note": "A value stored under a key is found under it and the keys beside it keep their values, if the way leads over dicts or ends before names without dots (C83_stored_partial); storing None removes it. The leaves of data with distinct nonempty names without backslash, without None and empty dicts make the same data (C83_leaves_partial) and each is found under its key (C83_leaf_found_partial). The relative path leads back exactly if the first path does not lie on the way to the second (C83_relative_iff). False otherwise: below a scalar storing raises, below a None value with two more names it is lost silently, an escaped dot among missing names parts the name, a name ending with a backslash is glued to the next name, the parent of a.b is computed as `a.` (C83_fails_*). Lists on the way of an assignment are left out of the model."
  },
  {
   "property": "C84",
   "status": "partial",
   "theorems": [
    "EulerDB.Create.C84_fails_again",
    "EulerDB.Create.C84_fails_size",
    "EulerDB.Create.C84_fails_fuzzy",
    "EulerDB.Create.C84_fails_key",
    "EulerDB.Create.C84_fails_width",
    "EulerDB.Create.C84_fails_type",
    "EulerDB.Create.C84_fails_unsigned",
    "EulerDB.Create.C84_fails_twice",
    "EulerDB.Create.C84_fails_auto",
    "EulerDB.Create.C84_fails_unique",
    "EulerDB.Create.C84_fails_counter",
    "EulerDB.Create.C84_closed",
    "EulerDB.Create.C84_session_partial",
    "EulerDB.Create.C84_fresh_partial",
    "EulerDB.Create.C84_read_partial"
   ],
   "note": "A CREATE TABLE text is read as its columns (C84_read_partial). Sessions that create tables of INT, CHAR(n) and VARCHAR(n) columns, encrypted or not, within the limits of the backend, and whose values fit, are accepted throughout and answered as without encryption (C84_session_partial, C84_fresh_partial). False otherwise: a table created again, even with IF NOT EXISTS, is replaced by an empty one (C84_fails_again); encrypted columns with a display width, UNSIGNED or another type are refused (C84_fails_width, C84_fails_unsigned, C84_fails_type), as are encrypted AUTO_INCREMENT columns (C84_fails_auto), long keys and wide rows (C84_fails_key, C84_fails_size, C84_fails_fuzzy); UNIQUE and AUTO_INCREMENT outside a primary key are forgotten (C84_fails_unique, C84_fails_counter); a plaintext UNSIGNED column is written twice (C84_fails_twice). For values that do not fit see C07_fails_multibyte and C51_fails_long."
  },
  {
   "property": "C85",
   "status": "partial",
   "theorems": [
    "EulerDB.Values.C85_dict_partial",
    "EulerDB.Values.C85_none",
    "EulerDB.Values.C85_fails_in",
    "EulerDB.Values.C85_fails_inner",
    "EulerDB.Values.C85_fails_null",
    "EulerDB.Values.C85_fails_expression",
    "EulerDB.Values.C85_fails_quotes",
    "EulerDB.Values.C85_fails_keyword",
    "EulerDB.Values.C85_fails_dict_rows",
    "EulerDB.Values.C85_limit_partial",
    "EulerDB.Values.C85_no_limit_partial",
    "EulerDB.Values.C85_fails_list",
    "EulerDB.Values.C85_values_partial",
    "EulerDB.Values.C85_fails_rows",
    "EulerDB.Values.C85_number",
    "EulerDB.Values.C85_literal",
    "EulerDB.Values.C85_literal_iff"
   ],
   "note": "Proved: for INSERTs whose values are literals, values are the numbers and the texts in their order (C85_values_partial, C85_number, C85_literal; C85_literal_iff says which texts are read as they stand between the quotes), values_dict of a single row pairs each column with its value (C85_dict_partial), and limit_and_offset is what MySQL applies for all three spellings of LIMIT if no number before it follows a punctuation (C85_limit_partial, C85_no_limit_partial). False in general: C85_fails_rows (for all statements: rows cannot be told apart), C85_fails_list (for all queries: a number after a punctuation hides the limit), and on characters C85_fails_in, C85_fails_inner, C85_fails_null, C85_fails_expression, C85_fails_quotes, C85_fails_keyword, C85_fails_dict_rows."
  },
  {
   "property": "C86",
   "status": "partial",
   "theorems": [
    "EulerDB.Answer.C86_proxy_extends",
    "EulerDB.Answer.C86_answer_partial",
    "EulerDB.Answer.C86_join_partial",
    "EulerDB.Sql.C86_extends",
    "EulerDB.Sql.C86_select_partial",
    "EulerDB.Sql.C86_fails_comment",
    "EulerDB.Sql.C86_fails_natural",
    "EulerDB.Sql.C86_query_partial",
    "EulerDB.Sql.C86_joins"
   ],
   "note": "Proved for the parser on characters: every text with a derivation as a query is read as its parts (C86_query_partial: DISTINCT, items, tables, joins with ON or USING, WHERE, GROUP BY, HAVING, ORDER BY with directions, the three forms of LIMIT), in agreement with the parser of C70 wherever that has an answer (C86_extends, C86_select_partial, C86_proxy_extends); after any statements of C71 such a query is read, rewritten, run and decrypted to the answers over the client's own tables (C86_answer_partial with C81, C86_join_partial with C80). False in general: a comment between ORDER and BY makes the parser reject the query (C86_fails_comment), NATURAL JOIN is read as an alias and a join without condition (C86_fails_natural)."
  },
  {
   "property": "C87",
   "status": "partial",
   "theorems": [
    "EulerDB.Nulls.C87_statement_partial",
    "EulerDB.Nulls.C87_session_partial",
    "EulerDB.Nulls.C87_fresh_partial",
    "EulerDB.Nulls.C87_null_unknown",
    "EulerDB.Nulls.C87_null_neither",
    "EulerDB.Nulls.C87_extends",
    "EulerDB.Nulls.C87_fails_is_null",
    "EulerDB.Nulls.C87_fails_null_written"
   ],
   "note": "Proved: one statement (C87_statement_partial), sessions of any length (C87_session_partial) and sessions on empty tables (C87_fresh_partial) in which an INSERT names at least two columns and leaves out any others are answered as by a database without encryption, over a backend with NULLs and three-valued conditions; the selected rows are those for which the condition is true in three-valued logic (C87_null_unknown, C87_null_neither); the backend agrees with that of C71 wherever that one answers (C87_extends). The property is false of the code as stated: IS NULL over an encrypted column is sent with the client name of the column (C87_fails_is_null) and NULL written out for an encrypted column is refused (C87_fails_null_written)."
  },
  {
   "property": "C88",
   "status": "partial",
   "theorems": [
    "EulerDB.Like.C88_delete_refused",
    "EulerDB.Like.C88_select_refused",
    "EulerDB.Like.C88_fails_not_like",
    "EulerDB.Like.C88_fails_hello_world",
    "EulerDB.Like.C88_fails_underscore",
    "EulerDB.Like.C88_fails_overlap",
    "EulerDB.Like.C88_statement_partial",
    "EulerDB.Like.C88_session_partial",
    "EulerDB.Like.C88_one_word",
    "EulerDB.Like.C88_none_missed_partial",
    "EulerDB.Like.C88_words_occur_partial",
    "EulerDB.Like.C88_exact_session_partial",
    "EulerDB.Like.C88_alnum_column_partial"
   ],
   "note": "Proved: every statement with a LIKE search, and every session of them with plain statements, is answered as by a database without encryption that uses the search predicate found (C88_statement_partial, C88_session_partial); for a pattern of one word found is decided by the characters of word and value (C88_one_word); a matching value is found if it is alphanumeric or none of the words is (C88_none_missed_partial); all words of the pattern occur in every value found (C88_words_occur_partial); sessions with precise searches are exact (C88_exact_session_partial, C88_alnum_column_partial). A word of fewer than three characters or a column without fuzzy column is refused (C88_delete_refused, C88_select_refused). The property is false of the code as stated: C88_fails_hello_world, C88_fails_underscore, C88_fails_overlap, C88_fails_not_like."
  },
  {
   "property": "C89",
   "status": "partial",
   "theorems": [
    "EulerDB.Choice.C89_fails_order",
    "EulerDB.Choice.C89_fails_capital",
    "EulerDB.Choice.C89_fails_dotted",
    "EulerDB.Choice.C89_fails_optional",
    "EulerDB.Choice.C89_words_partial",
    "EulerDB.Choice.C89_reserved_partial",
    "EulerDB.Choice.C89_types_partial",
    "EulerDB.Choice.C89_durations_partial",
    "EulerDB.Choice.C89_first_partial",
    "EulerDB.Choice.C89_longest_partial"
   ],
   "note": "Proved for lists of any length: with keys in characters whose cases go together and parsers that succeed only where one of their keys stands, MatchFirst over the tables answers what the first success answers if the keys keep the order (C89_first_partial), and Or finds the longest match in any order (C89_longest_partial); the order condition is checked for the reserved words, the column types and the units of time of the grammar. False in general: alternatives can change places (C89_fails_order), capitals outside the table raise KeyError (C89_fails_capital, C89_fails_dotted), optional alternatives are skipped (C89_fails_optional)."
  },
  {
   "property": "C90",
   "status": "partial",
   "theorems": [
    "EulerDB.NullLit.C90_is",
    "EulerDB.NullLit.C90_is_not",
    "EulerDB.NullLit.C90_equals",
    "EulerDB.NullLit.C90_fails_equals",
    "EulerDB.NullLit.C90_fails_is_null",
    "EulerDB.NullLit.C90_fails_insert",
    "EulerDB.NullLit.C90_statement_partial",
    "EulerDB.NullLit.C90_session_partial",
    "EulerDB.NullLit.C90_set_null",
    "EulerDB.NullLit.C90_divide"
   ],
   "note": "Proved: one statement (C90_statement_partial) and sessions of any length (C90_session_partial) in which UPDATE sets any columns - encrypted ones too - to NULL or values and conditions are comparisons with values or IS NULL / IS NOT NULL of a plain column are answered as by a database without encryption, and leave related contents; a column set to NULL is shown as NULL, the others as before (C90_set_null); IS NULL and IS NOT NULL divide the rows (C90_divide); the spellings of both are recognised (C90_is, C90_is_not). False in general: n = NULL and n <> NULL are read as IS NULL and IS NOT NULL (C90_equals), so a DELETE with such a condition removes rows that a database keeps (C90_fails_equals); IS NULL of an encrypted column is sent with the name the client uses and refused by the backend whenever the table has rows (C90_fails_is_null); an INSERT with NULL among its values is refused by the proxy (C90_fails_insert)."
  },
  {
   "property": "C91",
   "status": "partial",
   "theorems": [
    "EulerDB.Nested.C91_fails_filtered",
    "EulerDB.Nested.C91_fails_one_column",
    "EulerDB.Nested.C91_fails_star",
    "EulerDB.Nested.C91_fails_max",
    "EulerDB.Nested.C91_query_partial",
    "EulerDB.Nested.C91_answered"
   ],
   "note": "Proved by induction on the depth: if the layers over an alias or a subquery have no WHERE and no ORDER BY and every subquery has several columns (or *) with different names, the query is accepted, and the decrypted answers of MySQL to the rewritten query are exactly the answers of the query on the plain tables (C91_query_partial, both directions); such answers exist (C91_answered). False in general: a comparison in WHERE or ORDER BY in a layer over an alias or a subquery, at any depth, is refused whatever the columns are (C91_fails_filtered); a query for any column of a one-column subquery is refused, because the column is taken for the table (C91_fails_one_column); * over a subquery with some of the columns (C91_fails_star) and MAX of an encrypted column of a subquery (C91_fails_max) are sent with a column that the subquery does not have. Items are columns, COUNT(*), MAX and MIN; MySQL is the evaluator of C81 with the answer of the subquery as the table."
  },
  {
   "property": "C92",
   "status": "partial",
   "theorems": [
    "EulerDB.Regex.C92_fails_backtrack",
    "EulerDB.Regex.C92_fails_whitespace",
    "EulerDB.Regex.C92_fails_repeat",
    "EulerDB.Regex.C92_fails_or_empty",
    "EulerDB.Regex.C92_fails_stop",
    "EulerDB.Regex.C92_reserved",
    "EulerDB.Regex.C92_fails_accent",
    "EulerDB.Regex.C92_reserved_passes",
    "EulerDB.Regex.C92_range_partial",
    "EulerDB.Regex.C92_fails_range",
    "EulerDB.Regex.C92_char_partial",
    "EulerDB.Regex.C92_fails_char_excluded",
    "EulerDB.Regex.C92_text_partial",
    "EulerDB.Regex.C92_fails_text_repeat",
    "EulerDB.Regex.C92_found_partial",
    "EulerDB.Regex.C92_plain_partial",
    "EulerDB.Regex.C92_not_any_found",
    "EulerDB.Regex.C92_not_any_partial",
    "EulerDB.Regex.C92_word_same",
    "EulerDB.Regex.C92_word_partial",
    "EulerDB.Regex.C92_fails_word_exact",
    "EulerDB.Regex.C92_notin_partial",
    "EulerDB.Regex.C92_fails_notin",
    "EulerDB.Regex.C92_caseless_partial",
    "EulerDB.Regex.C92_fails_caseless",
    "EulerDB.Regex.C92_keyword",
    "EulerDB.Regex.C92_two_words",
    "EulerDB.Regex.C92_fails_two_words"
   ],
   "note": "Proved: a set of characters is read back as the set (C92_range_partial), also in Char (C92_char_partial); the pattern of every parser of characters, literals, keywords, sequences, choices, repetitions and lookaheads compiles and matches, in order of backtracking, what the elements match composed (C92_text_partial); without whitespace what the parser finds is a match (C92_found_partial), and the first match if no choice or repetition is followed by anything (C92_plain_partial); then ~e refuses exactly what e finds (C92_not_any_found, C92_not_any_partial). Words (C92_word_same, C92_word_partial), CharsNotIn (C92_notin_partial) and keywords (C92_caseless_partial, C92_keyword) match the longest run and the word up to its end; ~RESERVED refuses exactly texts that begin with a reserved word that ends there (C92_reserved, C92_reserved_passes). False in general: C92_fails_range (greatest character 6), C92_fails_char_excluded, C92_fails_word_exact (no bound), C92_fails_notin ({2:} is text), C92_fails_caseless, C92_two_words and C92_fails_two_words (~ of two keywords refuses nothing), C92_fails_text_repeat and C92_fails_repeat (a repetition of a repetition does not compile, then ~ refuses nothing), C92_fails_backtrack, C92_fails_whitespace, C92_fails_or_empty, C92_fails_stop, C92_fails_accent (identifiers that begin with a reserved word and go on with an accented letter are refused). Python re is a model (reader and backtracking matcher); a repetition of elements that take nothing has no result."
  },
  {
   "property": "C93",
   "status": "partial",
   "theorems": [
    "EulerDB.Expect.C93_class_partial",
    "EulerDB.Expect.C93_ident",
    "EulerDB.Expect.C93_regex_partial",
    "EulerDB.Expect.C93_regex_min_partial",
    "EulerDB.Expect.C93_regex_choice_partial",
    "EulerDB.Expect.C93_sql",
    "EulerDB.Expect.C93_sql_choice",
    "EulerDB.Expect.C93_fails_word",
    "EulerDB.Expect.C93_fails_question",
    "EulerDB.Expect.C93_fails_cut",
    "EulerDB.Expect.C93_fails_edge",
    "EulerDB.Expect.C93_fails_caret",
    "EulerDB.Expect.C93_fails_all",
    "EulerDB.Expect.C93_fails_twice",
    "EulerDB.Expect.C93_fails_digits",
    "EulerDB.Expect.C93_fails_choice",
    "EulerDB.Expect.C93_keys",
    "EulerDB.Expect.C93_min_partial",
    "EulerDB.Expect.C93_fails_min",
    "EulerDB.Expect.C93_choice_partial",
    "EulerDB.Expect.C93_fails_optional"
   ],
   "note": "False of the code: C93_fails_optional, C93_fails_min, C93_fails_word, C93_fails_question, C93_fails_cut, C93_fails_edge, C93_fails_caret, C93_fails_all, C93_fails_twice, C93_fails_digits, C93_fails_choice. Proved: C93_keys (all parsers: a key stands there, or nothing is taken and min_length is 0), C93_choice_partial (tables of alternatives), C93_min_partial (no lookahead), C93_class_partial (brackets), C93_regex_partial and C93_regex_choice_partial (expressions whose keys cover them), C93_sql and C93_sql_choice (all seven patterns of the SQL grammar, ASCII digits), C93_ident."
  },
  {
   "property": "C94",
   "status": "partial",
   "theorems": [
    "EulerDB.SetOps.C94_fails_paren",
    "EulerDB.SetOps.C94_fails_paren_rows",
    "EulerDB.SetOps.C94_fails_fetch",
    "EulerDB.SetOps.C94_fails_limit_rows",
    "EulerDB.SetOps.C94_fails_intersect",
    "EulerDB.SetOps.C94_fails_intersect_rows",
    "EulerDB.SetOps.C94_fails_right",
    "EulerDB.SetOps.C94_fails_right_rows",
    "EulerDB.SetOps.C94_fails_distinct",
    "EulerDB.SetOps.C94_fails_with",
    "EulerDB.SetOps.C94_fails_reach",
    "EulerDB.SetOps.C94_fails_recursive",
    "EulerDB.SetOps.C94_fails_fetch_text",
    "EulerDB.SetOps.C94_loop",
    "EulerDB.SetOps.C94_parse_partial",
    "EulerDB.SetOps.C94_text",
    "EulerDB.SetOps.C94_write_partial",
    "EulerDB.SetOps.C94_round_partial"
   ],
   "note": "False of the code: a tail (ORDER BY, LIMIT, OFFSET, FETCH) after a query in parentheses and that query's WITH are dropped (C94_fails_paren), LIMIT 0 and FETCH after set operations are dropped (C94_fails_fetch), INTERSECT is applied from left to right (C94_fails_intersect), parentheses of a right operand are not written (C94_fails_right), UNION DISTINCT and the like are written as functions (C94_fails_distinct), WITH before set operations, WITH of an operand and WITH RECURSIVE are written wrong (C94_fails_with, C94_fails_reach, C94_fails_recursive), FETCH is written with the number of OFFSET (C94_fails_fetch_text). Proved for all queries outside these cases: C94_parse_partial, C94_write_partial, C94_round_partial; unconditionally C94_loop and C94_text. SELECTs, ORDER BY keys and WITH bodies are opaque."
  },
  {
   "property": "C95",
   "status": "partial",
   "theorems": [
    "EulerDB.Results.C95_fails_in",
    "EulerDB.Results.C95_fails_in_group",
    "EulerDB.Results.C95_fails_keys",
    "EulerDB.Results.C95_fails_truth",
    "EulerDB.Results.C95_fails_list",
    "EulerDB.Results.C95_fails_set",
    "EulerDB.Results.C95_fails_delete",
    "EulerDB.Results.C95_fails_last",
    "EulerDB.Results.C95_flatten_names",
    "EulerDB.Results.C95_flatten_flat",
    "EulerDB.Results.C95_get",
    "EulerDB.Results.C95_items_partial",
    "EulerDB.Results.C95_keys_partial",
    "EulerDB.Results.C95_in_partial",
    "EulerDB.Results.C95_truth_partial",
    "EulerDB.Results.C95_list_partial",
    "EulerDB.Results.C95_index",
    "EulerDB.Results.C95_delete_partial",
    "EulerDB.Results.C95_set_partial"
   ],
   "note": "False of the code: in misses names with the value 0 or an empty group (C95_fails_in, C95_fails_in_group), names behind a Forward are missing from keys, truth and deletion (C95_fails_keys, C95_fails_truth, C95_fails_delete), as_list wraps a group behind a Forward twice (C95_fails_list), setting a name that is there loses it (C95_fails_set), the last token cannot be read by -1 (C95_fails_last). Proved: reading by name for all results; without ForwardResults keys, items, truth, lists, deletion and setting of new names agree with it."
  },
  {
   "property": "C96",
   "status": "partial",
   "theorems": [
    "EulerDB.Repeat.C96_fails_empty",
    "EulerDB.Repeat.C96_fails_forever",
    "EulerDB.Repeat.C96_fails_suppressed",
    "EulerDB.Repeat.C96_fails_suppressed_text",
    "EulerDB.Repeat.C96_fails_mixed",
    "EulerDB.Repeat.C96_fails_end",
    "EulerDB.Repeat.C96_many_partial",
    "EulerDB.Repeat.C96_zero"
   ],
   "note": "False of the code: a repetition of an element that matches nothing does not end (C96_fails_empty, C96_fails_forever), suppressed repetitions are given back, not counted or an error (C96_fails_suppressed, C96_fails_mixed), at the end of the text nothing is tried (C96_fails_end). Proved: for elements that take a character and keep something, repetition ends, takes all there is and fails exactly if there is too little; ZeroOrMore and Optional never fail."
  },
  {
   "property": "C97",
   "status": "proved",
   "theorems": [
    "EulerDB.Comment.C97_pattern",
    "EulerDB.Comment.C97_scan",
    "EulerDB.Comment.C97_skip",
    "EulerDB.Comment.C97_space",
    "EulerDB.Comment.C97_pos",
    "EulerDB.Comment.C97_cache"
   ],
   "note": "For all texts: the first match of the pattern in the order of backtracking leaves the one text behind white space and comments (C97_pattern, C97_skip), which is what the scanner of the parser models leaves (C97_scan); comments are as white space; positions go forward; any sequence of calls through the cache gets the answers of the pattern (C97_cache). Texts are recognised by content, the code asks for the same object. How this compares with MySQL is C68."
  },
  {
   "property": "C98",
   "status": "partial",
   "theorems": [
    "EulerDB.Clause.C98_frame",
    "EulerDB.Clause.C98_clauses",
    "EulerDB.Clause.C98_fails_clauses",
    "EulerDB.Clause.C98_fails_union",
    "EulerDB.Clause.C98_fails_union_limit",
    "EulerDB.Clause.C98_fails_subquery"
   ],
   "note": "False of the code. Proved: keys that are not in the clause table keep their values (C98_frame) and the rewriter neither adds nor removes a clause (C98_clauses); hence GROUP BY, HAVING, WITH and windows are sent as parsed (C98_fails_clauses), queries nested in conditions too (C98_fails_subquery), set operations are refused (C98_fails_union) and with LIMIT replaced by None (C98_fails_union_limit)."
  },
  {
   "property": "C99",
   "status": "partial",
   "theorems": [
    "EulerDB.Layout.C99_fails_operators",
    "EulerDB.Layout.C99_fails_comment_end",
    "EulerDB.Layout.C99_fails_error",
    "EulerDB.Layout.C99_fails_backticks",
    "EulerDB.Layout.C99_fails_truncate",
    "EulerDB.Layout.C99_fails_python",
    "EulerDB.Layout.C99_spaces",
    "EulerDB.Layout.C99_whitespace",
    "EulerDB.Layout.C99_whitespace_total",
    "EulerDB.Layout.C99_one_blank",
    "EulerDB.Layout.C99_keywords",
    "EulerDB.Layout.C99_python_partial",
    "EulerDB.Layout.C99_truncate_short",
    "EulerDB.Layout.C99_truncate_partial"
   ],
   "note": "False of the code for five options (C99_fails_operators, C99_fails_comment_end, C99_fails_error, C99_fails_backticks, C99_fails_truncate, C99_fails_python). Proved for all trees: both filters of blanks keep every token that is no white space (C99_spaces with termination, C99_whitespace, C99_whitespace_total for closed parentheses), white space between two tokens becomes one blank (C99_one_blank), keywords change in case only (C99_keywords); partial statements for literals without quotes or backslashes."
  },
  {
   "property": "C100",
   "status": "partial",
   "theorems": [
    "EulerDB.OneOf.C100_order",
    "EulerDB.OneOf.C100_first_is_longest",
    "EulerDB.OneOf.C100_caseless_partial",
    "EulerDB.OneOf.C100_exact",
    "EulerDB.OneOf.C100_fails_empty",
    "EulerDB.OneOf.C100_fails_letter",
    "EulerDB.OneOf.C100_fails_keywords"
   ],
   "note": "False in three cases (C100_fails_empty, C100_fails_letter, C100_fails_keywords). Proved for all lists of words: the reordering loop ends and gives an order in which no word is a beginning of a later one (C100_order), trying in that order finds the longest (C100_first_is_longest), so does the pattern when the empty word is not given (C100_exact), and the caseless choice when words of one character are no letters (C100_caseless_partial)."
  },
  {
   "property": "C101",
   "status": "partial",
   "theorems": [
    "EulerDB.Presto.C101_fails_minus",
    "EulerDB.Presto.C101_fails_minus_number",
    "EulerDB.Presto.C101_fails_two_signs",
    "EulerDB.Presto.C101_fails_string",
    "EulerDB.Presto.C101_fails_condition",
    "EulerDB.Presto.C101_fails_where",
    "EulerDB.Presto.C101_sort_partial",
    "EulerDB.Presto.C101_fails_sort_case",
    "EulerDB.Presto.C101_fails_nulls_case",
    "EulerDB.Presto.C101_fails_nulls_twice",
    "EulerDB.Presto.C101_fails_set_operation",
    "EulerDB.Presto.C101_value_partial",
    "EulerDB.Presto.C101_where_partial",
    "EulerDB.Presto.C101_text_partial",
    "EulerDB.Presto.C101_string_read",
    "EulerDB.Presto.C101_string_partial",
    "EulerDB.Presto.C101_fails_string_grows",
    "EulerDB.Presto.C101_unique_partial"
   ],
   "note": "The property is false of the code: a minus sign is written as a plus sign (C101_fails_minus, C101_fails_minus_number), a sign before a sign is not read again (C101_fails_two_signs), a quote in a string is doubled each time (C101_fails_string, C101_fails_string_grows), a condition that was written is not read as a condition (C101_fails_condition), and after WHERE not when it contains another (C101_fails_where), asc and nulls first in lower case turn into DESC and NULLS LAST (C101_fails_sort_case, C101_fails_nulls_case), an order of nulls in upper case is written twice (C101_fails_nulls_twice), a union or intersection is a TypeError (C101_fails_set_operation). Proved: plain values are read again (C101_value_partial), conditions of plain values after WHERE (C101_where_partial), a string exactly if it has no quote (C101_string_partial), expressions without a minus sign have different texts (C101_text_partial), directions in upper case are kept (C101_sort_partial). The text of a plain value has no other reading (C101_unique_partial); for conditions this is not proved."
  },
  {
   "property": "C102",
   "status": "partial",
   "theorems": [
    "EulerDB.Presto.C102_top_partial",
    "EulerDB.Presto.C102_no_limit_partial",
    "EulerDB.Presto.C102_other_limit",
    "EulerDB.Presto.C102_fails_limit",
    "EulerDB.Presto.C102_fails_limit_rows",
    "EulerDB.Presto.C102_fails_top_zero",
    "EulerDB.Presto.C102_join_partial",
    "EulerDB.Presto.C102_inner_iff",
    "EulerDB.Presto.C102_fails_join_case",
    "EulerDB.Presto.C102_fails_join_rows",
    "EulerDB.Presto.C102_fails_right_rows",
    "EulerDB.Presto.C102_fails_natural",
    "EulerDB.Presto.C102_fails_using",
    "EulerDB.Presto.C102_on",
    "EulerDB.Presto.C102_fails_on",
    "EulerDB.Presto.C102_fails_star",
    "EulerDB.Presto.C102_column"
   ],
   "note": "The property is false of the code: LIMIT after a simple query is lost (C102_fails_limit, C102_fails_limit_rows), TOP 0 gives all rows (C102_fails_top_zero), left in lower case is read as an inner join and rows are lost (C102_fails_join_case, C102_fails_join_rows, C102_fails_right_rows), NATURAL LEFT JOIN too (C102_fails_natural), a join with USING is an AttributeError when written (C102_fails_using), the condition written after ON is not read again (C102_fails_on), * is written as nothing (C102_fails_star). Proved: TOP with a number other than 0 and no limit are kept (C102_top_partial, C102_no_limit_partial), a limit after a set operation is read (C102_other_limit), words in upper case give the kind of join asked for (C102_join_partial, C102_inner_iff), a column keeps expression and name (C102_column)."
  },
  {
   "property": "C103",
   "status": "partial",
   "theorems": [
    "EulerDB.Skip.C103_ends_ignore",
    "EulerDB.Skip.C103_first_ignore_partial",
    "EulerDB.Skip.C103_none_ignore",
    "EulerDB.Skip.C103_found_ignore_partial",
    "EulerDB.Skip.C103_ends",
    "EulerDB.Skip.C103_first_partial",
    "EulerDB.Skip.C103_none_partial",
    "EulerDB.Skip.C103_found_partial",
    "EulerDB.Skip.C103_fails_fail_on",
    "EulerDB.Skip.C103_fails_fail_on_later",
    "EulerDB.Skip.C103_fails_ignore_empty"
   ],
   "note": "The property is false of the code: a match of fail_on before the expression is a match of SkipTo (C103_fails_fail_on, C103_fails_fail_on_later), and an ignored expression that matches the empty text keeps the loop from ending (C103_fails_ignore_empty). Proved where nothing is ignored: it ends (C103_ends), finds the first place (C103_first_partial, C103_found_partial) and fails only if there is none (C103_none_partial). With ignored text that is never empty the same holds of the places outside of it (C103_ends_ignore, C103_first_ignore_partial, C103_none_ignore, C103_found_ignore_partial)."
  },
  {
   "property": "C104",
   "status": "partial",
   "theorems": [
    "EulerDB.Behind.C104_stays",
    "EulerDB.Behind.C104_exact_partial",
    "EulerDB.Behind.C104_window_iff",
    "EulerDB.Behind.C104_found",
    "EulerDB.Behind.C104_sound_partial",
    "EulerDB.Behind.C104_fails_blank",
    "EulerDB.Behind.C104_fails_retreat",
    "EulerDB.Behind.C104_fails_retreat_far",
    "EulerDB.Behind.C104_fails_regex"
   ],
   "note": "The property is false of the code: white space between the expression and the place is passed (C104_fails_blank), the argument retreat is not used (C104_fails_retreat, C104_fails_retreat_far), and an expression that is not of one length has no regular expression (C104_fails_regex). Proved: the place does not move (C104_stays); an expression of one length is found exactly if it ends at the place (C104_exact_partial); otherwise the nearest place from which the expression and the end are read is found (C104_window_iff), each text that ends at the place is enough (C104_found), and without white space what is found ends there (C104_sound_partial)."
  },
  {
   "property": "C105",
   "status": "partial",
   "theorems": [
    "EulerDB.Scan.C105_ends",
    "EulerDB.Scan.C105_matches",
    "EulerDB.Scan.C105_chain",
    "EulerDB.Scan.C105_complete",
    "EulerDB.Scan.C105_once_partial",
    "EulerDB.Scan.C105_fails_twice",
    "EulerDB.Scan.C105_fails_overlap",
    "EulerDB.Scan.C105_transform",
    "EulerDB.Scan.C105_split",
    "EulerDB.Scan.C105_split_parts"
   ],
   "note": "False in one respect: an empty match after white space is given twice (C105_fails_twice), and with overlap any match after white space (C105_fails_overlap). Proved: the search ends (C105_ends), gives matches only and no more than asked for (C105_matches), in order and disjoint (C105_chain), misses none outside of those given (C105_complete), and gives matches that are not empty once (C105_once_partial); transform_string and split keep the text (C105_transform, C105_split, C105_split_parts)."
  }
 ]
}