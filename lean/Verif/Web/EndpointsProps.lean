import Verif.Web.Endpoints
import Verif.Clause.WholeProps
import Verif.Table.Props

/-! # C35, C40, C54, C55: answers of the endpoints -/

namespace EulerDB.Web

open EulerDB EulerDB.Delta EulerDB.Clause

/-! ### C35 -/

/-- A statement that is rewritten is answered with its rewriting. -/
theorem C35_rewritten_partial (rw : List Char → Except PyErr (List Char × Json)) (sql s : List Char) (t : Json) (hv : sql ≠ versionQuery) (h : rw sql = .ok (s, t)) :
    encryptSql1 rw sql = ⟨s, t⟩ := by simp [encryptSql1, hv, h]

/-- The first endpoint answers a statement that cannot be rewritten with an error, and every other with its rewriting. -/
theorem C35_first_endpoint (rw : List Char → Except PyErr (List Char × Json)) (sql : List Char) :
    (∀ e, rw sql = .error e → encryptSql0 rw sql = .error e) ∧ (∀ a, encryptSql0 rw sql = .ok a → ∃ t, rw sql = .ok (a.sql, t)) := by
  unfold encryptSql0
  constructor
  · intro e h; rw [h]
  · intro a h
    cases hr : rw sql with
    | error e => rw [hr] at h; cases h
    | ok x =>
      obtain ⟨s, t⟩ := x
      rw [hr] at h
      injection h with h
      subst h
      exact ⟨t, rfl⟩

/-- The property fails for every statement whose rewriting raises: the answer is the statement itself. -/
theorem C35_fails_original (rw : List Char → Except PyErr (List Char × Json)) (sql : List Char) (e : PyErr) (h : rw sql = .error e) : (encryptSql1 rw sql).sql = sql := by
  unfold encryptSql1
  split
  · rename_i hv; simp [hv]
  · rw [h]

/-- It fails in particular for every statement on a table the proxy does not know, whatever secrets the statement contains. -/
theorem C35_fails_unknown_table (q : Sql) (c : Crypto) (db : Db) (fuel : Nat) (sql : List Char) (t : String) (row : List (String × Val)) (hp : q.parse sql = .ok (insertJson t row))
    (ht : Dict.get? db t = none) : (encryptSql1 (rewriteText q c db fuel none) sql).sql = sql := by
  have h1 : ∃ e, rewriteQuery c db fuel (insertJson t row) = .error e := by
    refine ⟨.keyError, ?_⟩
    have hf : findTable (insertJson t row) tableKeys = .ok (.str t) := by simp [insertJson, tableKeys, findTable, Dict.get?_cons]
    have hi : Dict.get? (insertJson t row) "insert" = some (.str t) := by simp [insertJson, Dict.get?_cons]
    have hl : ∀ f cols rest s, clauseLoop c db f (.str t) cols ("insert" :: rest) (insertJson t row) s = .error .keyError := by
      intro f cols rest s
      have h2 : stepKey c db (.str t) cols "insert" (.str t) s = .error .keyError := by
        simp [stepKey, anonRw, tableOfJson, tableOf, Dict.getItem, ht, Except.map]
      rw [clauseLoop, hi]
      simp only [if_neg (show ¬ "insert" = "from" by decide), h2]
    rw [rewriteQuery, hf]
    simp only [clauseKeys, hl]
  obtain ⟨e, h1⟩ := h1
  exact C35_fails_original _ sql e (by simp [rewriteText, hp, h1])

/-- A salary inserted into a table that was created behind the proxy's back comes back in clear, and is answered with an error by the first endpoint. -/
example : let q : Sql := ⟨fun _ => .ok (insertJson "salaries" [("amount", .int 100000)]), fun _ => [], fun _ _ => .error .generic⟩
    (encryptSql1 (rewriteText q demoCrypto demoDb 1 none) "insert into salaries(amount) values (100000)".toList).sql = "insert into salaries(amount) values (100000)".toList :=
  C35_fails_unknown_table _ _ _ _ _ "salaries" [("amount", .int 100000)] rfl (by decide)

/-! ### C40 -/

theorem stripRev_spec (r q : List Char) (h : stripRev r = .ok q) : ∃ k, r = List.replicate k ';' ++ q ∧ q.head? ≠ some ';' ∧ q ≠ [] := by
  induction r with
  | nil => cases h
  | cons c r ih =>
    unfold stripRev at h
    split at h
    · rename_i hc
      obtain ⟨k, h1, h2⟩ := ih h
      exact ⟨k + 1, by rw [List.replicate_succ, List.cons_append, ← h1, hc], h2⟩
    · rename_i hc
      injection h with h
      subst h
      exact ⟨0, by simp, by simpa using hc, by simp⟩

/-- Exactly the trailing semicolons are removed. -/
theorem C40_strip (q s : List Char) (h : stripSemi q = .ok s) : ∃ k, q = s ++ List.replicate k ';' ∧ s.getLast? ≠ some ';' ∧ s ≠ [] := by
  unfold stripSemi at h
  cases hr : stripRev q.reverse with
  | error e => rw [hr] at h; cases h
  | ok r =>
    rw [hr] at h
    injection h with h
    obtain ⟨k, h1, h2, h3⟩ := stripRev_spec _ _ hr
    refine ⟨k, ?_, ?_, ?_⟩
    · have := congrArg List.reverse h1
      simpa [h] using this
    · rw [← h]; simpa [List.getLast?_reverse] using h2
    · rw [← h]; simpa using h3

/-- `/query` without options executes the rewriting of the statement. -/
theorem C40_query_partial (q : Sql) (c : Crypto) (db : Db) (fuel : Nat) (text : List Char) (json json' : Dict String Json) (table : Json) (s : Sel)
    (hp : q.parse text = .ok json) (hr : rewriteQuery c db fuel json = .ok (json', table, s)) : postQuery q c db fuel none text = .ok (q.fmt json', table) := by
  simp [postQuery, rewriteText, hp, hr]

/-- The property fails for every statement: whatever is not CREATE TABLE raises on `/jdbc_query`. -/
theorem C40_fails_jdbc (q : Sql) (c : Crypto) (db : Db) (fuel : Nat) (text : List Char)
    (h : ∀ s json, stripSemi text = .ok s → q.parse s = .ok json → Dict.get? json "create table" = none) : ∃ e, jdbcQuery q c db fuel text = .error e := by
  unfold jdbcQuery
  cases hs : stripSemi text with
  | error e => exact ⟨e, rfl⟩
  | ok s =>
    simp only [rewriteText]
    cases hp : q.parse s with
    | error e => exact ⟨e, rfl⟩
    | ok json => exact ⟨.generic, by simp [h s json hs hp]⟩

/-- The same statement, executed on `/query` and refused on `/jdbc_query`. -/
theorem C40_fails_differs (q : Sql) (c : Crypto) (db : Db) (fuel : Nat) (text : List Char) (json json' : Dict String Json) (table : Json) (s : Sel)
    (hp : q.parse text = .ok json) (hr : rewriteQuery c db fuel json = .ok (json', table, s)) (hc : Dict.get? json "create table" = none)
    (hl : text.getLast? ≠ some ';') (hne : text ≠ []) : postQuery q c db fuel none text = .ok (q.fmt json', table) ∧ jdbcQuery q c db fuel text = .error .generic := by
  refine ⟨C40_query_partial q c db fuel text json json' table s hp hr, ?_⟩
  have hs : stripSemi text = .ok text := by
    unfold stripSemi
    cases hrev : text.reverse with
    | nil => exact absurd (List.reverse_eq_nil_iff.1 hrev) hne
    | cons a r =>
      have ht : text = (a :: r).reverse := by rw [← hrev, List.reverse_reverse]
      have ha : a ≠ ';' := by
        intro e
        apply hl
        rw [ht, e]; simp
      simp [stripRev, ha, Except.map, ht]
  simp [jdbcQuery, hs, rewriteText, hp, hc]

/-- It fails for CREATE TABLE in another way: every column of the new table is stored in clear. -/
theorem C40_fails_create_plaintext (env : Table.Env) (m : Meta ColMeta) (db : String) (ct : Table.CreateTable) (r : Table.Rewritten) (h : Table.rewriteTable env m db [] ct = .ok r)
    (hn : (ct.columns.map Table.ColDef.name).Nodup) (col : Table.ColDef) (hc : col ∈ ct.columns) : ∃ cm, Dict.get? r.meta_.columns col.name = some cm ∧ cm.plaintext = true := by
  obtain ⟨cm, h1, _, _, h4, _⟩ := Table.C21_metadata_is_declared h hn hc
  exact ⟨cm, h1, (h4 rfl).1⟩

/-- An empty statement, or one of semicolons only, raises IndexError. -/
theorem C40_fails_empty (q : Sql) (c : Crypto) (db : Db) (fuel : Nat) (k : Nat) : jdbcQuery q c db fuel (List.replicate k ';') = .error .indexError := by
  have : stripRev (List.replicate k ';') = .error .indexError := by
    induction k with
    | zero => rfl
    | succ k ih => rw [List.replicate_succ, stripRev, if_pos rfl, ih]
  simp [jdbcQuery, stripSemi, this, Except.map]

/-- SELECT name FROM emp on both endpoints. -/
example : ∃ q : Sql, ∃ json', postQuery q demoCrypto demoDb 1 none ['q'] = .ok (q.fmt json', .str "emp") ∧ jdbcQuery q demoCrypto demoDb 1 ['q'] = .error .generic := by
  obtain ⟨json', h1, _, _⟩ := select_rewrite (c := demoCrypto) (fuel := 1) (ns := ["name"]) (db := demoDb) rfl demo_plain (by simpa using demo_readable "name" (by decide))
  exact ⟨⟨fun _ => .ok (selectJson "emp" ["name"]), fun _ => [], fun _ _ => .error .generic⟩, json',
    C40_fails_differs _ _ _ _ _ _ _ _ _ rfl h1 (by simp [selectJson, Dict.get?_cons]) (by decide) (by decide)⟩

/-! ### C54: the address of a data source -/

/-- For a URL of the form `jdbc:mysql://host:port/database` the parts are the ones written. -/
theorem C54_parts_partial (h d : List Char) (n : Nat) (h1 : '/' ∉ h) (h2 : ':' ∉ h) (h3 : '/' ∉ d) :
    jdbcParts ("jdbc:mysql://".toList ++ h ++ ':' :: Text.natStr n ++ '/' :: d) = .ok (some (h, n, d)) := by
  have e1 : ∀ r : List Char, ("jdbc:mysql://".toList ++ r).take 13 = "jdbc:mysql://".toList := by
    intro r
    rw [List.take_append_of_le_length (by decide)]
    decide
  have e2 : ∀ r : List Char, ("jdbc:mysql://".toList ++ r).drop 13 = r := by
    intro r
    rw [List.drop_append_of_le_length (by decide)]
    rfl
  have hn : '/' ∉ Text.natStr n := Text.not_mem_natStr (by decide) n
  have hn2 : ':' ∉ Text.natStr n := Text.not_mem_natStr (by decide) n
  unfold jdbcParts
  rw [show "jdbc:mysql://".toList ++ h ++ ':' :: Text.natStr n ++ '/' :: d = "jdbc:mysql://".toList ++ ((h ++ ':' :: Text.natStr n) ++ '/' :: d) by simp [List.append_assoc]]
  rw [if_pos (e1 _), e2]
  rw [Text.split_append _ _ (by simp [h1, hn]), Text.split_word d h3]
  simp only
  rw [Text.split_append _ _ h2, Text.split_word _ hn2]
  simp [Text.parseNat_natStr, Except.map]

/-- The property fails for every URL with options: they become part of the database name. -/
theorem C54_fails_options (h d o : List Char) (n : Nat) (h1 : '/' ∉ h) (h2 : ':' ∉ h) (h3 : '/' ∉ d) (h4 : '/' ∉ o) :
    jdbcParts ("jdbc:mysql://".toList ++ h ++ ':' :: Text.natStr n ++ '/' :: (d ++ '?' :: o)) = .ok (some (h, n, d ++ '?' :: o)) :=
  C54_parts_partial h (d ++ '?' :: o) n h1 h2 (by simp [h3, h4])

/-- It fails for every URL that leaves the port to the default. -/
theorem C54_fails_default_port (h d : List Char) (h1 : '/' ∉ h) (h2 : ':' ∉ h) : jdbcParts ("jdbc:mysql://".toList ++ h ++ '/' :: d) = .error .indexError := by
  have e1 : ∀ r : List Char, ("jdbc:mysql://".toList ++ r).take 13 = "jdbc:mysql://".toList := by
    intro r
    rw [List.take_append_of_le_length (by decide)]
    decide
  have e2 : ∀ r : List Char, ("jdbc:mysql://".toList ++ r).drop 13 = r := by
    intro r
    rw [List.drop_append_of_le_length (by decide)]
    rfl
  unfold jdbcParts
  rw [List.append_assoc, if_pos (e1 _), e2]
  simp only
  rw [Text.split_append _ _ h1]
  simp only [Text.split_word h h2]

example : jdbcParts "jdbc:mysql://localhost:3306/points".toList = .ok (some ("localhost".toList, 3306, "points".toList)) :=
  C54_parts_partial "localhost".toList "points".toList 3306 (by decide) (by decide) (by decide)

/-! ### C55: endpoints that can be used -/

/-- The property fails for `/rewrite_query`: every request raises TypeError. -/
theorem C55_fails_rewrite (rw : List Char → Except PyErr (List Char × Json)) (query : List Char) : rewriteEndpoint rw query = .error .typeError := rfl

/-- It fails for `/jdbc_query/component`: every request raises KeyError. -/
theorem C55_fails_component (run : Except PyErr Unit) : componentEndpoint run = .error .keyError := by
  unfold componentEndpoint
  rw [if_neg (by decide)]

/-- It fails for the schema of every data source whose id has two or more digits: no route. -/
theorem C55_fails_long_id (alnum : Char → Bool) (a b : Char) (r : List Char) (ha : a ≠ '/') : routeSchema alnum ('/' :: a :: b :: r) = none ∧
    (r ≠ [] → routeSchema alnum (a :: b :: r) = none) := by
  constructor
  · simp [routeSchema]
  · intro hr
    cases r with
    | nil => exact absurd rfl hr
    | cons => simp [routeSchema]

/-- It holds for data sources with an id of one digit. -/
theorem C55_short_id_partial (alnum : Char → Bool) (a : Char) (h : alnum a = true) : routeSchema alnum ['/', a] = some (some a) := by
  simp [routeSchema, routeChar, h]

example : routeSchema (fun c => c.isAlphanum) "/7".toList = some (some '7') ∧ routeSchema (fun c => c.isAlphanum) "/12".toList = none := by decide

end EulerDB.Web
