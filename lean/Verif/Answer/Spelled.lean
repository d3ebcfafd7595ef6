/-
C86 with C81 and C80: queries as the client writes them, through parser, rewriter, database and decryption.
-/
import Verif.Answer.Fails
import Verif.Join.Fails
import Verif.Sql.QueryFails

namespace EulerDB.Answer

open EulerDB EulerDB.Clause EulerDB.Delta EulerDB.Whole

/-- rewrite_hander.py 27-28, as `Proxy.parsed` with all of a query. -/
def _root_.EulerDB.Whole.Proxy.parsedQ (P : Proxy) (sql : List Char) : Except PyErr (Dict String Json) :=
  match Alter.parseAlter P.w.uni sql with
  | [] =>
    match Sql.parseQ P.env P.space sql with
    | .json (.dict d) => .ok d
    | .json _ => .error .attributeError
    | .rejected => .error .generic
    | .crashed => .error .generic
    | .unmodelled => .error .notSupported
  | d => .ok d

/-- Where `Proxy.parsed` has an answer the answer is the same. -/
theorem C86_proxy_extends (P : Proxy) (sql : List Char) (h : P.parsed sql ≠ .error .notSupported) : P.parsedQ sql = P.parsed sql := by
  rw [Proxy.parsed] at h ⊢
  rw [Proxy.parsedQ]
  cases hA : Alter.parseAlter P.w.uni sql with
  | cons a l => rfl
  | nil =>
    simp only [hA] at h ⊢
    rw [Sql.C86_extends P.env P.space sql]
    · rfl
    · intro e
      rw [e] at h
      exact h rfl

theorem head_kw {env : Sql.Env} {s : List Char} {p : Sql.Parts} (h : Sql.SpQuery env s p) : ∃ r, Sql.Kw "select" s r := by
  cases h with
  | mk hh _ _ =>
    cases hh with
    | mk h1 => exact ⟨_, h1⟩

theorem parsedQ_of {P : Proxy} {sql s : List Char} {p : Sql.Parts} {d : Dict String Json} (ht : Sql.Trimmed P.space sql s) (h : Sql.SpQuery P.env s p)
    (hj : p.json = .dict d) : P.parsedQ sql = .ok d := by
  have hp := Sql.C86_query_partial P.env P.space ht h
  obtain ⟨r, hk⟩ := head_kw h
  obtain ⟨u, v, rfl, _, _⟩ := ht.split
  rw [Proxy.parsedQ, no_alter _ (by simp) hk, hp, hj]

/-! ### Queries with aggregates, groups, order and limits -/

/-- The parts that were read are those of the query. -/
structure Asks (p : Sql.Parts) (q : Query) : Prop where
  distinct : p.distinct = q.distinct
  cols : p.cols = q.items.map fun i => .dict [("value", i.value)]
  some_item : q.items ≠ []
  tables : p.tables = [.str q.table]
  joins : p.joins = []
  cond : Sql.whereJson p.cond = whereIn q.cond
  group : p.group = q.group.map fun g => .dict [("value", .str g)]
  having : Sql.optEntry "having" (p.having.map Sql.scrub) = havingIn q.having
  order : p.order = q.order.toList.map SortKey.json
  limit : p.limit = q.limit.map fun l => .int l.1
  offset : p.offset = (q.limit.bind Prod.snd).map fun m => .int m

theorem Asks.json {p : Sql.Parts} {q : Query} (h : Asks p q) : p.json = .dict q.json := by
  have h1 : Sql.listJson p.cols = listIn q.items := by
    rw [h.cols]
    have := h.some_item
    rcases hi : q.items with _ | ⟨a, _ | ⟨b, l⟩⟩
    · exact absurd hi this
    · rfl
    · rfl
  have h2 : Sql.listEntry "groupby" p.group = groupIn q.group := by
    rw [h.group]
    rcases q.group with _ | ⟨a, _ | ⟨b, l⟩⟩ <;> rfl
  have h3 : Sql.listEntry "orderby" p.order = orderIn q.order := by
    rw [h.order]
    cases q.order <;> rfl
  have h4 : Sql.optEntry "limit" p.limit ++ Sql.optEntry "offset" p.offset = limitIn q.limit := by
    rw [h.limit, h.offset]
    rcases q.limit with _ | ⟨n, _ | m⟩ <;> rfl
  rw [Sql.Parts.json, h1, h2, h3, h4, h.having, h.cond, h.tables, h.joins, h.distinct]
  rfl

/-- **C86, answers**: after any statements of C71, a query as the client writes it (C81: DISTINCT, aggregates, GROUP BY, HAVING, ORDER BY, LIMIT) is read, rewritten, run
and decrypted; the answers are those that the query has over the client's own tables. -/
theorem C86_answer_partial {P : Proxy} {res : List Char → Bool} (hP : Sound P res) {pst : PTables} {bst : Tables} (hR : Rel P pst bst) {sqls : List (List Char)}
    {us : List UStmt} (hs : List.Forall₂ (Says P.env P.space) sqls us) (hf : ∀ u ∈ us, Whole.Fine P.db u) {sql s : List Char} {p : Sql.Parts} {q : Query}
    (hsql : Sql.Trimmed P.space sql s) (hsp : Sql.SpQuery P.env s p) (hask : Asks p q) {tm : TableMeta ColMeta}
    (ht : Dict.get? P.db q.table = some tm) (hp : PlainTable q.table) (hq : Fine tm.columns q) (hg : Open tm.columns q) (ha : Ascending tm.columns q)
    (le : String → String → Bool) :
    ∃ bst' d json table sel, P.session res bst sqls = some (bst', (psession pst us).2) ∧ P.parsedQ sql = .ok d ∧ rewriteQuery P.c P.db P.fuel d = .ok (json, table, sel) ∧
      (run le bst' json).isSome = true ∧ (∀ bans, Answers le bst' json bans → ∃ ans, P.answer table sel bans = .ok ans ∧ q.Answers le (psession pst us).1 ans) ∧
      ∀ ans, q.Answers le (psession pst us).1 ans → ∃ bans, Answers le bst' json bans ∧ P.answer table sel bans = .ok ans := by
  obtain ⟨bst', json, table, sel, h1, h2, h3⟩ := C81_session_partial hP hR hs hf ht hp hq hg ha le
  exact ⟨bst', q.json, json, table, sel, h1, parsedQ_of hsql hsp hask.json, h2, h3⟩

/-- `SELECT b FROM t WHERE a = 1 GROUP BY b ORDER BY b DESC LIMIT 1 OFFSET 1` is such a query. -/
example : Asks
    { distinct := true, cols := [.dict [("value", .str "b")]], tables := [.str "t"], joins := [], cond := some (.call "eq" [.name "a", .int 1]),
      group := [.dict [("value", .str "b")]], having := some (.call "gt" [.call "count" [.name "*"], .int 1]), order := [.dict [("value", .str "b"), ("sort", .str "desc")]],
      limit := some (.int 1), offset := some (.int 1) }
    { distinct := true, items := [.col "b"], table := "t", cond := some (.eqInt "a" 1), group := ["b"], having := some ⟨.count, .gt, 1⟩, order := some ⟨"b", some true⟩,
      limit := some (1, some 1) } where
  distinct := rfl
  cols := rfl
  some_item := by simp
  tables := rfl
  joins := rfl
  cond := rfl
  group := rfl
  having := rfl
  order := rfl
  limit := rfl
  offset := rfl

/-! ### Joins -/

/-- The parts that were read are those of the query over several tables. -/
structure AsksJoin (p : Sql.Parts) (q : Join.Query) : Prop where
  distinct : p.distinct = false
  cols : Sql.listJson p.cols = q.select
  tables : p.tables ++ p.joins = .str q.first :: q.steps.map Join.Step.json
  several : q.steps ≠ []
  cond : Sql.whereJson p.cond = match q.cond with | none => [] | some c => [("where", c.json)]
  group : p.group = []
  having : p.having = none
  order : p.order = []
  limit : p.limit = none
  offset : p.offset = none

theorem AsksJoin.json {p : Sql.Parts} {q : Join.Query} (h : AsksJoin p q) : p.json = .dict q.json := by
  have h1 : Sql.listJson (p.tables ++ p.joins) = q.from := by
    rw [h.tables, Join.Query.from]
    have := h.several
    rcases hi : q.steps with _ | ⟨a, l⟩
    · exact absurd hi this
    · rfl
  rw [Sql.Parts.json, h1, h.cols, h.cond, h.group, h.having, h.order, h.limit, h.offset, h.distinct]
  simp only [Sql.listEntry, Sql.optEntry, Join.Query.json, Option.map_none, List.append_nil, Bool.false_eq_true, if_false]
  cases q.cond <;> rfl

/-- **C86, joins**: the same for queries over several tables (C80). -/
theorem C86_join_partial {P : Proxy} {res : List Char → Bool} (hP : Sound P res) {pst : PTables} {bst : Tables} (hR : Rel P pst bst) {sqls : List (List Char)}
    {us : List UStmt} (hs : List.Forall₂ (Says P.env P.space) sqls us) (hf : ∀ u ∈ us, Whole.Fine P.db u) {sql s : List Char} {p : Sql.Parts} {q : Join.Query}
    (hsql : Sql.Trimmed P.space sql s) (hsp : Sql.SpQuery P.env s p) (hask : AsksJoin p q) (hq : Join.Fine P.db q) :
    ∃ bst' d json table sel rows, P.session res bst sqls = some (bst', (psession pst us).2) ∧ P.parsedQ sql = .ok d ∧
      rewriteQuery P.c P.db P.fuel d = .ok (json, table, sel) ∧ Join.runJoin bst' json = some rows ∧ P.answer table sel rows = .ok (q.answer P.db (psession pst us).1) := by
  obtain ⟨bst', json, table, sel, rows, h1, h2, h3, h4⟩ := Join.C80_session_partial hP hR hs hf hq
  exact ⟨bst', q.json, json, table, sel, rows, h1, parsedQ_of hsql hsp hask.json, h2, h3, h4⟩

/-- `SELECT t.b FROM t JOIN u ON t.a = u.a`. -/
example : AsksJoin
    { distinct := false, cols := [.dict [("value", .str "t.b")]], tables := [.str "t"],
      joins := [.dict [("join", .str "u"), ("on", Sql.scrub (.call "eq" [.name "t.a", .name "u.a"]))]], cond := none, group := [], having := none, order := [], limit := none,
      offset := none }
    { items := some [("t", "b")], first := "t", steps := [⟨"u", some (.join, .eq ("t", "a") ("u", "a"))⟩], cond := none } where
  distinct := rfl
  cols := rfl
  tables := rfl
  several := by simp
  cond := rfl
  group := rfl
  having := rfl
  order := rfl
  limit := rfl
  offset := rfl

end EulerDB.Answer
