/-
C81: a session and then a query; queries that go wrong.
-/
import Verif.Answer.Props
import Verif.Whole.Examples
import Mathlib.Data.List.Permutation

namespace EulerDB.Answer

open EulerDB EulerDB.Clause EulerDB.Delta EulerDB.Whole EulerDB.Join

/-- **C81, partial: a session and then a query.** -/
theorem C81_session_partial {P : Proxy} {res : List Char → Bool} (hP : Sound P res) {pst : PTables} {bst : Tables} (hR : Rel P pst bst) {sqls : List (List Char)}
    {us : List UStmt} (hs : List.Forall₂ (Says P.env P.space) sqls us) (hf : ∀ u ∈ us, Whole.Fine P.db u) {q : Query} {tm : TableMeta ColMeta}
    (ht : Dict.get? P.db q.table = some tm) (hp : PlainTable q.table) (hq : Fine tm.columns q) (hg : Open tm.columns q) (ha : Ascending tm.columns q) (le : String → String → Bool) :
    ∃ bst' json table s, P.session res bst sqls = some (bst', (psession pst us).2) ∧ rewriteQuery P.c P.db P.fuel q.json = .ok (json, table, s) ∧
      (run le bst' json).isSome = true ∧ (∀ bans, Answers le bst' json bans → ∃ ans, P.answer table s bans = .ok ans ∧ q.Answers le (psession pst us).1 ans) ∧
      ∀ ans, q.Answers le (psession pst us).1 ans → ∃ bans, Answers le bst' json bans ∧ P.answer table s bans = .ok ans := by
  obtain ⟨bst', h1, h2⟩ := C71_session_partial hP hR hs hf
  obtain ⟨json, table, s, h3, h4⟩ := C81_query_partial h2 ht hp hq hg ha le
  exact ⟨bst', json, table, s, h1, h3, h4⟩

/-! ### DESC -/

/-- **C81 fails** for DESC over an encrypted column: the answers of the proxy are the answers of the query without DESC. -/
theorem C81_fails_desc {P : Proxy} {pst : PTables} {bst : Tables} (hr : Rel P pst bst) {q : Query} {tm : TableMeta ColMeta} (ht : Dict.get? P.db q.table = some tm)
    (hp : PlainTable q.table) (hq : Fine tm.columns q) (hg : Open tm.columns q) {k : SortKey} (ho : q.order = some k) (hc : ¬ Clear tm.columns k.col) (le : String → String → Bool) :
    ∃ json table s, rewriteQuery P.c P.db P.fuel q.json = .ok (json, table, s) ∧
      (∀ bans, Answers le bst json bans → ∃ ans, P.answer table s bans = .ok ans ∧ { q with order := some ⟨k.col, none⟩ }.Answers le pst ans) ∧
      ∀ ans, { q with order := some ⟨k.col, none⟩ }.Answers le pst ans → ∃ bans, Answers le bst json bans ∧ P.answer table s bans = .ok ans := by
  obtain ⟨json, table, s, h1, _, h2⟩ := C81_taken_partial hr ht hp hq hg le
  have : q.taken tm.columns = { q with order := some ⟨k.col, none⟩ } := by
    obtain ⟨cm, b, h3, _⟩ := hq.order k ho
    have hn : ¬ cm.plaintext = true := fun h => hc ⟨cm, h3, h⟩
    unfold Query.taken
    simp only [ho, Option.map_some, h3, if_neg hn]
  rw [this] at h2
  exact ⟨json, table, s, h1, h2⟩

/-- SELECT a FROM t ORDER BY a DESC LIMIT 1. -/
def lastQuery : Query := { items := [.col "a"], table := "t", order := some ⟨"a", some true⟩, limit := some (1, none) }

theorem lastQuery_fine : Fine demoTab.columns lastQuery ∧ Open demoTab.columns lastQuery ∧ ¬ Clear demoTab.columns "a" := by
  refine ⟨⟨by simp [lastQuery], ?_, ?_, ?_⟩, ⟨?_, ?_, ?_, ?_⟩, ?_⟩
  · intro i hi
    rcases List.mem_singleton.1 hi with rfl
    exact ⟨by decide, by decide, _, _, rfl, rfl⟩
  · intro x hx
    cases hx
  · intro k hk
    obtain rfl : (⟨"a", some true⟩ : SortKey) = k := by simpa [lastQuery] using hk
    exact ⟨_, _, rfl, rfl, fun _ => rfl⟩
  · intro g hg
    cases hg
  · intro h hh
    cases hh
  · intro h
    exact absurd h (by decide)
  · intro h
    exact absurd h (by decide)
  · rintro ⟨cm, h1, h2⟩
    rcases demo_col h1 with ⟨_, rfl⟩ | ⟨h, _⟩
    · cases h2
    · exact absurd h (by decide)

/-- Two rows. -/
def twoRows : PTables := [("t", [[("a", .int 1), ("b", .int 1)], [("a", .int 2), ("b", .int 2)]])]

theorem two_perm {α : Type} {x y : α} {l : List α} (h : l.Perm [x, y]) : l = [x, y] ∨ l = [y, x] := by
  have := List.mem_permutations'.2 h
  have e : [x, y].permutations' = [[x, y], [y, x]] := rfl
  rw [e] at this
  simpa using this

theorem two_answers (le : String → String → Bool) (ans : List (List OutVal)) : (lastQuery.Answers le twoRows ans ↔ ans = [[.int 2]]) ∧
    ({ lastQuery with order := some ⟨"a", none⟩ }.Answers le twoRows ans ↔ ans = [[.int 1]]) := by
  have hl : lastQuery.lines le twoRows = [([some (.int 1)], some (some (.int 1))), ([some (.int 2)], some (some (.int 2)))] := rfl
  have hl' : ({ lastQuery with order := some ⟨"a", none⟩ } : Query).lines le twoRows = [([some (.int 1)], some (some (.int 1))), ([some (.int 2)], some (some (.int 2)))] := rfl
  constructor
  · constructor
    · rintro ⟨a, ⟨l, h1, h2, h3⟩, rfl⟩
      rw [hl] at h1
      rcases two_perm h1 with rfl | rfl
      · simp [before, lastQuery, Query.desc, SortKey.desc, leKey, leVal] at h2
      · subst h3
        rfl
    · rintro rfl
      exact ⟨[[some (.int 2)]], ⟨[([some (.int 2)], some (some (.int 2))), ([some (.int 1)], some (some (.int 1)))], by rw [hl]; exact .swap _ _ _,
        by simp [before, lastQuery, Query.desc, SortKey.desc, leKey, leVal], rfl⟩, rfl⟩
  · constructor
    · rintro ⟨a, ⟨l, h1, h2, h3⟩, rfl⟩
      rw [hl'] at h1
      rcases two_perm h1 with rfl | rfl
      · subst h3
        rfl
      · simp [before, Query.desc, SortKey.desc, leKey, leVal] at h2
    · rintro rfl
      exact ⟨[[some (.int 1)]], ⟨[([some (.int 1)], some (some (.int 1))), ([some (.int 2)], some (some (.int 2)))], by rw [hl'],
        by simp [before, Query.desc, SortKey.desc, leKey, leVal], rfl⟩, rfl⟩

/-- **C81 fails**: of two rows with 1 and 2, ORDER BY a DESC LIMIT 1 gives the row with 1. -/
theorem C81_fails_last {P : Proxy} (ht : Dict.get? P.db "t" = some demoTab) {bst : Tables} (hr : Rel P twoRows bst) (le : String → String → Bool) :
    ∃ json table s, rewriteQuery P.c P.db P.fuel lastQuery.json = .ok (json, table, s) ∧ (∃ bans, Answers le bst json bans) ∧
      (∀ bans, Answers le bst json bans → P.answer table s bans = .ok [[.int 1]]) ∧ ∀ ans, lastQuery.Answers le twoRows ans ↔ ans = [[.int 2]] := by
  obtain ⟨f1, f2, f3⟩ := lastQuery_fine
  obtain ⟨json, table, s, h1, h2, h3⟩ := C81_fails_desc hr (q := lastQuery) ht (by simp [lastQuery, PlainTable, pyIn, isSub]; decide) f1 f2 rfl f3 le
  refine ⟨json, table, s, h1, ?_, ?_, fun ans => (two_answers le ans).1⟩
  · obtain ⟨bans, h4, _⟩ := h3 [[.int 1]] ((two_answers le _).2.2 rfl)
    exact ⟨bans, h4⟩
  · intro bans hb
    obtain ⟨ans, h4, h5⟩ := h2 bans hb
    rw [(two_answers le ans).2.1 h5] at h4
    exact h4

/-- Two such rows can be stored. -/
theorem demo_keeps {c : Crypto} {x y z : Int} (h : c.opeEnc "k" x = .ok y) : Keeps c demoTab.columns [("a", .int x), ("b", .int z)]
    [("a_o", .int y), ("a_s", .text (String.ofList (Aes.ct (c.aes "k") (Text.intStr x)))), ("b", .int z)] where
  vals := by
    intro n cm hc
    rcases demo_col hc with ⟨rfl, rfl⟩ | ⟨rfl, rfl⟩
    · exact ⟨.int x, rfl, rfl⟩
    · exact ⟨.int z, rfl, rfl⟩
  holds := by
    constructor
    · intro n v cm hv hc hp
      rcases demo_col hc with ⟨rfl, rfl⟩ | ⟨rfl, rfl⟩
      · cases hp
      · obtain rfl : Val.int z = v := by simpa [Dict.get?_cons] using hv
        rfl
    · intro n v cm b hv hc hp hb
      rcases demo_col hc with ⟨rfl, rfl⟩ | ⟨rfl, rfl⟩
      · obtain rfl : Val.int x = v := by simpa [Dict.get?_cons] using hv
        obtain rfl : "a_s" = b := by simpa [Dict.get?_cons] using hb
        exact ⟨_, by rw [sym_eq, String.toList_ofList]; rfl, rfl⟩
      · cases hp
    · intro n w cm b hv hc hp hb
      rcases demo_col hc with ⟨rfl, rfl⟩ | ⟨rfl, rfl⟩
      · obtain rfl : x = w := by simpa [Dict.get?_cons] using hv
        obtain rfl : "a_o" = b := by simpa [Dict.get?_cons] using hb
        exact ⟨y, h, rfl⟩
      · cases hp
    · intro n w cm b hv hc hp hb
      rcases demo_col hc with ⟨rfl, rfl⟩ | ⟨rfl, rfl⟩
      · simp (decide := true) [Dict.get?_cons] at hb
      · cases hp
  there := by
    intro n hn b hb
    have hn : n = "a" ∨ n = "b" := by simpa [Dict.keys, demoTab] using hn
    rcases hn with rfl | rfl
    · have hb : b = "a_o" ∨ b = "a_s" := by simpa [targets, demoTab, Dict.get?_cons] using hb
      rcases hb with rfl | rfl <;> simp (decide := true) [Dict.get?_cons]
    · have hb : b = "b" := by simpa (decide := true) [targets, demoTab, Dict.get?_cons] using hb
      subst hb
      simp (decide := true) [Dict.get?_cons]
  only := by
    intro b hb
    have hb : b = "a_o" ∨ b = "a_s" ∨ b = "b" := by simpa [Dict.keys] using hb
    rcases hb with rfl | rfl | rfl
    · exact ⟨"a", by decide, by simp (decide := true) [targets, demoTab, Dict.get?_cons]⟩
    · exact ⟨"a", by decide, by simp (decide := true) [targets, demoTab, Dict.get?_cons]⟩
    · exact ⟨"b", by decide, by simp (decide := true) [targets, demoTab, Dict.get?_cons]⟩

/-- The hypotheses of `C81_fails_last` can be met. -/
example {env : Sql.Env} {space : Char → Bool} {w : Writer} {repr : Json → String} : ∃ bst, Rel (demoProxy env space w repr) twoRows bst := by
  have h : demoCrypto.opeEnc "k" 1 = .ok 1 := Ope.C04_fails_ope_is_identity _ 1 (by omega) (by omega)
  have h' : demoCrypto.opeEnc "k" 2 = .ok 2 := Ope.C04_fails_ope_is_identity _ 2 (by omega) (by omega)
  have k := demo_keeps (z := 1) h
  have k' := demo_keeps (z := 2) h'
  obtain ⟨r, r', hk, hk'⟩ : ∃ r r', Keeps demoCrypto demoTab.columns [("a", .int 1), ("b", .int 1)] r ∧ Keeps demoCrypto demoTab.columns [("a", .int 2), ("b", .int 2)] r' :=
    ⟨_, _, k, k'⟩
  refine ⟨[("table_0", [r, r'])], fun t tm ht => ?_⟩
  obtain ⟨rfl, rfl⟩ := demo_tab ht
  exact ⟨_, _, rfl, rfl, .cons hk (.cons hk' .nil)⟩

/-- SELECT DISTINCT b, COUNT(*), MAX(a) FROM t WHERE a = 1 GROUP BY b HAVING COUNT(*) > 0 ORDER BY b DESC LIMIT 2. -/
def groupQuery : Query :=
  { distinct := true, items := [.col "b", .count, .max "a"], table := "t", cond := some (.eqInt "a" 1), group := ["b"], having := some ⟨.count, .gt, 0⟩,
    order := some ⟨"b", some true⟩, limit := some (2, none) }

/-- SELECT a, b FROM t ORDER BY a LIMIT 2. -/
def sortQuery : Query := { items := [.col "a", .col "b"], table := "t", order := some ⟨"a", none⟩, limit := some (2, none) }

/-- The hypotheses of `C81_query_partial` can be met. -/
example : Fine demoTab.columns groupQuery ∧ Open demoTab.columns groupQuery ∧ Ascending demoTab.columns groupQuery := by
  have hb : Clear demoTab.columns "b" := ⟨_, rfl, rfl⟩
  have hi : ∀ i, i ∈ groupQuery.items → i = .col "b" ∨ i = .count ∨ i = .max "a" := by simp [groupQuery]
  have hk : ∀ k, k ∈ groupQuery.order → k = ⟨"b", some true⟩ := by
    intro k hk
    simpa [groupQuery, eq_comm] using hk
  refine ⟨⟨by simp [groupQuery], ?_, demo_typed, ?_⟩, ⟨?_, ?_, ?_, ?_⟩, ?_⟩
  · intro i h
    rcases hi i h with rfl | rfl | rfl
    · exact ⟨by decide, by decide, _, _, rfl, rfl⟩
    · trivial
    · exact ⟨by decide, by decide, _, _, rfl, rfl, fun _ => rfl⟩
  · intro k h
    rw [hk k h]
    exact ⟨_, _, rfl, rfl, fun _ => rfl⟩
  · intro g h
    rcases List.mem_singleton.1 h with rfl
    exact hb
  · intro v h
    obtain rfl : (⟨.count, .gt, 0⟩ : Having) = v := by simpa [groupQuery] using h
    exact ⟨trivial, rfl, trivial⟩
  · intro _
    refine ⟨fun i h => ?_, fun k h => ?_⟩
    · rcases hi i h with rfl | rfl | rfl
      · simp [Item.within, groupQuery]
      · trivial
      · trivial
    · rw [hk k h]
      simp [groupQuery]
  · intro _ k h
    rw [hk k h]
    exact ⟨by simp [groupQuery], hb⟩
  · intro k h
    rw [hk k h]
    exact .inl hb

example : Fine demoTab.columns sortQuery ∧ Open demoTab.columns sortQuery ∧ Ascending demoTab.columns sortQuery := by
  have hk : ∀ k, k ∈ sortQuery.order → k = ⟨"a", none⟩ := by
    intro k hk
    simpa [sortQuery, eq_comm] using hk
  refine ⟨⟨by simp [sortQuery], ?_, ?_, ?_⟩, ⟨?_, ?_, ?_, ?_⟩, ?_⟩
  · intro i h
    have hi : i = .col "a" ∨ i = .col "b" := by simpa [sortQuery] using h
    rcases hi with rfl | rfl
    · exact ⟨by decide, by decide, _, _, rfl, rfl⟩
    · exact ⟨by decide, by decide, _, _, rfl, rfl⟩
  · intro x hx
    cases hx
  · intro k h
    rw [hk k h]
    exact ⟨_, _, rfl, rfl, fun _ => rfl⟩
  · intro g h
    cases h
  · intro v h
    cases h
  · intro h
    exact absurd h (by decide)
  · intro h
    exact absurd h (by decide)
  · intro k h
    rw [hk k h]
    exact .inr rfl

/-! ### What is sent as it is -/

theorem sent_as_is {c : Crypto} {db : Db} {fuel : Nat} {q : Query} {json : Dict String Json} {table : Json} {s : Sel}
    (h : rewriteQuery c db fuel q.json = .ok (json, table, s)) {k : String} (hk : k ∈ ["groupby", "having", "limit", "offset"]) : Dict.get? json k = Dict.get? q.json k :=
  ((rewriteQuery_spec h).2 k).1 ((by decide : ∀ k ∈ ["groupby", "having", "limit", "offset"], k ∉ clauseKeys) k hk)

theorem no_where {c : Crypto} {db : Db} {fuel : Nat} {q : Query} (hc : q.cond = none) {json : Dict String Json} {table : Json} {s : Sel}
    (h : rewriteQuery c db fuel q.json = .ok (json, table, s)) : Dict.get? json "where" = none := by
  refine (((rewriteQuery_spec h).2 "where").2 (by decide)).1 ?_
  rw [get_json, if_neg (selectKey_ne (by decide) (by decide)), if_neg (by decide), get_where, if_pos rfl, hc, get_group_ne _ (by decide), get_having_ne _ (by decide), get_order,
    if_neg (by decide), get_limit_ne _ (by decide) (by decide)]
  rfl

theorem pick_all (rows : List Row) : pickBy (whereVal none) rows = some rows := by
  induction rows with
  | nil => rfl
  | cons r rows ih => simp [pickBy, ih, whereVal]

/-- **C81 fails** for GROUP BY over an encrypted column: the name is sent as it is, and no row of the backend has such a column. -/
theorem C81_fails_group {c : Crypto} {db : Db} {fuel : Nat} {q : Query} (hc : q.cond = none) {g : String} (hg : g ∈ q.group) {json : Dict String Json} {table : Json} {s : Sel}
    (h : rewriteQuery c db fuel q.json = .ok (json, table, s)) {st : Tables} (hst : ∀ t rows, Dict.get? st t = some rows → rows ≠ [] ∧ ∀ row ∈ rows, Dict.get? row g = none)
    (le : String → String → Bool) : run le st json = none := by
  unfold run
  split
  · rename_i d sel t hsel hfrom
    rw [sent_as_is h (k := "groupby") (by simp), groupOf_json, no_where hc h]
    split
    · rename_i items group having order rows h1 h2 h3 h4 h5
      injection h2 with h2
      subst h2
      obtain ⟨hne, hrow⟩ := hst _ _ h5
      unfold runLines
      rw [pick_all]
      have : (rows.all fun row => q.group.all fun g => (Dict.get? row g).isSome) = false := by
        rw [List.all_eq_false]
        obtain ⟨row, hr⟩ := List.exists_mem_of_ne_nil _ hne
        refine ⟨row, hr, ?_⟩
        rw [Bool.not_eq_true, List.all_eq_false]
        exact ⟨g, hg, by rw [hrow row hr]; decide⟩
      simp only [this]
      split <;> rfl
    · rfl
  · rfl

theorem units_mem {α κ : Type} [DecidableEq κ] {a g : Bool} {key : α → κ} {l : List α} (hl : l ≠ []) :
    ∃ u r, units a g key l = u :: r ∧ u ≠ [] ∧ ∀ x ∈ u, x ∈ l := by
  obtain ⟨x, l, rfl⟩ := List.exists_cons_of_ne_nil hl
  unfold units
  split
  · refine ⟨_, _, rfl, ?_, ?_⟩
    · intro h
      have : x ∈ (x :: l).filter fun b => decide (key b = key x) := by simp
      dsimp only at h
      rw [h] at this
      cases this
    · intro y hy
      exact (List.mem_filter.1 hy).1
  · split
    · exact ⟨_, _, rfl, by simp, fun y hy => hy⟩
    · exact ⟨_, _, rfl, by simp, fun y hy => by simp_all⟩

/-- The column of an item. -/
def Item.about : Item → Option String
  | .col n => some n
  | .count => none
  | .max n => some n
  | .min n => some n

theorem itemVal_none (le : String → String → Bool) {i : Item} {n : String} (hi : i.about = some n) {u : List Row} (hu : u ≠ []) (h : ∀ row ∈ u, Dict.get? row n = none) :
    itemVal le u i = none := by
  obtain ⟨row, u, rfl⟩ := List.exists_cons_of_ne_nil hu
  have h0 := h row (by simp)
  cases i with
  | count => cases hi
  | col m =>
    obtain rfl : m = n := by simpa [Item.about] using hi
    exact h0
  | max m =>
    obtain rfl : m = n := by simpa [Item.about] using hi
    simp [itemVal, List.mapM_cons, h0]
  | min m =>
    obtain rfl : m = n := by simpa [Item.about] using hi
    simp [itemVal, List.mapM_cons, h0]

/-- **C81 fails** for HAVING over an encrypted column, for the same reason. -/
theorem C81_fails_having {c : Crypto} {db : Db} {fuel : Nat} {q : Query} (hc : q.cond = none) {v : Having} (hv : q.having = some v) {n : String} (hn : v.item.about = some n)
    {json : Dict String Json} {table : Json} {s : Sel} (h : rewriteQuery c db fuel q.json = .ok (json, table, s)) {st : Tables}
    (hst : ∀ t rows, Dict.get? st t = some rows → rows ≠ [] ∧ ∀ row ∈ rows, Dict.get? row n = none) (le : String → String → Bool) : run le st json = none := by
  unfold run
  split
  · rename_i d sel t hsel hfrom
    rw [sent_as_is h (k := "having") (by simp), havingOf_json, no_where hc h, hv]
    split
    · rename_i items group having order rows h1 h2 h3 h4 h5
      injection h3 with h3
      subst h3
      obtain ⟨hne, hrow⟩ := hst _ _ h5
      unfold runLines
      rw [pick_all]
      obtain ⟨u, r, hu, hu1, hu2⟩ := units_mem (a := !group.isEmpty || items.any Item.aggregate) (g := !group.isEmpty)
        (key := fun row : Row => group.map fun g => Dict.get? row g) hne
      have : pickBy (havingVal le (some v)) (u :: r) = none := by
        rw [pickBy]
        have : havingVal le (some v) u = none := by
          simp [havingVal, itemVal_none le hn hu1 fun row hr => hrow row (hu2 row hr)]
        simp [this]
      simp only [hu, this]
      split
      · split <;> rfl
      · rfl
    · rfl
  · rfl

/-! ### DISTINCT and ORDER BY -/

theorem sym_ne_ope {cols : Dict String ColMeta} (h : ((Dict.keys cols).flatMap (targets cols)).Nodup) {n m b b' : String} {cm cm' : ColMeta} (hn : Dict.get? cols n = some cm)
    (hm : Dict.get? cols m = some cm') (hb : readName n cm = some b) (hp : cm'.plaintext = false) (hb' : Dict.get? cm'.encCols "order-preserving" = some b') : b ≠ b' := by
  rintro rfl
  have t1 : b ∈ targets cols m := by
    simp only [targets, hm, hp]
    exact List.mem_map.2 ⟨_, Dict.mem_of_get? hb', rfl⟩
  have t2 : b ∈ targets cols n := by
    simp only [targets, hn]
    unfold readName at hb
    split at hb
    · rename_i hpl
      injection hb with hb
      subst hb
      simp [hpl]
    · rename_i hpl
      rw [if_neg hpl]
      exact List.mem_map.2 ⟨_, Dict.mem_of_get? hb, rfl⟩
  by_cases e : n = m
  · subst e
    rw [hn] at hm
    injection hm with hm
    subst hm
    have h1 := (List.nodup_flatMap.1 h).1 n (mem_keys hn)
    simp only [targets, hn, hp] at h1
    unfold readName at hb
    rw [if_neg (by simp [hp])] at hb
    have := (List.inj_on_of_nodup_map h1) (Dict.mem_of_get? hb) (Dict.mem_of_get? hb') rfl
    have e : "symmetric" = "order-preserving" := congrArg Prod.fst this
    exact absurd e (by decide)
  · exact targets_disjoint h (mem_keys hn) (mem_keys hm) e t2 t1

/-- **C81 fails** for DISTINCT with ORDER BY over an encrypted column: the selected column is the symmetric one, the rows are ordered by another one, and MySQL does not accept
this. -/
theorem C81_fails_distinct {c : Crypto} {db : Db} {q : Query} {tm : TableMeta ColMeta} (ht : Dict.get? db q.table = some tm) (hp : PlainTable q.table) (hq : Fine tm.columns q)
    (hn : ((Dict.keys tm.columns).flatMap (targets tm.columns)).Nodup) (hd : q.distinct = true) {k : SortKey} (ho : q.order = some k) (hc : ¬ Clear tm.columns k.col) (fuel : Nat)
    (st : Tables) (le : String → String → Bool) : ∃ json table s, rewriteQuery c db fuel q.json = .ok (json, table, s) ∧ run le st json = none := by
  obtain ⟨json, g1, g2, g3, g4, g5, g6⟩ := query_rewritten (c := c) ht hp hq fuel
  refine ⟨json, _, _, g1, ?_⟩
  obtain ⟨h1, _⟩ := orderOf_sent hq.order
  obtain ⟨cm, b, h2, h3, _⟩ := hq.order k ho
  have hpl : cm.plaintext = false := by
    cases h : cm.plaintext with
    | false => rfl
    | true => exact absurd ⟨cm, h2, h⟩ hc
  have hb : Dict.get? cm.encCols "order-preserving" = some b := by simpa [rankName, hpl] using h3
  have hname : orderName tm.columns k = b := by simp [orderName, h2, h3]
  have hnot : (q.items.map (Item.sent tm.columns)).contains (.col b) = false := by
    rw [Bool.eq_false_iff]
    intro hm
    rw [List.contains_iff_mem] at hm
    obtain ⟨i, hi, e⟩ := List.mem_map.1 hm
    cases i with
    | col n =>
      obtain ⟨cm', b', h4, h5⟩ := (hq.items _ hi).col
      simp only [Item.sent, h4, Option.bind_some, h5, Option.getD_some, Item.col.injEq] at e
      exact sym_ne_ope hn h4 h2 h5 hpl hb e
    | count => cases e
    | max n => cases e
    | min n => cases e
  unfold run
  simp only [g2, g3, itemsOf_list, g6 "groupby" (by simp), groupOf_json, g6 "having" (by simp), havingOf_json, g5, h1, g4]
  split
  · rename_i items group having order rows e1 e2 e3 e4 e5
    injection e1 with e1
    injection e4 with e4
    subst e1; subst e4
    unfold runLines allowed
    simp only [ho, Option.map_some, hname, hd, hnot]
    simp
  · rfl

/-! ### ORDER BY something else than a column -/

/-- **C81 fails** for ORDER BY an alias (or any other name that is not a column of the table). -/
theorem C81_fails_alias {c : Crypto} {db : Db} {q : Query} {tm : TableMeta ColMeta} (ht : Dict.get? db q.table = some tm) {k : SortKey} (ho : q.order = some k)
    (hc : Dict.get? tm.columns k.col = none) (fuel : Nat) : ∃ e, rewriteQuery c db fuel q.json = .error e := by
  cases h : rewriteQuery c db fuel q.json with
  | error e => exact ⟨e, rfl⟩
  | ok r =>
    obtain ⟨json, table, s⟩ := r
    exfalso
    obtain ⟨h1, h2⟩ := rewriteQuery_spec h
    rw [find_table] at h1
    injection h1 with h1
    subst h1
    have hg : Dict.get? q.json "orderby" = some k.json := by
      rw [get_json, if_neg (selectKey_ne (by decide) (by decide)), if_neg (by decide), get_where, if_neg (by decide), get_group_ne _ (by decide), get_having_ne _ (by decide),
        get_order, if_pos rfl, ho]
      rfl
    obtain ⟨v, s1, s2, h3, _⟩ := ((h2 "orderby").2 (by decide)).2 _ hg
    have g1 : tableOfJson db (.str q.table) = .ok tm := getItem_ok.2 ht
    have g2 : colOfJson tm.columns (.str k.col) = .error .keyError := by
      simp [colOfJson, Dict.getItem, hc]
    have g3 : pyItem "value" k.json = .ok (.str k.col) := by
      unfold SortKey.json
      rcases k.dir with _ | _ | _ <;> rfl
    have : orderRw db (.str q.table) k.json = .error .keyError := by
      unfold orderRw
      simp only [g1, g2, g3]
    simp (decide := true) [oneStep, stepKey, this] at h3

end EulerDB.Answer
