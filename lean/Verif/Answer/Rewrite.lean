/-
C81: the query as the proxy sends it.
-/
import Verif.Answer.Model
import Verif.Clause.PipeProps

namespace EulerDB.Answer

open EulerDB EulerDB.Clause EulerDB.Delta EulerDB.Whole

/-! ### What is asked of the query -/

/-- The column that MAX, MIN and ORDER BY read. -/
def rankName (n : String) (cm : ColMeta) : Option String := if cm.plaintext then some n else Dict.get? cm.encCols "order-preserving"

/-- A column that MAX and MIN can read. -/
structure Ranked (cols : Dict String ColMeta) (n : String) : Prop where
  dot : '.' ∉ n.toList
  star : n ≠ "*"
  col : ∃ cm b, Dict.get? cols n = some cm ∧ rankName n cm = some b ∧ (cm.plaintext = false → cm.type = "int")

def Item.Fine (cols : Dict String ColMeta) : Item → Prop
  | .col n => Readable cols n
  | .count => True
  | .max n => Ranked cols n
  | .min n => Ranked cols n

/-- A plaintext column. -/
def Clear (cols : Dict String ColMeta) (n : String) : Prop := ∃ cm, Dict.get? cols n = some cm ∧ cm.plaintext = true

/-- A number that the backend sees in clear: COUNT(*) or (MAX, MIN of) a plaintext int column. -/
def Item.Number (cols : Dict String ColMeta) : Item → Prop
  | .count => True
  | .col n => ∃ cm, Dict.get? cols n = some cm ∧ cm.plaintext = true ∧ cm.type = "int"
  | .max n => ∃ cm, Dict.get? cols n = some cm ∧ cm.plaintext = true ∧ cm.type = "int"
  | .min n => ∃ cm, Dict.get? cols n = some cm ∧ cm.plaintext = true ∧ cm.type = "int"

/-- A sort key: a plaintext column, or an encrypted int column. -/
def Sortable (cols : Dict String ColMeta) (k : SortKey) : Prop :=
  ∃ cm b, Dict.get? cols k.col = some cm ∧ rankName k.col cm = some b ∧ (cm.plaintext = false → cm.type = "int")

def Item.within (group : List String) : Item → Prop
  | .col n => n ∈ group
  | _ => True

/-- The query is about columns of the table. -/
structure Fine (cols : Dict String ColMeta) (q : Query) : Prop where
  some : q.items ≠ []
  items : ∀ i ∈ q.items, i.Fine cols
  cond : TypedW cols q.cond
  order : ∀ k ∈ q.order, Sortable cols k

/-- What the query leaves to MySQL it can do: it groups by plaintext columns, HAVING is about plaintext numbers, and DISTINCT goes with an order by a plaintext column.  `full`
and the first half of `distinct` are what MySQL asks of any query. -/
structure Open (cols : Dict String ColMeta) (q : Query) : Prop where
  group : ∀ g ∈ q.group, Clear cols g
  having : ∀ h ∈ q.having, h.item.Number cols ∧ q.aggregated = true ∧ h.item.within q.group
  full : q.aggregated = true → (∀ i ∈ q.items, i.within q.group) ∧ ∀ k ∈ q.order, k.col ∈ q.group
  distinct : q.distinct = true → ∀ k ∈ q.order, Item.col k.col ∈ q.items ∧ Clear cols k.col

/-- Encrypted columns are sorted in ascending order. -/
def Ascending (cols : Dict String ColMeta) (q : Query) : Prop := ∀ k ∈ q.order, Clear cols k.col ∨ k.desc = false

/-! ### The select list as sent -/

/-- The item as sent. -/
def Item.sent (cols : Dict String ColMeta) : Item → Item
  | .col n => .col (((Dict.get? cols n).bind (readName n)).getD "")
  | .count => .count
  | .max n => .max (((Dict.get? cols n).bind (rankName n)).getD "")
  | .min n => .min (((Dict.get? cols n).bind (rankName n)).getD "")

def rankState (cm : ColMeta) : String := if cm.plaintext then "plaintext" else "order-preserving"

/-- What is recorded for an item. -/
def Item.entry (cols : Dict String ColMeta) : Item → Rec
  | .col n => (n, ((Dict.get? cols n).map (·.type)).getD "", ((Dict.get? cols n).map readState).getD "")
  | .count => ("count", "int", "plaintext")
  | .max n => (n, ((Dict.get? cols n).map (·.type)).getD "", ((Dict.get? cols n).map rankState).getD "")
  | .min n => (n, ((Dict.get? cols n).map (·.type)).getD "", ((Dict.get? cols n).map rankState).getD "")

theorem rank_rewritten {db : Db} {t : String} {tm : TableMeta ColMeta} (ht : Dict.get? db t = some tm) (s : Sel) {n b : String} {cm : ColMeta} (hd : '.' ∉ n.toList)
    (hc : Dict.get? tm.columns n = some cm) (hb : rankName n cm = some b) :
    selCol db (.str t) "order-preserving" s n = .ok (.str b, s.push n cm.type (rankState cm)) := by
  unfold selCol
  rw [splitQual_plain hd]
  have h1 : tableOfJson db (.str t) = .ok tm := getItem_ok.2 ht
  have h2 : Dict.getItem tm.columns n = .ok cm := getItem_ok.2 hc
  simp only [h1, h2]
  unfold rankName at hb
  unfold rankState
  by_cases hp : cm.plaintext = true
  · rw [if_pos hp] at hb ⊢
    injection hb with hb
    subst hb
    simp [hp]
  · rw [if_neg hp] at hb ⊢
    rw [getItem_ok.2 hb]
    simp [hp]

theorem item_rewritten {db : Db} {t : String} {tm : TableMeta ColMeta} (ht : Dict.get? db t = some tm) (s : Sel) {i : Item} (h : i.Fine tm.columns) :
    selRw db (.str t) "symmetric" s i.value =
      .ok ((i.sent tm.columns).value, s.push (i.entry tm.columns).1 (i.entry tm.columns).2.1 (i.entry tm.columns).2.2) := by
  cases i with
  | col n =>
    obtain ⟨cm, b, hc, hb⟩ := h.col
    have hs : n ≠ "*" := h.star
    have := selCol_plain s ht hc h.dot hb
    simp only [Item.value, selRw, if_neg hs, selStr, this, Item.sent, Item.entry, hc, Option.bind_some, hb, Option.getD_some, Option.map_some]
  | count =>
    have hc : isCountStar [("count", .str "*")] = true := by decide
    simp only [Item.value, selRw, hc, if_true, Item.sent, Item.entry]
  | max n =>
    obtain ⟨cm, b, hc, hb, _⟩ := h.col
    have hs : n ≠ "*" := h.star
    have := rank_rewritten ht s h.dot hc hb
    simp (decide := true) only [Item.value, selRw, isCountStar, selDict, if_false, if_true, funcCipher, Option.getD_some, if_neg hs, selStr, this, Dict.set,
      Item.sent, Item.entry, hc, Option.bind_some, hb, Option.map_some]
    rw [if_neg (by simp)]
  | min n =>
    obtain ⟨cm, b, hc, hb, _⟩ := h.col
    have hs : n ≠ "*" := h.star
    have := rank_rewritten ht s h.dot hc hb
    simp (decide := true) only [Item.value, selRw, isCountStar, selDict, if_false, if_true, funcCipher, Option.getD_some, if_neg hs, selStr, this, Dict.set,
      Item.sent, Item.entry, hc, Option.bind_some, hb, Option.map_some]
    rw [if_neg (by simp)]

/-- The select list as sent. -/
def listOut : List Item → Json
  | [i] => .dict [("value", i.value)]
  | l => .list (l.map Item.value)

theorem items_rewritten {db : Db} {t : String} {tm : TableMeta ColMeta} (ht : Dict.get? db t = some tm) : ∀ (l : List Item) (s : Sel), (∀ i ∈ l, i.Fine tm.columns) →
    selList db (.str t) s (l.map fun i => .dict [("value", i.value)]) =
      .ok ((l.map (Item.sent tm.columns)).map Item.value, s.pushes (l.map (Item.entry tm.columns)))
  | [], s, _ => by simp [selList, Sel.pushes]
  | i :: l, s, h => by
    have h1 := item_rewritten ht s (h i (by simp))
    have h2 := items_rewritten ht l (s.push (i.entry tm.columns).1 (i.entry tm.columns).2.1 (i.entry tm.columns).2.2) fun i hi => h i (by simp [hi])
    rw [List.map_cons, selList]
    simp only [selItem, selValueOf, if_true, h1, h2, List.map_cons]
    simp [Sel.pushes, Sel.push]

theorem list_rewritten {db : Db} {t : String} {tm : TableMeta ColMeta} (ht : Dict.get? db t = some tm) {l : List Item} (s : Sel) (h : ∀ i ∈ l, i.Fine tm.columns) :
    selRw db (.str t) "symmetric" s (listIn l) = .ok (listOut (l.map (Item.sent tm.columns)), s.pushes (l.map (Item.entry tm.columns))) := by
  have many : selRw db (.str t) "symmetric" s (.list (l.map fun i => .dict [("value", i.value)])) =
      .ok (.list ((l.map (Item.sent tm.columns)).map Item.value), s.pushes (l.map (Item.entry tm.columns))) := by
    rw [selRw, items_rewritten ht l s h]
  match l, h, many with
  | [], _, many => exact many
  | [i], h, _ =>
    have h1 := item_rewritten ht s (h i (by simp))
    have hc : isCountStar [("value", i.value)] = false := by
      cases i <;> simp (decide := true) [Item.value, isCountStar]
    have ha : ¬ ("value" = "add") := by decide
    have hf : funcCipher "value" = none := by decide
    simp only [listIn, List.map_cons, List.map_nil, listOut]
    rw [selRw, hc]
    simp only [Bool.false_eq_true, if_false]
    rw [selDict.eq_def]
    simp only [if_neg ha, hf, Option.getD_none, h1, selDict, Dict.set]
    simp [Sel.pushes, Sel.push]
  | i :: j :: l, _, many => exact many

/-! ### The clauses -/

theorem get_where (w : Option Cond) (k : String) : Dict.get? (whereIn w) k = if k = "where" then w.map Cond.json else none := by
  cases w with
  | none => simp [whereIn]
  | some x =>
    simp only [whereIn, Dict.get?_cons, Dict.get?_nil, Option.map_some]
    by_cases h : k = "where"
    · simp [h]
    · simp [h, Ne.symm h]

theorem get_group_ne (g : List String) {k : String} (h : k ≠ "groupby") : Dict.get? (groupIn g) k = none := by
  unfold groupIn
  split <;> simp [Dict.get?_cons, Ne.symm h]

theorem get_having_ne (h : Option Having) {k : String} (hk : k ≠ "having") : Dict.get? (havingIn h) k = none := by
  cases h <;> simp [havingIn, Dict.get?_cons, Ne.symm hk]

theorem get_order (o : Option SortKey) (k : String) : Dict.get? (orderIn o) k = if k = "orderby" then o.map SortKey.json else none := by
  cases o with
  | none => simp [orderIn]
  | some x =>
    simp only [orderIn, Dict.get?_cons, Dict.get?_nil, Option.map_some]
    by_cases h : k = "orderby"
    · simp [h]
    · simp [h, Ne.symm h]

theorem get_limit_ne (l : Option (Nat × Option Nat)) {k : String} (h : k ≠ "limit") (h' : k ≠ "offset") : Dict.get? (limitIn l) k = none := by
  match l with
  | none => rfl
  | some (n, none) => simp [limitIn, Dict.get?_cons, Ne.symm h]
  | some (n, some m) => simp [limitIn, Dict.get?_cons, Ne.symm h, Ne.symm h']

theorem get_json (q : Query) (k : String) : Dict.get? q.json k =
    if q.selectKey = k then some (listIn q.items) else if "from" = k then some (.str q.table) else
      (Dict.get? (whereIn q.cond) k).or ((Dict.get? (groupIn q.group) k).or ((Dict.get? (havingIn q.having) k).or ((Dict.get? (orderIn q.order) k).or
        (Dict.get? (limitIn q.limit) k)))) := by
  simp only [Query.json, Dict.get?_cons, Dict.get?_append]

theorem selectKey_ne {q : Query} {k : String} (h : k ≠ "select") (h' : k ≠ "select_distinct") : q.selectKey ≠ k := by
  unfold Query.selectKey
  split
  · exact Ne.symm h'
  · exact Ne.symm h

/-- Clauses that are not in the query. -/
theorem get_json_none (q : Query) {k : String} (h : q.selectKey ≠ k) (h' : k ∉ ["from", "where", "groupby", "having", "orderby", "limit", "offset"]) :
    Dict.get? q.json k = none := by
  simp only [List.mem_cons, List.not_mem_nil, or_false, not_or] at h'
  obtain ⟨h1, h2, h3, h4, h5, h6, h7⟩ := h'
  rw [get_json, if_neg h, if_neg (Ne.symm h1), get_where, if_neg h2, get_group_ne _ h3, get_having_ne _ h4, get_order, if_neg h5, get_limit_ne _ h6 h7]
  rfl

/-! ### The loop -/

/-- The loop over the clauses if the result of each is known. -/
theorem loop_known {c : Crypto} {db : Db} {f} {table : Json} {columns : Option Json} {val : String → Json → Json} {upd : String → Sel → Sel} :
    ∀ (keys : List String) (json : Dict String Json) (s : Sel), keys.Nodup →
      (∀ k ∈ keys, ∀ v, Dict.get? json k = some v → ∀ s, (if k = "from" then f table v s else stepKey c db table columns k v s) = .ok (val k v, upd k s)) →
      ∃ json', clauseLoop c db f table columns keys json s =
          .ok (json', keys.foldl (fun s k => if (Dict.get? json k).isSome then upd k s else s) s) ∧
        ∀ k, Dict.get? json' k = if k ∈ keys then (Dict.get? json k).map (val k) else Dict.get? json k
  | [], json, s, _, _ => ⟨json, rfl, fun k => by simp⟩
  | k :: r, json, s, hn, h => by
    obtain ⟨hk, hr⟩ := List.nodup_cons.1 hn
    rw [clauseLoop]
    cases hg : Dict.get? json k with
    | none =>
      obtain ⟨json', h1, h2⟩ := loop_known r json s hr fun k hk => h k (by simp [hk])
      refine ⟨json', by simpa [hg] using h1, fun k' => ?_⟩
      rw [h2]
      by_cases e : k' = k
      · subst e
        simp [hk, hg]
      · simp [e]
    | some v =>
      have hs := h k (by simp) v hg s
      have hget : ∀ k' ∈ r, Dict.get? (Dict.set json k (val k v)) k' = Dict.get? json k' := fun k' hk' =>
        Dict.get?_set_ne _ (by rintro rfl; exact hk hk') _
      obtain ⟨json', h1, h2⟩ := loop_known r (Dict.set json k (val k v)) (upd k s) hr fun k' hk' w hw => h k' (by simp [hk']) w (by rw [← hget k' hk']; exact hw)
      refine ⟨json', ?_, fun k' => ?_⟩
      · simp only [hs]
        rw [h1, List.foldl_cons, if_pos (by simp [hg])]
        congr 2
        clear h1 h2 hs hr hn h hg
        generalize upd k s = s0
        induction r generalizing s0 with
        | nil => rfl
        | cons a r ih =>
          rw [List.foldl_cons, List.foldl_cons, hget a (by simp)]
          exact ih (fun h => hk (by simp [h])) (fun k' hk' => hget k' (by simp [hk'])) _
      · rw [h2]
        by_cases e : k' = k
        · subst e
          simp [hk, hg]
        · simp [e, Dict.get?_set_ne _ e]

/-- ORDER BY as sent. -/
def orderSent (cols : Dict String ColMeta) (k : SortKey) : Json :=
  match Dict.get? cols k.col with
  | some cm => if cm.plaintext then k.json else .dict [("value", .str ((rankName k.col cm).getD ""))]
  | none => .null

/-- What becomes of a clause. -/
def valSent (c : Crypto) (tm : TableMeta ColMeta) (q : Query) (k : String) (v : Json) : Json :=
  if k = "from" then .str tm.anonymous
  else if k = "where" then (q.cond.map (Cond.sealed c tm.columns)).getD .null
  else if k = "orderby" then (q.order.map (orderSent tm.columns)).getD .null
  else if k = q.selectKey then listOut (q.items.map (Item.sent tm.columns))
  else v

theorem find_table (q : Query) : findTable q.json tableKeys = .ok (.str q.table) := by
  have h1 : Dict.get? q.json "insert" = none := get_json_none q (selectKey_ne (by decide) (by decide)) (by decide)
  have h2 : Dict.get? q.json "from" = some (.str q.table) := by
    rw [get_json, if_neg (selectKey_ne (by decide) (by decide)), if_pos rfl]
  simp only [tableKeys, findTable, h1, h2]

/-- The rewritten query. -/
theorem query_rewritten {c : Crypto} {db : Db} {q : Query} {tm : TableMeta ColMeta} (ht : Dict.get? db q.table = some tm) (hp : PlainTable q.table)
    (hq : Fine tm.columns q) (fuel : Nat) : ∃ json, rewriteQuery c db fuel q.json = .ok (json, .str q.table, Sel.pushes {} (q.items.map (Item.entry tm.columns))) ∧
      selectOf json = some (q.distinct, listOut (q.items.map (Item.sent tm.columns))) ∧ Dict.get? json "from" = some (.str tm.anonymous) ∧
      Dict.get? json "where" = q.cond.map (Cond.sealed c tm.columns) ∧ Dict.get? json "orderby" = q.order.map (orderSent tm.columns) ∧
      ∀ k ∈ ["groupby", "having", "limit", "offset"], Dict.get? json k = Dict.get? q.json k := by
  have htab : tableOf db q.table = .ok tm := getItem_ok.2 ht
  have hf : ∀ s, fromOuter c db (rewriteClause c db fuel) (.str q.table) (.str q.table) s = .ok (.str tm.anonymous, s) := by
    intro s
    unfold PlainTable at hp
    simp [fromOuter, fromInner, hp, fromRw, htab, Except.map]
  have hsel : q.selectKey = "select" ∨ q.selectKey = "select_distinct" := by
    unfold Query.selectKey
    split <;> simp
  have hw : ∀ x, q.cond = some x → whereRw c db (.str q.table) "symmetric" "" x.json = .ok (x.sealed c tm.columns) := fun x hx =>
    where_sealed ht "" x (typed_fits (someVals_kinds _) x (hq.cond x hx))
  have ho : ∀ k, q.order = some k → orderRw db (.str q.table) k.json = .ok (orderSent tm.columns k) := by
    intro k hk
    obtain ⟨cm, b, hc, hb, _⟩ := hq.order k hk
    rw [order_rewrite ht k hc, orderSent, hc]
    by_cases h : cm.plaintext = true
    · simp [h]
    · have hb' := hb
      rw [rankName, if_neg h] at hb'
      simp only [h, getItem_ok.2 hb', hb]
      simp
  obtain ⟨json, h1, h2⟩ := loop_known (c := c) (db := db) (f := fromOuter c db (rewriteClause c db fuel)) (table := .str q.table)
    (columns := Dict.get? q.json "columns") (val := valSent c tm q)
    (upd := fun k s => if k = q.selectKey then s.pushes (q.items.map (Item.entry tm.columns)) else s) clauseKeys q.json {} clauseKeys_nodup (by
      intro k hk v hv s
      by_cases e1 : k = "from"
      · subst e1
        rw [get_json, if_neg (selectKey_ne (by decide) (by decide)), if_pos rfl] at hv
        injection hv with hv
        subst hv
        rw [if_pos rfl, hf, valSent, if_pos rfl, if_neg (fun e => selectKey_ne (q := q) (k := "from") (by decide) (by decide) e.symm)]
      · rw [if_neg e1]
        by_cases e2 : k = q.selectKey
        · subst e2
          rw [get_json, if_pos rfl] at hv
          injection hv with hv
          subst hv
          have : valSent c tm q q.selectKey (listIn q.items) = listOut (q.items.map (Item.sent tm.columns)) := by
            unfold valSent
            rw [if_neg (selectKey_ne (by decide) (by decide)), if_neg (selectKey_ne (by decide) (by decide)), if_neg (selectKey_ne (by decide) (by decide)), if_pos rfl]
          unfold stepKey
          rw [if_pos hsel, list_rewritten ht s hq.items, this, if_pos rfl]
        · rw [if_neg e2]
          by_cases e3 : k = "where"
          · subst e3
            rw [get_json, if_neg (Ne.symm e2), if_neg (by decide), get_where, if_pos rfl, get_group_ne _ (by decide), get_having_ne _ (by decide), get_order,
              if_neg (by decide), get_limit_ne _ (by decide) (by decide)] at hv
            cases hc : q.cond with
            | none => simp [hc] at hv
            | some x =>
              have hv : x.json = v := by simpa [hc] using hv
              subst hv
              simp (decide := true) only [stepKey, if_false, if_true, hw x hc, valSent, hc, Option.map_some, Option.getD_some]
          · by_cases e4 : k = "orderby"
            · subst e4
              rw [get_json, if_neg (Ne.symm e2), if_neg (by decide), get_where, if_neg (by decide), get_group_ne _ (by decide), get_having_ne _ (by decide), get_order,
                if_pos rfl, get_limit_ne _ (by decide) (by decide)] at hv
              cases hc : q.order with
              | none => simp [hc] at hv
              | some x =>
                have hv : x.json = v := by simpa [hc] using hv
                subst hv
                simp (decide := true) only [stepKey, if_false, if_true, ho x hc, valSent, hc, Option.map_some, Option.getD_some]
            · exfalso
              have : Dict.get? q.json k = none := get_json_none q (Ne.symm e2) (by
                simp only [List.mem_cons, List.not_mem_nil, or_false, not_or]
                refine ⟨e1, e3, ?_, ?_, e4, ?_, ?_⟩ <;> (rintro rfl; revert hk; decide))
              rw [this] at hv
              cases hv)
  have hnone : ∀ k, q.selectKey ≠ k → k ∉ ["from", "where", "groupby", "having", "orderby", "limit", "offset"] → Dict.get? q.json k = none := fun k h h' =>
    get_json_none q h h'
  refine ⟨json, ?_, ?_, ?_, ?_, ?_, ?_⟩
  · rw [rewriteQuery, find_table]
    simp only [h1]
    have hs : (Dict.get? q.json q.selectKey).isSome = true := by rw [get_json, if_pos rfl]; rfl
    unfold clauseKeys
    rcases hsel with e | e <;> rw [e] at hs ⊢ <;> simp [hs]
  · unfold selectOf
    rw [h2, h2, if_pos (by decide), if_pos (by decide)]
    have hs : Dict.get? q.json q.selectKey = some (listIn q.items) := by rw [get_json, if_pos rfl]
    have hv : valSent c tm q q.selectKey (listIn q.items) = listOut (q.items.map (Item.sent tm.columns)) := by
      unfold valSent
      rw [if_neg (selectKey_ne (by decide) (by decide)), if_neg (selectKey_ne (by decide) (by decide)), if_neg (selectKey_ne (by decide) (by decide)), if_pos rfl]
    by_cases hd : q.distinct = true
    · have e : q.selectKey = "select_distinct" := by simp [Query.selectKey, hd]
      rw [e] at hs hv
      rw [hnone "select" (by rw [e]; decide) (by decide), hs]
      simp [hv, hd]
    · have e : q.selectKey = "select" := by simp [Query.selectKey, hd]
      rw [e] at hs hv
      rw [hnone "select_distinct" (by rw [e]; decide) (by decide), hs]
      simp [hv, hd]
  · rw [h2, if_pos (by decide), get_json, if_neg (selectKey_ne (by decide) (by decide)), if_pos rfl]
    rfl
  · rw [h2, if_pos (by decide), get_json, if_neg (selectKey_ne (by decide) (by decide)), if_neg (by decide), get_where, if_pos rfl, get_group_ne _ (by decide),
      get_having_ne _ (by decide), get_order, if_neg (by decide), get_limit_ne _ (by decide) (by decide)]
    cases hc : q.cond <;> simp [valSent, hc]
  · rw [h2, if_pos (by decide), get_json, if_neg (selectKey_ne (by decide) (by decide)), if_neg (by decide), get_where, if_neg (by decide), get_group_ne _ (by decide),
      get_having_ne _ (by decide), get_order, if_pos rfl, get_limit_ne _ (by decide) (by decide)]
    cases hc : q.order <;> simp [valSent, hc]
  · intro k hk
    rw [h2, if_neg ((by decide : ∀ k ∈ ["groupby", "having", "limit", "offset"], k ∉ clauseKeys) k hk)]

end EulerDB.Answer
