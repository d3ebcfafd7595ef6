/-
C91: the query as the proxy sends it.
-/
import Verif.Nested.Model

namespace EulerDB.Nested

open EulerDB EulerDB.Clause EulerDB.Delta EulerDB.Whole EulerDB.Answer

/-! ### Names with the alias -/

/-- `x.n`. -/
def qual (x : String) : Answer.Item → Answer.Item
  | .col n => .col (x ++ "." ++ n)
  | .count => .count
  | .max n => .max (x ++ "." ++ n)
  | .min n => .min (x ++ "." ++ n)

/-- The name recorded for an item. -/
def recorded : Answer.Item → String
  | .col n => n
  | .count => "count"
  | .max n => n
  | .min n => n

theorem bareName_plain {x n : String} (h : '.' ∉ n.toList) : bareName x n = n := by
  unfold bareName
  rw [if_neg]
  intro hp
  obtain ⟨t, ht⟩ := List.isPrefixOf_iff_prefix.1 hp
  apply h
  rw [← ht]
  simp

theorem bareName_qual (x n : String) : bareName x (x ++ "." ++ n) = n := by
  unfold bareName
  have e : (x ++ "." ++ n).toList = x.toList ++ ['.'] ++ n.toList := by simp
  rw [e, if_pos (List.isPrefixOf_iff_prefix.2 (List.prefix_append _ _))]
  have : x.toList.length + 1 = (x.toList ++ ['.']).length := by simp
  rw [this, List.drop_left]
  simp

/-- The name of an item has no dot. -/
def NoDot (i : Answer.Item) : Prop := '.' ∉ (recorded i).toList

theorem bareItem_plain {x : String} {i : Answer.Item} (h : NoDot i) : bareItem x i = i := by
  cases i <;> simp only [bareItem] <;> congr 1 <;> exact bareName_plain h

theorem bareItem_qual (x : String) (i : Answer.Item) : bareItem x (qual x i) = i := by
  cases i <;> simp only [bareItem, qual, bareName_qual]

theorem Fine.noDot {cols : Dict String ColMeta} {i : Answer.Item} (h : i.Fine cols) : NoDot i := by
  cases i with
  | col n => exact Readable.dot h
  | count => show '.' ∉ "count".toList; decide
  | max n => exact Ranked.dot h
  | min n => exact Ranked.dot h

/-- An item as written, with or without the alias. -/
def Written (x : String) (i : Answer.Item) : Prop := i = bareItem x i ∨ i = qual x (bareItem x i)

/-- An item as sent. -/
def sentAs (cols : Dict String ColMeta) (x : String) (i : Answer.Item) : Answer.Item :=
  if i = bareItem x i then (bareItem x i).sent cols else qual x ((bareItem x i).sent cols)

/-- What is recorded for an item. -/
def entryAs (cols : Dict String ColMeta) (x : String) (i : Answer.Item) : Rec := (recorded i, ((bareItem x i).entry cols).2)

/-- An alias. -/
structure AliasOk (x : String) : Prop where
  some : x ≠ ""
  dot : '.' ∉ x.toList

theorem splitQual_dot {x n : String} (hx : '.' ∉ x.toList) (hn : '.' ∉ n.toList) : splitQual (x ++ "." ++ n) = .ok (x, n) := by
  unfold splitQual
  rw [Join.splitDot_dot hx hn]

/-! ### The select list over a dict -/

section
variable {db : Db} {t x : String} {tm : TableMeta ColMeta} {d : List (String × Json)}

/-- The name of a column of the backend. -/
theorem col_rewritten (ht : Dict.get? db t = some tm) {cipher st n b : String} {cm : ColMeta} (s : Sel) (hn : '.' ∉ n.toList) (hx : AliasOk x)
    (hc : Dict.get? tm.columns n = some cm) (hb : (if cm.plaintext then .ok n else Dict.getItem cm.encCols cipher : Except PyErr String) = .ok b)
    (hst : (if cm.plaintext then "plaintext" else cipher) = st) :
    selCol db (.str t) cipher s n = .ok (.str b, s.push n cm.type st) ∧
      selCol db (.str t) cipher s (x ++ "." ++ n) = .ok (.str (x ++ "." ++ b), s.push (x ++ "." ++ n) cm.type st) := by
  have h1 : tableOfJson db (.str t) = .ok tm := getItem_ok.2 ht
  have h2 : Dict.getItem tm.columns n = .ok cm := getItem_ok.2 hc
  constructor
  · unfold selCol
    rw [splitQual_plain hn]
    simp only [h1, h2, hb, hst]
    simp
  · unfold selCol
    rw [splitQual_dot hx.dot hn]
    simp only [h1, h2, hb, hst, if_neg hx.some]

theorem noStar (n : String) : x ++ "." ++ n ≠ "*" := by
  intro h
  have := congrArg String.toList h
  simp only [String.toList_append] at this
  have e : "*".toList = ['*'] := by decide
  have e' : ".".toList = ['.'] := by decide
  rw [e, e'] at this
  have hm : '.' ∈ (['*'] : List Char) := by
    rw [← this]
    simp
  revert hm
  decide

theorem item_rewritten (ht : Dict.get? db t = some tm) (hd : getNest d = .str t) (hx : AliasOk x) (s : Sel) {i : Answer.Item} (h : (bareItem x i).Fine tm.columns)
    (hw : Written x i) : selRw db (.dict d) "symmetric" s i.value =
      .ok ((sentAs tm.columns x i).value, s.push (entryAs tm.columns x i).1 (entryAs tm.columns x i).2.1 (entryAs tm.columns x i).2.2) := by
  unfold Written at hw
  generalize hj : bareItem x i = j at h hw
  have hcol : ∀ {n cipher b st : String} {cm : ColMeta}, '.' ∉ n.toList → n ≠ "*" → Dict.get? tm.columns n = some cm →
      (if cm.plaintext then .ok n else Dict.getItem cm.encCols cipher : Except PyErr String) = .ok b → (if cm.plaintext then "plaintext" else cipher) = st →
      selRw db (.dict d) cipher s (.str n) = .ok (.str b, s.push n cm.type st) ∧
      selRw db (.dict d) cipher s (.str (x ++ "." ++ n)) = .ok (.str (x ++ "." ++ b), s.push (x ++ "." ++ n) cm.type st) := by
    intro n cipher b st cm h1 h2 h3 h4 h5
    obtain ⟨g1, g2⟩ := col_rewritten ht s h1 hx h3 h4 h5
    constructor
    · rw [selRw, if_neg h2, selStr, hd]
      exact g1
    · rw [selRw, if_neg (noStar n), selStr, hd]
      exact g2
  have hread : ∀ {n b : String} {cm : ColMeta}, readName n cm = some b → (if cm.plaintext then .ok n else Dict.getItem cm.encCols "symmetric" : Except PyErr String) = .ok b := by
    intro n b cm hb
    unfold readName at hb
    split
    · rename_i hp
      rw [if_pos hp] at hb
      injection hb with hb
      rw [hb]
    · rename_i hp
      rw [if_neg hp] at hb
      exact getItem_ok.2 hb
  have hrank : ∀ {n b : String} {cm : ColMeta}, rankName n cm = some b →
      (if cm.plaintext then .ok n else Dict.getItem cm.encCols "order-preserving" : Except PyErr String) = .ok b := by
    intro n b cm hb
    unfold rankName at hb
    split
    · rename_i hp
      rw [if_pos hp] at hb
      injection hb with hb
      rw [hb]
    · rename_i hp
      rw [if_neg hp] at hb
      exact getItem_ok.2 hb
  have hagg : ∀ (f : String) (v : Json), f = "max" ∨ f = "min" → ∀ {y : Json} {s' : Sel}, selRw db (.dict d) "order-preserving" s v = .ok (y, s') →
      selRw db (.dict d) "symmetric" s (.dict [(f, v)]) = .ok (.dict [(f, y)], s') := by
    intro f v hf y s' hv
    have hc : isCountStar [(f, v)] = false := by
      rcases hf with rfl | rfl <;> cases v <;> simp (decide := true) [isCountStar]
    rw [selRw, hc, selDict.eq_def]
    rcases hf with rfl | rfl <;> simp (decide := true) only [if_false, if_true, funcCipher, Option.getD_some, hv, Dict.set, selDict]
  have hne : ∀ j : Answer.Item, NoDot j → j ≠ .count → qual x j ≠ j := by
    intro j h1 h2 h3
    apply h1
    rw [← h3]
    cases j <;> simp [qual, recorded] at h2 ⊢
  cases j with
  | count =>
    have hi : i = .count := by rcases hw with e | e <;> exact e
    subst hi
    have hc : isCountStar [("count", .str "*")] = true := by decide
    simp only [Answer.Item.value, selRw, hc, if_true, sentAs, entryAs, bareItem, Answer.Item.sent, Answer.Item.entry, recorded]
  | col n =>
    obtain ⟨cm, b, hc, hb⟩ := h.col
    obtain ⟨g1, g2⟩ := hcol (st := readState cm) h.dot h.star hc (hread hb) rfl
    rcases hw with rfl | rfl
    · have e : bareItem x (.col n) = .col n := hj
      simp only [Answer.Item.value, g1, sentAs, entryAs, e, if_true, Answer.Item.sent, Answer.Item.entry, hc, Option.bind_some, hb, Option.getD_some, Option.map_some, recorded]
    · have e : bareItem x (qual x (.col n)) = .col n := hj
      have : ¬ qual x (.col n) = .col n := hne _ (Fine.noDot h) (by simp)
      simp only [sentAs, entryAs, e, if_neg this]
      simp only [qual, Answer.Item.value, g2, Answer.Item.sent, Answer.Item.entry, hc, Option.bind_some, hb, Option.getD_some, Option.map_some, recorded]
  | max n =>
    obtain ⟨cm, b, hc, hb, _⟩ := h.col
    obtain ⟨g1, g2⟩ := hcol (st := rankState cm) h.dot h.star hc (hrank hb) rfl
    rcases hw with rfl | rfl
    · have e : bareItem x (.max n) = .max n := hj
      simp only [Answer.Item.value, hagg "max" _ (by simp) g1, sentAs, entryAs, e, if_true, Answer.Item.sent, Answer.Item.entry, hc, Option.bind_some, hb, Option.getD_some, Option.map_some, recorded]
    · have e : bareItem x (qual x (.max n)) = .max n := hj
      have : ¬ qual x (.max n) = .max n := hne _ (Fine.noDot h) (by simp)
      simp only [sentAs, entryAs, e, if_neg this]
      simp only [qual, Answer.Item.value, hagg "max" _ (by simp) g2, Answer.Item.sent, Answer.Item.entry, hc, Option.bind_some, hb, Option.getD_some, Option.map_some, recorded]
  | min n =>
    obtain ⟨cm, b, hc, hb, _⟩ := h.col
    obtain ⟨g1, g2⟩ := hcol (st := rankState cm) h.dot h.star hc (hrank hb) rfl
    rcases hw with rfl | rfl
    · have e : bareItem x (.min n) = .min n := hj
      simp only [Answer.Item.value, hagg "min" _ (by simp) g1, sentAs, entryAs, e, if_true, Answer.Item.sent, Answer.Item.entry, hc, Option.bind_some, hb, Option.getD_some, Option.map_some, recorded]
    · have e : bareItem x (qual x (.min n)) = .min n := hj
      have : ¬ qual x (.min n) = .min n := hne _ (Fine.noDot h) (by simp)
      simp only [sentAs, entryAs, e, if_neg this]
      simp only [qual, Answer.Item.value, hagg "min" _ (by simp) g2, Answer.Item.sent, Answer.Item.entry, hc, Option.bind_some, hb, Option.getD_some, Option.map_some, recorded]

theorem items_rewritten (ht : Dict.get? db t = some tm) (hd : getNest d = .str t) (hx : AliasOk x) : ∀ (l : List Answer.Item) (s : Sel),
    (∀ i ∈ l, (bareItem x i).Fine tm.columns ∧ Written x i) → selList db (.dict d) s (l.map fun i => .dict [("value", i.value)]) =
      .ok ((l.map (sentAs tm.columns x)).map Answer.Item.value, s.pushes (l.map (entryAs tm.columns x)))
  | [], s, _ => by simp [selList, Sel.pushes]
  | i :: l, s, h => by
    have h1 := item_rewritten ht hd hx s (h i (by simp)).1 (h i (by simp)).2
    have h2 := items_rewritten ht hd hx l (s.push (entryAs tm.columns x i).1 (entryAs tm.columns x i).2.1 (entryAs tm.columns x i).2.2) fun i hi => h i (by simp [hi])
    rw [List.map_cons, selList]
    simp only [selItem, selValueOf, if_true, h1, h2, List.map_cons]
    simp [Sel.pushes, Sel.push]

theorem list_rewritten (ht : Dict.get? db t = some tm) (hd : getNest d = .str t) (hx : AliasOk x) {l : List Answer.Item} (s : Sel)
    (h : ∀ i ∈ l, (bareItem x i).Fine tm.columns ∧ Written x i) :
    selRw db (.dict d) "symmetric" s (listIn l) = .ok (listOut (l.map (sentAs tm.columns x)), s.pushes (l.map (entryAs tm.columns x))) := by
  have many : selRw db (.dict d) "symmetric" s (.list (l.map fun i => .dict [("value", i.value)])) =
      .ok (.list ((l.map (sentAs tm.columns x)).map Answer.Item.value), s.pushes (l.map (entryAs tm.columns x))) := by
    rw [selRw, items_rewritten ht hd hx l s h]
  match l, h, many with
  | [], _, many => exact many
  | [i], h, _ =>
    have h1 := item_rewritten ht hd hx s (h i (by simp)).1 (h i (by simp)).2
    have hc : isCountStar [("value", i.value)] = false := by
      cases i <;> simp (decide := true) [Answer.Item.value, isCountStar]
    have ha : ¬ ("value" = "add") := by decide
    have hf : funcCipher "value" = none := by decide
    simp only [listIn, List.map_cons, List.map_nil, listOut]
    rw [selRw, hc]
    simp only [Bool.false_eq_true, if_false]
    rw [selDict.eq_def]
    simp only [if_neg ha, hf, Option.getD_none, h1, selDict, Dict.set]
    simp [Sel.pushes, Sel.push]
  | i :: j :: l, _, many => exact many

/-! ### The star -/

/-- The prefix of the columns of a star. -/
def starPre (x : String) : String := if x = "" then "" else x ++ "."

theorem starCols_rewritten {single : String} {ti : Json} {p : String} (hp : starPrefix db false single ti = .ok p) {cols : Dict String ColMeta} :
    ∀ (l : Dict String ColMeta) (s : Sel), (∀ e ∈ l, Dict.get? cols e.1 = some e.2 ∧ ∃ b, readName e.1 e.2 = some b) → starCols db false single ti "symmetric" l s =
      .ok (l.map fun e => .str (p ++ ((readName e.1 e.2).getD "")), s.pushes ((Dict.keys l).map fun k => (Answer.Item.col k).entry cols))
  | [], s, _ => by simp [starCols, Sel.pushes, Dict.keys]
  | (k, v) :: l, s, h => by
    obtain ⟨hc, b, hb⟩ := h (k, v) (by simp)
    have h2 := starCols_rewritten hp l (s.push ((if false then single ++ "." else "") ++ k) v.type (if v.plaintext then "plaintext" else "symmetric")) fun e he => h e (by simp [he])
    have hn : (if v.plaintext then .ok k else Dict.getItem v.encCols "symmetric" : Except PyErr String) = .ok b := by
      unfold readName at hb
      split
      · rename_i hp
        rw [if_pos hp] at hb
        injection hb with hb
        exact congrArg _ hb
      · rename_i hp
        rw [if_neg hp] at hb
        exact getItem_ok.2 hb
    rw [starCols, hp]
    simp only [hn, h2]
    simp only [List.map_cons, Dict.keys, Answer.Item.entry] at hc hb ⊢
    simp [hb, hc, Sel.pushes, Sel.push, readState]

end

/-- The items of a star as sent. -/
def starItems (cols : Dict String ColMeta) (pre : String) : List Answer.Item :=
  (Dict.keys cols).map fun k => .col (pre ++ ((Dict.get? cols k).bind (readName k)).getD "")

/-- The table of a FROM value. -/
def single : Json → Json
  | .dict d => getNest d
  | t => t

theorem star_rewritten {db : Db} {t : String} {tm : TableMeta ColMeta} {table : Json} {p : String} (ht : Dict.get? db t = some tm) (hl : ∀ l, table ≠ .list l)
    (hn : single table = .str t) (hp : starPrefix db false t table = .ok p) (hk : (Dict.keys tm.columns).Nodup)
    (hr : ∀ k ∈ Dict.keys tm.columns, Readable tm.columns k) (s : Sel) :
    selRw db table "symmetric" s (.str "*") =
      .ok (.list ((starItems tm.columns p).map Answer.Item.value), s.pushes ((Dict.keys tm.columns).map fun k => (Answer.Item.col k).entry tm.columns)) := by
  have h1 : tableOf db t = .ok tm := getItem_ok.2 ht
  have h2 := starCols_rewritten (db := db) hp (cols := tm.columns) tm.columns s (by
    rintro ⟨k, v⟩ he
    have hg := Dict.get?_of_mem_nodup hk he
    obtain ⟨cm, b, hc, hb⟩ := (hr k (List.mem_map.2 ⟨_, he, rfl⟩)).col
    rw [hg] at hc
    injection hc with hc
    subst hc
    exact ⟨hg, b, hb⟩)
  have ht' : selStar db table "symmetric" s =
      match starTables db false "symmetric" [table] s with
      | .error e => .error e
      | .ok (js, s') => .ok (.list js, s') := by
    cases table <;> first | rfl | exact absurd rfl (hl _)
  have hs : starTables db false "symmetric" [table] s =
      match starCols db false t table "symmetric" tm.columns s with
      | .error e => .error e
      | .ok (js, s') => .ok (js ++ [], s') := by
    rw [starTables.eq_def]
    cases table with
    | str a =>
      have hn : Json.str a = .str t := hn
      injection hn with hn
      subst hn
      dsimp only
      rw [h1]
      dsimp only
      cases starCols db false a (.str a) "symmetric" tm.columns s <;> rfl
    | dict d =>
      have hn : getNest d = .str t := hn
      dsimp only
      rw [hn]
      dsimp only
      rw [h1]
      dsimp only
      cases starCols db false t (.dict d) "symmetric" tm.columns s <;> rfl
    | list l => exact absurd rfl (hl l)
    | null => cases hn
    | int _ => cases hn
    | float _ => cases hn
  have e : (tm.columns.map fun e => Json.str (p ++ ((readName e.1 e.2).getD ""))) = (starItems tm.columns p).map Answer.Item.value := by
    unfold starItems Dict.keys
    rw [List.map_map, List.map_map]
    refine List.map_congr_left fun e he => ?_
    have hg := Dict.get?_of_mem_nodup (k := e.1) (v := e.2) hk he
    simp [Answer.Item.value, hg]
  rw [selRw, if_pos rfl, ht', hs, h2]
  simp only [e, List.append_nil]

/-! ### The loop over the clauses -/

/-- The statement after the loop, if `val` says what becomes of each clause. -/
def loopOut (val : String → Json → Json) : List String → Dict String Json → Dict String Json
  | [], json => json
  | k :: r, json =>
    match Dict.get? json k with
    | none => loopOut val r json
    | some v => loopOut val r (Dict.set json k (val k v))

theorem get_loopOut {val : String → Json → Json} : ∀ (keys : List String) (json : Dict String Json), keys.Nodup → ∀ k,
    Dict.get? (loopOut val keys json) k = if k ∈ keys then (Dict.get? json k).map (val k) else Dict.get? json k
  | [], json, _, k => by simp [loopOut]
  | a :: r, json, hn, k => by
    obtain ⟨ha, hr⟩ := List.nodup_cons.1 hn
    rw [loopOut]
    cases hg : Dict.get? json a with
    | none =>
      simp only
      rw [get_loopOut r json hr]
      by_cases e : k = a
      · subst e
        simp [ha, hg]
      · simp [e]
    | some v =>
      simp only
      rw [get_loopOut r _ hr]
      by_cases e : k = a
      · subst e
        simp [ha, hg]
      · simp [e, Dict.get?_set_ne _ e]

theorem loop_out {c : Crypto} {db : Db} {f} {table : Json} {columns : Option Json} {val : String → Json → Json} {upd : String → Sel → Sel} :
    ∀ (keys : List String) (json : Dict String Json) (s : Sel), keys.Nodup →
      (∀ k ∈ keys, ∀ v, Dict.get? json k = some v → ∀ s, (if k = "from" then f table v s else stepKey c db table columns k v s) = .ok (val k v, upd k s)) →
      clauseLoop c db f table columns keys json s = .ok (loopOut val keys json, keys.foldl (fun s k => if (Dict.get? json k).isSome then upd k s else s) s)
  | [], json, s, _, _ => rfl
  | k :: r, json, s, hn, h => by
    obtain ⟨hk, hr⟩ := List.nodup_cons.1 hn
    rw [clauseLoop, loopOut]
    cases hg : Dict.get? json k with
    | none => simpa [hg] using loop_out r json s hr fun k hk => h k (by simp [hk])
    | some v =>
      have hs := h k (by simp) v hg s
      have hget : ∀ k' ∈ r, Dict.get? (Dict.set json k (val k v)) k' = Dict.get? json k' := fun k' hk' =>
        Dict.get?_set_ne _ (by rintro rfl; exact hk hk') _
      have h1 := loop_out r (Dict.set json k (val k v)) (upd k s) hr fun k' hk' w hw => h k' (by simp [hk']) w (by rw [← hget k' hk']; exact hw)
      simp only [hs]
      rw [h1, List.foldl_cons, if_pos (by simp [hg])]
      congr 2
      clear h1 hs hr hn h hg
      generalize upd k s = s0
      induction r generalizing s0 with
      | nil => rfl
      | cons a r ih =>
        rw [List.foldl_cons, List.foldl_cons, hget a (by simp)]
        exact ih (fun h => hk (by simp [h])) (fun k' hk' => hget k' (by simp [hk'])) _

/-! ### A layer -/

theorem get_layer (q : Query) (f : Json) (k : String) : Dict.get? (layer q f) k =
    if q.selectKey = k then some (selIn q.items) else if "from" = k then some f else
      (Dict.get? (whereIn q.cond) k).or ((Dict.get? (groupIn q.group) k).or ((Dict.get? (havingIn q.having) k).or ((Dict.get? (orderIn q.order) k).or
        (Dict.get? (limitIn q.limit) k)))) := by
  simp only [layer, Dict.get?_cons, Dict.get?_append]

theorem get_layer_rest (q : Query) (f : Json) {k : String} (h : q.selectKey ≠ k) (h' : "from" ≠ k) : Dict.get? (layer q f) k = Dict.get? q.json k := by
  rw [get_layer, get_json, if_neg h, if_neg h', if_neg h, if_neg h']

theorem get_layer_from (q : Query) (f : Json) : Dict.get? (layer q f) "from" = some f := by
  rw [get_layer, if_neg (selectKey_ne (by decide) (by decide)), if_pos rfl]

theorem get_layer_where (q : Query) (f : Json) : Dict.get? (layer q f) "where" = q.cond.map Cond.json := by
  rw [get_layer, if_neg (selectKey_ne (by decide) (by decide)), if_neg (by decide), get_where, if_pos rfl, get_group_ne _ (by decide), get_having_ne _ (by decide), get_order,
    if_neg (by decide), get_limit_ne _ (by decide) (by decide)]
  simp

theorem get_layer_order (q : Query) (f : Json) : Dict.get? (layer q f) "orderby" = q.order.map SortKey.json := by
  rw [get_layer, if_neg (selectKey_ne (by decide) (by decide)), if_neg (by decide), get_where, if_neg (by decide), get_group_ne _ (by decide), get_having_ne _ (by decide), get_order,
    if_pos rfl, get_limit_ne _ (by decide) (by decide)]
  simp

theorem find_layer (q : Query) (f : Json) : findTable (layer q f) tableKeys = .ok f := by
  have h1 : Dict.get? (layer q f) "insert" = none := by
    rw [get_layer_rest q f (selectKey_ne (by decide) (by decide)) (by decide)]
    exact get_json_none q (selectKey_ne (by decide) (by decide)) (by decide)
  simp only [tableKeys, findTable, h1, get_layer_from]

/-- A layer as sent. -/
structure SentAs (json : Dict String Json) (q : Query) (out fv : Json) (wj : Cond → Json) (oj : SortKey → Json) : Prop where
  sel : selectOf json = some (q.distinct, out)
  source : Dict.get? json "from" = some fv
  cond : Dict.get? json "where" = q.cond.map wj
  order : Dict.get? json "orderby" = q.order.map oj
  rest : ∀ k ∈ ["groupby", "having", "limit", "offset"], Dict.get? json k = Dict.get? q.json k

theorem layer_rewritten {c : Crypto} {db : Db} {q : Query} {f table out fv : Json} {es es' : List Rec} {wj : Cond → Json} {oj : SortKey → Json}
    (hsel : ∀ s, selRw db table "symmetric" s (selIn q.items) = .ok (out, s.pushes es)) (hw : ∀ x, q.cond = some x → whereRw c db table "symmetric" "" x.json = .ok (wj x))
    (ho : ∀ k, q.order = some k → orderRw db table k.json = .ok (oj k)) :
    ∃ json, SentAs json q out fv wj oj ∧ ∀ F, (∀ s, F table f s = .ok (fv, s.pushes es')) → ∀ columns s,
      clauseLoop c db F table columns clauseKeys (layer q f) s = .ok (json, (s.pushes es).pushes es') := by
  let val : String → Json → Json := fun k v =>
    if k = "from" then fv else if k = "where" then (q.cond.map wj).getD .null else if k = "orderby" then (q.order.map oj).getD .null else if k = q.selectKey then out else v
  let upd : String → Sel → Sel := fun k s => if k = "from" then s.pushes es' else if k = q.selectKey then s.pushes es else s
  have hkey : q.selectKey = "select" ∨ q.selectKey = "select_distinct" := by
    unfold Query.selectKey
    split <;> simp
  have hvs : ∀ v, val q.selectKey v = out := by
    intro v
    simp only [val]
    rw [if_neg (selectKey_ne (by decide) (by decide)), if_neg (selectKey_ne (by decide) (by decide)), if_neg (selectKey_ne (by decide) (by decide)), if_pos trivial]
  have hs : Dict.get? (layer q f) q.selectKey = some (selIn q.items) := by rw [get_layer, if_pos rfl]
  have hnone : ∀ k, q.selectKey ≠ k → k ∉ ["from", "where", "groupby", "having", "orderby", "limit", "offset"] → Dict.get? (layer q f) k = none := by
    intro k h h'
    rw [get_layer_rest q f h (by rintro rfl; exact h' (by simp))]
    exact get_json_none q h h'
  have hg := get_loopOut (val := val) clauseKeys (layer q f) clauseKeys_nodup
  refine ⟨loopOut val clauseKeys (layer q f), ⟨?_, ?_, ?_, ?_, ?_⟩, ?_⟩
  · unfold selectOf
    rw [hg, hg, if_pos (by decide), if_pos (by decide)]
    by_cases hd : q.distinct = true
    · have e : q.selectKey = "select_distinct" := by simp [Query.selectKey, hd]
      rw [e] at hs hvs
      rw [hnone "select" (by rw [e]; decide) (by decide), hs]
      simp [hvs, hd]
    · have e : q.selectKey = "select" := by simp [Query.selectKey, hd]
      rw [e] at hs hvs
      rw [hnone "select_distinct" (by rw [e]; decide) (by decide), hs]
      simp [hvs, hd]
  · rw [hg, if_pos (by decide), get_layer_from]
    rfl
  · rw [hg, if_pos (by decide), get_layer_where]
    cases hc : q.cond <;> simp [val, hc]
  · rw [hg, if_pos (by decide), get_layer_order]
    cases hc : q.order <;> simp [val, hc]
  · intro k hk
    rw [hg, if_neg ((by decide : ∀ k ∈ ["groupby", "having", "limit", "offset"], k ∉ clauseKeys) k hk)]
    refine get_layer_rest q f ?_ ?_
    · rcases hkey with e | e <;> (rw [e]; rintro rfl; revert hk; decide)
    · rintro rfl
      revert hk
      decide
  · intro F hF columns s
    rw [loop_out (val := val) (upd := upd) clauseKeys (layer q f) s clauseKeys_nodup]
    · have hf : (Dict.get? (layer q f) "from").isSome = true := by rw [get_layer_from]; rfl
      have hs' : (Dict.get? (layer q f) q.selectKey).isSome = true := by rw [hs]; rfl
      unfold clauseKeys
      rcases hkey with e | e <;> rw [e] at hs' <;> simp [upd, e, hf, hs']
    · intro k hk v hv s
      by_cases e1 : k = "from"
      · subst e1
        rw [get_layer_from] at hv
        injection hv with hv
        subst hv
        simp only [if_true, hF, val, upd]
      · rw [if_neg e1]
        by_cases e2 : k = q.selectKey
        · subst e2
          rw [hs] at hv
          injection hv with hv
          subst hv
          unfold stepKey
          rw [if_pos hkey, hsel, hvs]
          simp only [upd, if_neg e1, if_true]
        · have hu : upd k s = s := by simp only [upd, if_neg e1, if_neg e2]
          rw [hu]
          by_cases e3 : k = "where"
          · subst e3
            rw [get_layer_where] at hv
            cases hc : q.cond with
            | none => simp [hc] at hv
            | some x =>
              have hv : x.json = v := by simpa [hc] using hv
              subst hv
              simp (decide := true) only [stepKey, if_false, if_true, hw x hc, val, hc, Option.map_some, Option.getD_some]
          · by_cases e4 : k = "orderby"
            · subst e4
              rw [get_layer_order] at hv
              cases hc : q.order with
              | none => simp [hc] at hv
              | some x =>
                have hv : x.json = v := by simpa [hc] using hv
                subst hv
                simp (decide := true) only [stepKey, if_false, if_true, ho x hc, val, hc, Option.map_some, Option.getD_some]
            · exfalso
              have : Dict.get? (layer q f) k = none := hnone k (Ne.symm e2) (by
                simp only [List.mem_cons, List.not_mem_nil, or_false, not_or]
                refine ⟨e1, e3, ?_, ?_, e4, ?_, ?_⟩ <;> (rintro rfl; revert hk; decide))
              rw [this] at hv
              cases hv

/-! ### The table of a subquery -/

theorem table_layer {q : Query} {f : Json} (h : q.items.length ≠ 1) {t : String} (hf : getTable "from" f = some t) : getTableDict (layer q f) = some t := by
  have h1 : getTable q.selectKey (selIn q.items) = none := by
    have hk : q.selectKey ∉ ["from", "join", "left join", "right join", "inner join", "value"] := by
      unfold Query.selectKey
      split <;> decide
    match hi : q.items, h with
    | [], _ => simp only [selIn, getTable, if_neg hk]
    | [i], h => exact absurd rfl h
    | i :: j :: l, _ => simp only [selIn, listIn, getTable]
  rw [layer, getTableDict, h1]
  simp only
  rw [getTableDict, hf]

/-- Every subquery has the form that `get_nest_table` sees through. -/
def NQ.Seen : NQ → Prop
  | .plain q => q.items.length ≠ 1
  | .aliased q _ => q.items.length ≠ 1
  | .over q n => q.items.length ≠ 1 ∧ n.Seen

theorem nest_named (v : Json) (x : String) {t : String} (h : getTable "value" v = some t) : getNest (named v x) = .str t := by
  unfold getNest named
  rw [getTableDict, h]

theorem seen_table : ∀ n : NQ, n.Seen → getTableDict n.json = some n.base
  | .plain q, h => table_layer h (by simp [getTable, NQ.base])
  | .aliased q t, h => table_layer h (by
      rw [getTable, named, getTableDict]
      simp [getTable, NQ.base])
  | .over q n, h => table_layer h.1 (by
      rw [getTable, named, getTableDict]
      simp only [getTable, seen_table n h.2, NQ.base])

/-- The FROM value. -/
def NQ.source : NQ → Json
  | .plain q => .str q.table
  | .aliased q t => .dict (named (.str t) q.table)
  | .over q n => .dict (named (.dict n.json) q.table)

theorem json_source (n : NQ) : n.json = layer n.top n.source := by cases n <;> rfl

theorem source_single : ∀ n : NQ, (match n with | .over _ m => m.Seen | _ => True) → single n.source = .str n.base
  | .plain _, _ => rfl
  | .aliased q t, _ => nest_named (.str t) q.table (t := t) (by simp [getTable])
  | .over q m, h => nest_named (.dict m.json) q.table (t := m.base) (by rw [getTable]; exact seen_table m h)

theorem descend_named (v : Json) (x : String) (l : List String) (h : ∀ k ∈ l, k ≠ "value" ∧ k ≠ "name") : descend l (.dict (named v x)) = .ok (.dict (named v x)) := by
  induction l with
  | nil => rfl
  | cons k l ih =>
    obtain ⟨h1, h2⟩ := h k (by simp)
    have : pyIn k (.dict (named v x)) = false := by simp [pyIn, named, Dict.get?_cons, Ne.symm h1, Ne.symm h2]
    rw [descend, this]
    exact ih fun k hk => h k (by simp [hk])

theorem prefix_named (db : Db) (t : String) (v : Json) {x : String} (hx : AliasOk x) : starPrefix db false t (.dict (named v x)) = .ok (x ++ ".") := by
  have hn : Dict.get? (named v x) "name" = some (.str x) := by simp [named, Dict.get?_cons]
  unfold starPrefix
  simp only [descend_named v x joinList (by decide), hn, if_neg hx.some]

theorem dec_named (db : Db) {v : Json} {x t n : String} (hx : AliasOk x) (hn : '.' ∉ n.toList) (h : getNest (named v x) = .str t) :
    decCol db (.dict (named v x)) n = decCol db (.str t) n ∧ decCol db (.dict (named v x)) (x ++ "." ++ n) = decCol db (.str t) n := by
  have hs : splitDot n = [n] := by
    unfold splitDot
    rw [Text.split_word]
    · simp
    exact hn
  have hs2 : splitDot (x ++ "." ++ n) = [x, n] := Join.splitDot_dot hx.dot hn
  have hg : Dict.get? (named v x) "name" = some (.str x) := by simp [named, Dict.get?_cons]
  have ho : origin x (.dict (named v x)) = .ok (.str t) := by
    simp only [origin, originOne, descend_named v x ["join", "inner join", "left join", "right join"] (by decide), hg, if_true, h]
  constructor
  · unfold decCol
    simp only [hs, h]
  · unfold decCol
    simp only [hs, hs2, ho, Except.map]

end EulerDB.Nested
