/-
C91: queries over aliases and subqueries that are refused, and queries for columns that a subquery does not have.
-/
import Verif.Nested.Props

namespace EulerDB.Nested

open EulerDB EulerDB.Clause EulerDB.Delta EulerDB.Whole EulerDB.Answer

/-! ### WHERE and ORDER BY -/

theorem loop_error {c : Crypto} {db : Db} {f} {table : Json} {columns : Option Json} {k : String} {v : Json} :
    ∀ (keys : List String) (json : Dict String Json) (s : Sel), keys.Nodup → k ∈ keys → Dict.get? json k = some v →
      (∀ s, ∃ e, (if k = "from" then f table v s else stepKey c db table columns k v s) = .error e) → ∃ e, clauseLoop c db f table columns keys json s = .error e
  | [], _, _, _, hk, _, _ => absurd hk (by simp)
  | a :: r, json, s, hn, hk, hv, h => by
    obtain ⟨ha, hr⟩ := List.nodup_cons.1 hn
    rw [clauseLoop]
    by_cases e : k = a
    · subst e
      obtain ⟨e, he⟩ := h s
      exact ⟨e, by simp only [hv, he]⟩
    · have hk' : k ∈ r := by simpa [e] using hk
      cases hg : Dict.get? json a with
      | none => exact loop_error r json s hr hk' hv h
      | some w =>
        simp only
        cases hx : (if a = "from" then f table w s else stepKey c db table columns a w s) with
        | error x => exact ⟨x, rfl⟩
        | ok p => exact loop_error r _ p.2 hr hk' (by rw [Dict.get?_set_ne _ e]; exact hv) h

mutual
/-- The condition has a comparison. -/
def compares : Cond → Bool
  | .and l => comparesAny l
  | .or l => comparesAny l
  | _ => true

def comparesAny : List Cond → Bool
  | [] => false
  | x :: r => compares x || comparesAny r
end

mutual
theorem where_raises (c : Crypto) (db : Db) (d : List (String × Json)) : ∀ (x : Cond), compares x = true → ∀ cipher key, ∃ e, whereRw c db (.dict d) cipher key x.json = .error e
  | .eqInt n z, _, cipher, key => by
    have hc : whereCols db (.dict d) = none := rfl
    simp only [Cond.json, whereRw, whereDict, if_true, hc, joinEq]
    cases splitTableCol (.str n) with
    | error e => exact ⟨e, rfl⟩
    | ok p => exact ⟨_, rfl⟩
  | .eqText n s, _, cipher, key => by
    have hc : whereCols db (.dict d) = none := rfl
    simp only [Cond.json, whereRw, whereDict, if_true, hc, joinEq]
    cases splitTableCol (.str n) with
    | error e => exact ⟨e, rfl⟩
    | ok p => exact ⟨_, rfl⟩
  | .cmp op n z, _, cipher, key => by
    have hc : whereCols db (.dict d) = none := rfl
    have h1 : ¬ op.name = "eq" := by cases op <;> decide
    have h2 : op.name = "gt" ∨ op.name = "lt" ∨ op.name = "gte" ∨ op.name = "lte" := by cases op <;> decide
    simp only [Cond.json, whereRw, whereDict, if_neg h1, if_pos h2, hc, condCol]
    exact ⟨_, rfl⟩
  | .and l, h, cipher, key => by
    obtain ⟨e, he⟩ := where_raises_any c db d l h cipher
    refine ⟨e, ?_⟩
    simp (decide := true) [Cond.json, whereRw, whereDict, he]
  | .or l, h, cipher, key => by
    obtain ⟨e, he⟩ := where_raises_any c db d l h cipher
    refine ⟨e, ?_⟩
    simp (decide := true) [Cond.json, whereRw, whereDict, he]

theorem where_raises_any (c : Crypto) (db : Db) (d : List (String × Json)) : ∀ (l : List Cond), comparesAny l = true → ∀ cipher,
    ∃ e, whereList c db (.dict d) cipher (Cond.jsons l) = .error e
  | [], h, _ => by cases h
  | x :: r, h, cipher => by
    rw [Cond.jsons, whereList]
    cases hx : whereRw c db (.dict d) cipher "" x.json with
    | error e => exact ⟨e, rfl⟩
    | ok y =>
      have hr : comparesAny r = true := by
        by_contra hr
        have : compares x = true := by simpa [comparesAny, hr] using h
        obtain ⟨e, he⟩ := where_raises c db d x this cipher ""
        rw [he] at hx
        cases hx
      obtain ⟨e, he⟩ := where_raises_any c db d r hr cipher
      exact ⟨e, by simp only [he]⟩
end

/-- A layer over an alias or a subquery has a comparison in WHERE or has ORDER BY. -/
def NQ.Filtered : NQ → Prop
  | .plain _ => False
  | .aliased q _ => (∃ x, q.cond = some x ∧ compares x = true) ∨ q.order.isSome = true
  | .over q m => ((∃ x, q.cond = some x ∧ compares x = true) ∨ q.order.isSome = true) ∨ m.Filtered

theorem layer_refused {c : Crypto} {db : Db} {q : Query} {f : Json} {d : List (String × Json)}
    (h : (∃ x, q.cond = some x ∧ compares x = true) ∨ q.order.isSome = true) (F) (columns : Option Json) (s : Sel) :
    ∃ e, clauseLoop c db F (.dict d) columns clauseKeys (layer q f) s = .error e := by
  rcases h with ⟨x, hx, hc⟩ | h
  · refine loop_error (k := "where") (v := x.json) clauseKeys _ s clauseKeys_nodup (by decide) (by rw [get_layer_where, hx]; rfl) fun s => ?_
    obtain ⟨e, he⟩ := where_raises c db d x hc "symmetric" ""
    exact ⟨e, by simp (decide := true) only [stepKey, if_false, if_true, he]⟩
  · obtain ⟨k, hk⟩ := Option.isSome_iff_exists.1 h
    refine loop_error (k := "orderby") (v := k.json) clauseKeys _ s clauseKeys_nodup (by decide) (by rw [get_layer_order, hk]; rfl) fun s => ?_
    exact ⟨.typeError, by simp (decide := true) only [stepKey, if_false, if_true, orderRw, tableOfJson]⟩

theorem refused_loop {c : Crypto} {db : Db} : ∀ n : NQ, n.Filtered → ∀ fuel F, (∀ v s, (∀ l, v ≠ .list l) → F n.source v s = fromInner c db (rewriteClause c db fuel) n.source v s) →
    ∀ columns s, ∃ e, clauseLoop c db F n.source columns clauseKeys n.json s = .error e
  | .plain _, h, _, _, _, _, _ => h.elim
  | .aliased q t, h, fuel, F, _, columns, s => layer_refused (d := named (.str t) q.table) h F columns s
  | .over q m, h, fuel, F, hF, columns, s => by
    rcases h with h | h
    · exact layer_refused (d := named (.dict m.json) q.table) h F columns s
    · refine loop_error (k := "from") (v := .dict (named (.dict m.json) q.table)) clauseKeys _ s clauseKeys_nodup (by decide) (get_layer_from q _) fun s => ?_
      have := hF (.dict (named (.dict m.json) q.table)) s (by simp)
      simp only [NQ.source] at this ⊢
      rw [if_pos trivial, this]
      have hp : pyIn "value" (.dict (named (.dict m.json) q.table)) = true := by simp [pyIn, named, Dict.get?_cons]
      have hg : Dict.get? (named (.dict m.json) q.table) "value" = some (.dict m.json) := by simp [named, Dict.get?_cons]
      rw [fromInner, if_pos hp]
      simp only [fromValue, hg]
      cases fuel with
      | zero => exact ⟨_, rfl⟩
      | succ fuel =>
        rw [rewriteClause]
        simp only [find_source]
        obtain ⟨e, he⟩ := refused_loop m h fuel (fromInner c db (rewriteClause c db fuel)) (fun v s _ => rfl) (Dict.get? m.json "columns") s
        exact ⟨e, by simp only [he]⟩

/-- **C91 fails**: WHERE (with a comparison) or ORDER BY over an alias or over a subquery, at any depth, is refused, whatever the columns are. -/
theorem C91_fails_filtered (c : Crypto) (db : Db) (fuel : Nat) {n : NQ} (h : n.Filtered) : ∃ e, rewriteQuery c db fuel n.json = .error e := by
  rw [rewriteQuery, find_source]
  simp only
  obtain ⟨e, he⟩ := refused_loop (c := c) (db := db) n h fuel (fromOuter c db (rewriteClause c db fuel)) (by
    intro v s hv
    unfold fromOuter
    split
    · rename_i l
      exact absurd rfl (hv l)
    · rfl) (Dict.get? n.json "columns") {}
  exact ⟨e, by rw [he]⟩

/-- `SELECT x.b FROM t AS x WHERE b = 1`. -/
example : (NQ.aliased { items := [.col "x.b"], table := "x", cond := some (.eqInt "b" 1) } "t").Filtered := Or.inl ⟨_, rfl, rfl⟩

/-! ### A subquery of one column -/

theorem list_error {db : Db} {table : Json} {i : Answer.Item} (h : ∀ s, ∃ e, selRw db table "symmetric" s i.value = .error e) : ∀ (l : List Answer.Item), i ∈ l → ∀ s : Sel,
    ∃ e, selList db table s (l.map fun i => .dict [("value", i.value)]) = .error e
  | [], hi, _ => absurd hi (by simp)
  | j :: l, hi, s => by
    rw [List.map_cons, selList]
    simp only [selItem, selValueOf, if_true]
    cases hj : selRw db table "symmetric" s j.value with
    | error e => exact ⟨e, rfl⟩
    | ok p =>
      have hi' : i ∈ l := by
        rcases List.mem_cons.1 hi with rfl | hi
        · obtain ⟨e, he⟩ := h s
          rw [he] at hj
          cases hj
        · exact hi
      obtain ⟨e, he⟩ := list_error h l hi' p.2
      exact ⟨e, by simp only [he]⟩

/-- An item of a dict whose table is unknown. -/
theorem item_error {db : Db} {d : List (String × Json)} {t : String} (hd : getNest d = .str t) (ht : Dict.get? db t = none) {i : Answer.Item} (hi : i ≠ .count) (s : Sel) :
    ∃ e, selRw db (.dict d) "symmetric" s i.value = .error e := by
  have htab : tableOf db t = .error .keyError := by simp [tableOf, Dict.getItem, ht]
  have col : ∀ cipher (n : String), ∃ e, selRw db (.dict d) cipher s (.str n) = .error e := by
    intro cipher n
    rw [selRw]
    split
    · exact ⟨.keyError, by simp [selStar, starTables, hd, htab]⟩
    · rw [selStr, hd, selCol]
      cases splitQual n with
      | error e => exact ⟨e, rfl⟩
      | ok p => exact ⟨.keyError, by simp only [tableOfJson, htab]⟩
  cases i with
  | col n => exact col _ n
  | count => exact absurd rfl hi
  | max n =>
    obtain ⟨e, he⟩ := col ((funcCipher "max").getD "symmetric") n
    refine ⟨e, ?_⟩
    have h0 : isCountStar [("max", .str n)] = false := by simp [isCountStar]
    have h1 : ¬ ("max" = "add") := by decide
    rw [Answer.Item.value, selRw, h0, selDict, if_neg h1, he]
    · rfl
    · rintro _ _ _ ⟨⟩
  | min n =>
    obtain ⟨e, he⟩ := col ((funcCipher "min").getD "symmetric") n
    refine ⟨e, ?_⟩
    have h0 : isCountStar [("min", .str n)] = false := by simp [isCountStar]
    have h1 : ¬ ("min" = "add") := by decide
    rw [Answer.Item.value, selRw, h0, selDict, if_neg h1, he]
    · rfl
    · rintro _ _ _ ⟨⟩

/-- **C91 fails**: over a subquery of one column, a query for any column (or `*`) is refused, unless there is a table of that column's name. -/
theorem C91_fails_one_column (c : Crypto) (db : Db) (fuel : Nat) {q : Query} {m : NQ} {a : String} (ha : m.top.items = [.col a]) (hd : Dict.get? db a = none)
    (hq : q.items = [] ∨ ∃ i ∈ q.items, i ≠ .count) : ∃ e, rewriteQuery c db fuel (NQ.over q m).json = .error e := by
  have htab : tableOf db a = .error .keyError := by simp [tableOf, Dict.getItem, hd]
  have hn : getNest (named (.dict m.json) q.table) = .str a := by
    refine nest_named _ _ ?_
    rw [getTable, json_source, layer, getTableDict, ha]
    simp [selIn, listIn, getTable, getTableDict, Answer.Item.value]
  rw [rewriteQuery, find_source]
  simp only
  have key : ∀ s, ∃ e, selRw db (.dict (named (.dict m.json) q.table)) "symmetric" s (selIn q.items) = .error e := by
    intro s
    rcases hq with hq | ⟨i, hi, hc⟩
    · rw [hq]
      refine ⟨.keyError, ?_⟩
      rw [selIn, selRw, if_pos rfl]
      simp [selStar, starTables, hn, htab]
    · have he := fun s => item_error hn hd hc s
      match hl : q.items, hi with
      | [], hi => exact absurd hi (by simp)
      | [j], hi =>
        rcases List.mem_singleton.1 hi with rfl
        obtain ⟨e, he⟩ := he s
        refine ⟨e, ?_⟩
        have h0 : isCountStar [("value", i.value)] = false := by
          cases i <;> simp (decide := true) [Answer.Item.value, isCountStar]
        have h1 : ¬ ("value" = "add") := by decide
        have hf : funcCipher "value" = none := by decide
        simp only [selIn, listIn, selRw, h0, selDict, if_neg h1, hf, Option.getD_none, he]
        rfl
      | j :: k :: l, hi =>
        obtain ⟨e, he⟩ := list_error he (j :: k :: l) hi s
        refine ⟨e, ?_⟩
        have h0 : selIn (j :: k :: l) = .list ((j :: k :: l).map fun i => .dict [("value", i.value)]) := rfl
        rw [h0, selRw, he]
  obtain ⟨e, he⟩ := loop_error (c := c) (db := db) (f := fromOuter c db (rewriteClause c db fuel)) (table := .dict (named (.dict m.json) q.table))
    (columns := Dict.get? (NQ.over q m).json "columns") (k := q.selectKey) (v := selIn q.items) clauseKeys (NQ.over q m).json {} clauseKeys_nodup (by
      unfold Query.selectKey
      split <;> decide) (by rw [json_source, get_layer]; exact if_pos rfl) (by
      intro s
      obtain ⟨e, he⟩ := key s
      have hk : q.selectKey = "select" ∨ q.selectKey = "select_distinct" := by
        unfold Query.selectKey
        split <;> simp
      exact ⟨e, by rw [if_neg (selectKey_ne (by decide) (by decide))]; unfold stepKey; rw [if_pos hk, he]⟩)
  refine ⟨e, ?_⟩
  simp only [NQ.source, he]

/-! ### Columns that a subquery does not have -/

/-- The statement sent asks for a column that its subquery does not have. -/
def Unknown (json : Dict String Json) : Prop :=
  ∃ d j ns items, Dict.get? json "from" = some (.dict d) ∧ Dict.get? d "value" = some (.dict j) ∧ outNames j = some ns ∧ itemsIn json = some items ∧
    ∃ b, b ∉ ns ∧ (Answer.Item.col b ∈ items ∨ Answer.Item.max b ∈ items ∨ Answer.Item.min b ∈ items)

section
variable {P : Proxy} {sch : String → List String} {tm : TableMeta ColMeta}

theorem over_sent {q : Query} {m : NQ} {j : Dict String Json} {es es0 : List Rec} {out : Json} (hm : Sends P m j es)
    (hsel : ∀ s, selRw P.db (.dict (named (.dict m.json) q.table)) "symmetric" s (selIn q.items) = .ok (out, s.pushes es0)) (hc : q.cond = none) (ho : q.order = none) :
    ∃ json, SentAs json q out (.dict (named (.dict j) q.table)) (fun _ => .null) (fun _ => .null) ∧ Sends P (.over q m) json (es0 ++ es) := by
  obtain ⟨json, hj, hloop⟩ := layer_rewritten (c := P.c) (db := P.db) (q := q) (f := .dict (named (.dict m.json) q.table)) (table := .dict (named (.dict m.json) q.table))
    (out := out) (fv := .dict (named (.dict j) q.table)) (es := es0) (es' := es) (wj := fun _ => .null) (oj := fun _ => .null) hsel
    (fun x hx => by rw [hc] at hx; cases hx) (fun k hk => by rw [ho] at hk; cases hk)
  refine ⟨json, hj, ?_⟩
  intro fuel hfuel F hF columns s
  obtain ⟨fuel, rfl⟩ : ∃ k, fuel = k + 1 := ⟨fuel - 1, by have : m.depth + 1 ≤ fuel := hfuel; omega⟩
  have hfuel : m.depth ≤ fuel := Nat.le_of_succ_le_succ hfuel
  have := hloop F (fun s => by
    have := hF (.dict (named (.dict m.json) q.table)) s (by simp)
    simp only [NQ.source] at this
    rw [this]
    have hp : pyIn "value" (.dict (named (.dict m.json) q.table)) = true := by simp [pyIn, named, Dict.get?_cons]
    have hg' : Dict.get? (named (.dict m.json) q.table) "value" = some (.dict m.json) := by simp [named, Dict.get?_cons]
    rw [fromInner, if_pos hp]
    simp only [fromValue, hg', sent_clause hm hfuel, set_value]) columns s
  rw [pushes_append] at this
  exact this

theorem named_items {json : Dict String Json} {q : Query} {out : Json} {l : List Answer.Item} {v : Json} {wj : Cond → Json} {oj : SortKey → Json}
    (hj : SentAs json q out (.dict (named v q.table)) wj oj) (ho : itemsOf out = some l) : itemsIn json = some (l.map (bareItem q.table)) := by
  have hn : fromName json = some q.table := by
    unfold fromName
    rw [hj.source]
    simp [named, Dict.get?_cons]
  unfold itemsIn
  simp only [hj.sel, ho, hn]

/-- **C91 fails**: `*` over a subquery that gives some of the columns of its table is sent as all the columns of the table. -/
theorem C91_fails_star {pst : PTables} {bst : Tables} (hr : Rel P pst bst) (hd : Tidy tm.columns) {q : Query} {m : NQ} (hq : q.items = []) (hx : AliasOk q.table)
    (hc : q.cond = none) (ho : q.order = none) (hb : Dict.get? P.db m.base = some tm) (hs : sch m.base = Dict.keys tm.columns) (hg : m.Good tm.columns sch) (hsub : m.Sub sch)
    (hall : ∀ k ∈ Dict.keys tm.columns, Readable tm.columns k) {k : String} (hk : k ∈ Dict.keys tm.columns) (hn : k ∉ m.names sch) (hf : m.depth + 1 ≤ P.fuel) :
    ∃ json table s, rewriteQuery P.c P.db P.fuel (NQ.over q m).json = .ok (json, table, s) ∧ Unknown json := by
  obtain ⟨j, es, i1, i2, _⟩ := correct hr (fun _ _ => true) hd m hb hs hg
  obtain ⟨_, hout⟩ := outNames_sub hsub hg hd i2
  have hnest : getNest (named (.dict m.json) q.table) = .str m.base := nest_named _ _ (by rw [getTable]; exact seen_table m (good_seen m hg hsub.several))
  obtain ⟨json, hj, hsend⟩ := over_sent (q := q) i1 (fun s => by
    rw [hq]
    exact star_rewritten hb (fun l h => by cases h) (show single (.dict (named (.dict m.json) q.table)) = .str m.base from hnest) (prefix_named _ _ _ hx) hd.keys hall s) hc ho
  refine ⟨json, _, _, sent_query hsend hf, _, j, _, _, hj.source, by simp [named, Dict.get?_cons], hout, named_items hj (mapM_values _), ?_⟩
  obtain ⟨cm, b, hc, hb'⟩ := (hall k hk).col
  refine ⟨b, ?_, Or.inl ?_⟩
  · intro hmem
    obtain ⟨k', hk', e⟩ := List.mem_map.1 hmem
    obtain ⟨cm', b2, hc', hb2⟩ := ((good_items hg (.col k') (by rw [sub_items hsub]; exact List.mem_map.2 ⟨k', hk', rfl⟩)).1).col
    simp only [sn, hc', Option.bind_some, hb2, Option.getD_some] at e
    subst e
    exact hn (by rw [hd.apart k k' cm cm' b2 hc hc' hb' hb2]; exact hk')
  · rw [star_bare]
    refine List.mem_map.2 ⟨.col k, List.mem_map.2 ⟨k, hk, rfl⟩, ?_⟩
    simp only [Answer.Item.sent, hc, Option.bind_some, hb', Option.getD_some]

/-- **C91 fails**: MAX of an encrypted column of a subquery asks for the column with the order, which the subquery does not give. -/
theorem C91_fails_max {pst : PTables} {bst : Tables} (hr : Rel P pst bst) (hd : Tidy tm.columns) {q : Query} {m : NQ} {n : String} (hq : q.items = [.max n]) (hx : AliasOk q.table)
    (hc : q.cond = none) (ho : q.order = none) (hb : Dict.get? P.db m.base = some tm) (hs : sch m.base = Dict.keys tm.columns) (hg : m.Good tm.columns sch) (hsub : m.Sub sch)
    {cm : ColMeta} {b : String} (hdot : '.' ∉ n.toList) (hstar : n ≠ "*") (hcm : Dict.get? tm.columns n = some cm) (hb' : rankName n cm = some b) (ht : cm.plaintext = false → cm.type = "int")
    (hne : ∀ n' cm', Dict.get? tm.columns n' = some cm' → readName n' cm' ≠ some b) (hf : m.depth + 1 ≤ P.fuel) :
    ∃ json table s, rewriteQuery P.c P.db P.fuel (NQ.over q m).json = .ok (json, table, s) ∧ Unknown json := by
  obtain ⟨j, es, i1, i2, _⟩ := correct hr (fun _ _ => true) hd m hb hs hg
  obtain ⟨_, hout⟩ := outNames_sub hsub hg hd i2
  have hnest : getNest (named (.dict m.json) q.table) = .str m.base := nest_named _ _ (by rw [getTable]; exact seen_table m (good_seen m hg hsub.several))
  have hbare : bareItem q.table (.max n) = .max n := bareItem_plain (i := .max n) hdot
  have hfine : (bareItem q.table (.max n)).Fine tm.columns := by
    rw [hbare]
    exact ⟨hdot, hstar, cm, b, hcm, hb', ht⟩
  obtain ⟨json, hj, hsend⟩ := over_sent (q := q) i1 (fun s => by
    rw [hq]
    exact list_rewritten hb hnest hx (l := [.max n]) s (by
      intro i hi
      rcases List.mem_singleton.1 hi with rfl
      exact ⟨hfine, Or.inl hbare.symm⟩)) hc ho
  refine ⟨json, _, _, sent_query hsend hf, _, j, _, _, hj.source, by simp [named, Dict.get?_cons], hout, named_items hj (itemsOf_list _), b, ?_, Or.inr (Or.inl ?_)⟩
  · intro hmem
    obtain ⟨k', hk', e⟩ := List.mem_map.1 hmem
    obtain ⟨cm', b2, hc', hb2⟩ := ((good_items hg (.col k') (by rw [sub_items hsub]; exact List.mem_map.2 ⟨k', hk', rfl⟩)).1).col
    simp only [sn, hc', Option.bind_some, hb2, Option.getD_some] at e
    subst e
    exact hne k' cm' hc' hb2
  · refine List.mem_map.2 ⟨sentAs tm.columns q.table (.max n), by simp, ?_⟩
    rw [bare_sentAs hd hfine, hbare]
    simp only [Answer.Item.sent, hcm, Option.bind_some, hb', Option.getD_some]

end

/-! ### An example -/

/-- `SELECT x.a, b FROM (SELECT * FROM (SELECT a, b FROM t WHERE a = 1 LIMIT 2) AS y) AS x`. -/
def demoNest : NQ :=
  .over { items := [.col "x.a", .col "b"], table := "x" }
    (.over { items := [], table := "y" } (.plain { items := [.col "a", .col "b"], table := "t", cond := some (.eqInt "a" 1), limit := some (2, none) }))

def demoSch (_ : String) : List String := ["a", "b"]

theorem demo_tidy : Tidy demoTab.columns where
  keys := by decide
  read := by
    intro n cm b hc hb
    rcases demo_col hc with ⟨rfl, rfl⟩ | ⟨rfl, rfl⟩
    · obtain rfl : "a_s" = b := by simpa [readName, Dict.get?_cons] using hb
      decide
    · obtain rfl : "b" = b := by simpa [readName] using hb
      decide
  rank := by
    intro n cm b hc hb
    rcases demo_col hc with ⟨rfl, rfl⟩ | ⟨rfl, rfl⟩
    · obtain rfl : "a_o" = b := by simpa [rankName, Dict.get?_cons] using hb
      decide
    · obtain rfl : "b" = b := by simpa [rankName] using hb
      decide
  apart := by
    intro n n' cm cm' b hc hc' hb hb'
    rcases demo_col hc with ⟨rfl, rfl⟩ | ⟨rfl, rfl⟩ <;> rcases demo_col hc' with ⟨rfl, rfl⟩ | ⟨rfl, rfl⟩
    · rfl
    · obtain rfl : "a_s" = b := by simpa [readName, Dict.get?_cons] using hb
      exact absurd hb' (by decide)
    · obtain rfl : "a_s" = b := by simpa [readName, Dict.get?_cons] using hb'
      exact absurd hb (by decide)
    · rfl

/-- The hypotheses of `C91_query_partial` can be met. -/
example : demoNest.base = "t" ∧ demoSch demoNest.base = Dict.keys demoTab.columns ∧ demoNest.Good demoTab.columns demoSch := by
  have layer : ∀ (cols : Dict String ColMeta) (q : Query), meantItems q ["a", "b"] = [.col "a", .col "b"] → q.group = [] → q.having = none → q.order = none → q.distinct = false →
      Readable cols "a" → Readable cols "b" → (∀ x, q.cond = some x → TypedW cols (some x)) → Layer cols ["a", "b"] q := by
    intro cols q hi hg hh ho hd ha hb hc
    have hmem : ∀ i ∈ (meant q ["a", "b"]).items, i = .col "a" ∨ i = .col "b" := by
      intro i h
      have h : i ∈ meantItems q ["a", "b"] := h
      simpa [hi] using h
    have hagg : ¬ (meant q ["a", "b"]).aggregated = true := by
      simp [Query.aggregated, meant, hi, hg, Answer.Item.aggregate]
    refine ⟨⟨by simp [meant, hi], ?_, ?_, ?_⟩, ⟨?_, ?_, fun h => absurd h hagg, ?_⟩, ?_⟩
    · intro i h
      rcases hmem i h with rfl | rfl
      · exact ha
      · exact hb
    · show TypedW cols q.cond
      cases h : q.cond with
      | none => intro x hx; cases hx
      | some x => exact hc x h
    · intro k hk
      have hk : q.order = some k := hk
      rw [ho] at hk
      cases hk
    · intro g h
      have h : g ∈ q.group := h
      simp [hg] at h
    · intro h hh'
      have hh' : q.having = some h := hh'
      rw [hh] at hh'
      cases hh'
    · intro h
      have h : q.distinct = true := h
      rw [hd] at h
      cases h
    · intro k hk
      have hk : q.order = some k := hk
      rw [ho] at hk
      cases hk
  have sub1 : ∀ n : NQ, n.top.items.length ≠ 1 → n.items demoSch = [.col "a", .col "b"] → n.Sub demoSch := by
    intro n h1 h2
    refine ⟨h1, ?_, by rw [names_items, h2]; decide⟩
    rw [h2]
    intro i hi
    have hi : i = .col "a" ∨ i = .col "b" := by simpa using hi
    rcases hi with rfl | rfl <;> exact ⟨_, rfl⟩
  have ok : ∀ x : String, x ≠ "" → '.' ∉ x.toList → AliasOk x := fun x h1 h2 => ⟨h1, h2⟩
  have ra : Readable demoTab.columns "a" := ⟨by decide, by decide, _, _, rfl, rfl⟩
  have rb : Readable demoTab.columns "b" := ⟨by decide, by decide, _, _, rfl, rfl⟩
  have ra' : Readable (sub demoTab.columns ["a", "b"]) "a" := ⟨by decide, by decide, _, _, rfl, rfl⟩
  have rb' : Readable (sub demoTab.columns ["a", "b"]) "b" := ⟨by decide, by decide, _, _, rfl, rfl⟩
  refine ⟨rfl, rfl, ⟨ok _ (by decide) (by decide), ?_, rfl, rfl⟩, ?_, fun h => absurd h (by simp), sub1 _ (by decide) (by decide), ⟨ok _ (by decide) (by decide), by simp, rfl, rfl⟩, ?_,
    fun _ => by decide, sub1 _ (by decide) (by decide), by simp [PlainTable, pyIn, isSub]; decide, ?_, ?_⟩
  · intro i hi
    have hi : i = .col "x.a" ∨ i = .col "b" := by simpa using hi
    rcases hi with rfl | rfl
    · exact Or.inr (by decide)
    · exact Or.inl (by decide)
  · exact layer (sub demoTab.columns ["a", "b"]) _ (by decide) rfl rfl rfl rfl ra' rb' (fun x hx => by cases hx)
  · exact layer (sub demoTab.columns ["a", "b"]) _ (by decide) rfl rfl rfl rfl ra' rb' (fun x hx => by cases hx)
  · intro i hi
    have hi : i = .col "a" ∨ i = .col "b" := by simpa using hi
    rcases hi with rfl | rfl <;> decide
  · exact layer demoTab.columns _ (by decide) rfl rfl rfl rfl ra rb (fun x hx => by
      injection hx with hx
      subst hx
      exact demo_typed)

end EulerDB.Nested
