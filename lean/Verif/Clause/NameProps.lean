import Verif.Clause.WhereProps

/-!
# Names in FROM, JOIN, DROP and ALTER TABLE (C31, C32)
-/

namespace EulerDB.Clause

open EulerDB EulerDB.Delta EulerDB.Table

/-! ## C31 -/

/-- **C31, partial.** INSERT, UPDATE, DELETE and ALTER name the backend table of the table given. -/
theorem C31_statement_table_partial (c : Crypto) (db : Db) (fuel : Nat) (json json' : Dict String Json) (k t : String) (tm : TableMeta ColMeta) (table : Json) (s : Sel)
    (v : Json) (hk : k = "insert" ∨ k = "update" ∨ k = "delete" ∨ k = "alter") (ht : Dict.get? db t = some tm)
    (h : rewriteQuery c db fuel json = .ok (json', table, s)) (htab : table = .str t) (hv : Dict.get? json k = some v) :
    Dict.get? json' k = some (.str tm.anonymous) := by
  obtain ⟨_, hspec⟩ := rewriteQuery_spec h
  have hmem : k ∈ clauseKeys := by rcases hk with rfl | rfl | rfl | rfl <;> decide
  obtain ⟨v', s1, s2, h1, h2⟩ := ((hspec k).2 hmem).2 v hv
  have h3 : tableOf db t = .ok tm := getItem_ok.2 ht
  rw [h2]
  subst htab
  rcases hk with rfl | rfl | rfl | rfl <;>
    · simp (decide := true) [oneStep, stepKey, anonRw, tableOfJson, h3, Except.map] at h1
      rw [← h1.1]

/-- **C31, partial.** DROP TABLE names the backend table. -/
theorem C31_drop_partial (c : Crypto) (db : Db) (fuel : Nat) (t : String) (tm : TableMeta ColMeta) (ht : Dict.get? db t = some tm) :
    rewriteQuery c db fuel [("drop", .dict [("table", .str t)])] =
      .ok ([("drop", .dict [("table", .str tm.anonymous)])], .dict [("table", .str t)], {}) := by
  have h3 : tableOf db t = .ok tm := getItem_ok.2 ht
  have hd : dropRw db [("table", .str t)] [] = .ok [("table", .str tm.anonymous)] := by
    simp [dropRw, tableOfJson, h3, Dict.set]
  have hs : stepKey c db (.dict [("table", .str t)]) none "drop" (.dict [("table", .str t)]) {} = .ok (.dict [("table", .str tm.anonymous)], {}) := by
    simp (decide := true) only [stepKey, if_false, if_true, hd, Except.map]
  have ht : findTable [("drop", Json.dict [("table", .str t)])] tableKeys = .ok (.dict [("table", .str t)]) := rfl
  unfold rewriteQuery
  rw [ht]
  have h0 : Dict.get? [("drop", Json.dict [("table", .str t)])] "columns" = none := rfl
  simp only [h0]
  simp (decide := true) only [clauseKeys, clauseLoop, Dict.get?_cons, Dict.get?_nil, if_false, if_true, hs, Dict.set]

/-- An item of a FROM list: a table, or a table joined on the equality of two columns. -/
inductive FromTable where
  | table (t : String)
  | join (kind t : String) (a b : String × String)

def FromTable.json : FromTable → Json
  | .table t => .str t
  | .join k t a b => .dict [(k, .str t), ("on", .dict [("eq", .list [.str (a.1 ++ "." ++ a.2), .str (b.1 ++ "." ++ b.2)])])]

/-- The backend column an equality uses for a column of a table. -/
def joinCol (db : Db) (a : String × String) : Option String :=
  match Dict.get? db a.1 with
  | none => none
  | some tm =>
    match Dict.get? tm.columns a.2 with
    | none => none
    | some cm => (if cm.plaintext then some a.2 else Dict.get? cm.encCols "symmetric").map fun x => tm.anonymous ++ "." ++ x

def anonOf (db : Db) (t : String) : Option String := (Dict.get? db t).map (·.anonymous)

/-- What must be sent for an item. -/
inductive Renamed (db : Db) : FromTable → Json → Prop
  | table (t x : String) : anonOf db t = some x → Renamed db (.table t) (.str x)
  | join (k t x y z : String) (a b : String × String) : anonOf db t = some x → joinCol db a = some y → joinCol db b = some z →
      Renamed db (.join k t a b) (.dict [(k, .str x), ("on", .dict [("eq", .list [.str y, .str z])])])

/-- Names without dots; the kinds of joins the code knows. -/
def FromTable.Good : FromTable → Prop
  | .table _ => True
  | .join k _ a b => k ∈ joinList ∧ '.' ∉ a.1.toList ∧ '.' ∉ a.2.toList ∧ '.' ∉ b.1.toList ∧ '.' ∉ b.2.toList

theorem splitTableCol_dot {a : String × String} (h1 : '.' ∉ a.1.toList) (h2 : '.' ∉ a.2.toList) :
    splitTableCol (.str (a.1 ++ "." ++ a.2)) = .ok a := by
  have e : (a.1 ++ "." ++ a.2).toList = a.1.toList ++ '.' :: a.2.toList := by simp
  unfold splitTableCol splitDot
  simp only [e, Text.split_append _ _ h1, Text.split_word _ h2]
  simp

theorem joinEq_named {db : Db} {a b : String × String} {j : Json} (ha1 : '.' ∉ a.1.toList) (ha2 : '.' ∉ a.2.toList) (hb1 : '.' ∉ b.1.toList)
    (hb2 : '.' ∉ b.2.toList) (h : joinEq db "symmetric" (.str (a.1 ++ "." ++ a.2)) (.str (b.1 ++ "." ++ b.2)) = .ok j) :
    ∃ y z, joinCol db a = some y ∧ joinCol db b = some z ∧ j = .dict [("eq", .list [.str y, .str z])] := by
  unfold joinEq at h
  rw [splitTableCol_dot ha1 ha2, splitTableCol_dot hb1 hb2] at h
  simp only at h
  cases h1 : tableOf db a.1 with
  | error e => simp [h1] at h
  | ok tm =>
  simp only [h1] at h
  cases h2 : Dict.getItem tm.columns a.2 with
  | error e => simp [h2] at h
  | ok cm =>
  simp only [h2] at h
  cases h3 : tableOf db b.1 with
  | error e => simp [h3] at h
  | ok tm1 =>
  simp only [h3] at h
  cases h4 : Dict.getItem tm1.columns b.2 with
  | error e => simp [h4] at h
  | ok cm1 =>
  simp only [h4] at h
  have key : ∀ (tm : TableMeta ColMeta) (cm : ColMeta) (p : String × String) (n : String), Dict.get? db p.1 = some tm → Dict.get? tm.columns p.2 = some cm →
      (if cm.plaintext = true then Except.ok p.2 else Dict.getItem cm.encCols "symmetric") = .ok n → joinCol db p = some (tm.anonymous ++ "." ++ n) := by
    intro tm cm p n g1 g2 g3
    unfold joinCol
    simp only [g1, g2]
    by_cases hp : cm.plaintext = true
    · simp only [hp, if_true] at g3 ⊢
      injection g3 with g3
      rw [g3]; rfl
    · simp only [hp, if_false, Bool.false_eq_true] at g3 ⊢
      rw [getItem_ok.1 g3]; rfl
  cases h5 : (if cm.plaintext = true then Except.ok a.2 else Dict.getItem cm.encCols "symmetric" : Except PyErr String) with
  | error e => simp [h5] at h
  | ok n =>
  simp only [h5] at h
  cases h6 : (if cm1.plaintext = true then Except.ok b.2 else Dict.getItem cm1.encCols "symmetric" : Except PyErr String) with
  | error e => simp [h6] at h
  | ok n1 =>
  simp only [h6] at h
  injection h with h
  exact ⟨_, _, key tm cm a n (getItem_ok.1 h1) (getItem_ok.1 h2) h5, key tm1 cm1 b n1 (getItem_ok.1 h3) (getItem_ok.1 h4) h6, h.symm⟩

theorem fromItem_renamed {c : Crypto} {db : Db} {f : FromTable} {j : Json} (hg : f.Good) (h : fromItem c db f.json = .ok j) : Renamed db f j := by
  cases f with
  | table t =>
    simp only [FromTable.json, fromItem] at h
    cases h1 : tableOf db t with
    | error e => simp [h1, Except.map] at h
    | ok tm =>
      simp only [h1, Except.map] at h
      injection h with h
      subst h
      exact .table t _ (by simp [anonOf, getItem_ok.1 h1])
  | join k t a b =>
    obtain ⟨hk, ha1, ha2, hb1, hb2⟩ := hg
    have hon : "on" ∉ joinList := by decide
    simp only [FromTable.json, fromItem, joinItems, if_pos hk, tableOfJson, if_neg hon, if_true] at h
    cases h1 : tableOf db t with
    | error e => simp [h1, Except.map] at h
    | ok tm =>
      simp only [h1] at h
      have hw : whereRw c db (.list []) "symmetric" "" (.dict [("eq", .list [.str (a.1 ++ "." ++ a.2), .str (b.1 ++ "." ++ b.2)])]) =
          joinEq db "symmetric" (.str (a.1 ++ "." ++ a.2)) (.str (b.1 ++ "." ++ b.2)) := by
        simp only [whereRw, whereDict, if_true, whereCols, tableOfJson]
      rw [hw] at h
      cases h2 : joinEq db "symmetric" (.str (a.1 ++ "." ++ a.2)) (.str (b.1 ++ "." ++ b.2)) with
      | error e => simp [h2, Except.map] at h
      | ok x =>
        obtain ⟨y, z, hy, hz, rfl⟩ := joinEq_named ha1 ha2 hb1 hb2 h2
        have hne : k ≠ "on" := by rintro rfl; exact hon hk
        simp only [h2, Except.map, Dict.set, if_neg hne] at h
        injection h with h
        subst h
        exact .join k t _ y z a b (by simp [anonOf, getItem_ok.1 h1]) hy hz

theorem fromList_renamed {c : Crypto} {db : Db} : ∀ (fs : List FromTable) (js : List Json), (∀ f ∈ fs, f.Good) →
    fromList c db (fs.map FromTable.json) = .ok js → List.Forall₂ (Renamed db) fs js
  | [], js, _, h => by
    simp only [List.map_nil, fromList] at h
    injection h with h; subst h
    exact .nil
  | f :: r, js, hg, h => by
    rw [List.map_cons, fromList] at h
    cases h1 : fromItem c db f.json with
    | error e => simp [h1] at h
    | ok j =>
      simp only [h1] at h
      cases h2 : fromList c db (r.map FromTable.json) with
      | error e => simp [h2] at h
      | ok r' =>
        simp only [h2] at h
        injection h with h
        subst h
        exact .cons (fromItem_renamed (hg f (by simp)) h1) (fromList_renamed r r' (fun f hf => hg f (by simp [hf])) h2)

/-- A FROM item in which the code does not find the word "value". -/
def FromTable.Plain (f : FromTable) : Prop := pyIn "value" f.json = false

theorem fromItems_eq {c : Crypto} {db : Db} {nested} {table : Json} {l : List Json} (hl : fromRw c db table = .ok (.list l)) : ∀ (i : Nat) (vs : List Json) (s : Sel),
    (∀ v ∈ vs, pyIn "value" v = false) → i + vs.length = l.length → fromItems c db nested table i vs s = .ok (l.drop i, s)
  | i, [], s, _, hi => by
    rw [fromItems, List.drop_of_length_le (by simp at hi; omega)]
  | i, v :: r, s, hv, hi => by
    simp only [List.length_cons] at hi
    have hlt : i < l.length := by omega
    rw [fromItems]
    simp only [hv v (by simp), Bool.false_eq_true, if_false, hl, List.getElem?_eq_getElem hlt]
    rw [fromItems_eq hl (i + 1) r s (fun v hv' => hv v (by simp [hv'])) (by omega)]
    simp only
    rw [List.drop_eq_getElem_cons hlt]

/-- **C31, partial.** In FROM with any number of tables, listed or joined on equalities of qualified columns, every table is replaced by its own backend table and every
column of an ON condition by its own backend column, qualified by its own backend table. -/
theorem C31_from_partial (c : Crypto) (db : Db) (nested) (fs : List FromTable) (js : Json) (s s' : Sel) (hg : ∀ f ∈ fs, f.Good ∧ f.Plain)
    (h : fromOuter c db nested (.list (fs.map FromTable.json)) (.list (fs.map FromTable.json)) s = .ok (js, s')) :
    ∃ l, js = .list l ∧ List.Forall₂ (Renamed db) fs l ∧ s' = s := by
  cases hl : fromList c db (fs.map FromTable.json) with
  | error e =>
    cases fs with
    | nil => simp [fromList] at hl
    | cons f r =>
      simp only [fromOuter, List.map_cons] at h
      rw [fromItems] at h
      simp only [(show pyIn "value" f.json = false from (hg f (by simp)).2), Bool.false_eq_true, if_false, fromRw] at h
      rw [List.map_cons] at hl
      simp [hl, Except.map] at h
  | ok l =>
    have h2 := fromList_renamed fs l (fun f hf => (hg f hf).1) hl
    have hlen : l.length = fs.length := h2.length_eq.symm
    have hrw : fromRw c db (.list (fs.map FromTable.json)) = .ok (.list l) := by simp [fromRw, hl, Except.map]
    have h3 := fromItems_eq (nested := nested) hrw 0 (fs.map FromTable.json) s (by
      intro v hv
      obtain ⟨f, hf, rfl⟩ := List.mem_map.1 hv
      exact (hg f hf).2) (by simp [hlen])
    simp only [fromOuter, h3, List.drop_zero] at h
    injection h with h
    injection h with e1 e2
    exact ⟨l, e1.symm, h2, e2.symm⟩

/-- **C31, partial: one table.** -/
theorem C31_from_one_partial (c : Crypto) (db : Db) (nested) (t : String) (tm : TableMeta ColMeta) (s : Sel) (ht : Dict.get? db t = some tm) (hp : PlainTable t) :
    fromOuter c db nested (.str t) (.str t) s = .ok (.str tm.anonymous, s) := by
  have h1 : tableOf db t = .ok tm := getItem_ok.2 ht
  unfold PlainTable at hp
  simp [fromOuter, fromInner, hp, fromRw, h1, Except.map]

/-- **C31 fails** for tables whose name contains the word "value": every SELECT from them raises. -/
theorem C31_fails_value_in_table_name (c : Crypto) (db : Db) (nested) (t : String) (s : Sel) (hp : pyIn "value" (.str t) = true) :
    fromOuter c db nested (.str t) (.str t) s = .error .typeError := by
  simp [fromOuter, fromInner, hp, fromValue]

example : pyIn "value" (.str "key_values") = true := by simp [pyIn, isSub]

/-- **C31 fails** for USING: the column list is dropped from the statement. -/
theorem C31_fails_using_dropped (c : Crypto) (db : Db) (k t : String) (tm : TableMeta ColMeta) (u : Json) (hk : k ∈ joinList) (ht : Dict.get? db t = some tm) :
    fromItem c db (.dict [(k, .str t), ("using", u)]) = .ok (.dict [(k, .str tm.anonymous)]) := by
  have h1 : tableOf db t = .ok tm := getItem_ok.2 ht
  simp (decide := true) [fromItem, joinItems, hk, tableOfJson, h1, Dict.set, Except.map]

/-- **C31 fails** for the other kinds of joins (FULL JOIN, CROSS JOIN, LEFT OUTER JOIN, ...): the whole item is dropped from the statement. -/
theorem C31_fails_other_joins_dropped (c : Crypto) (db : Db) (k : String) (v : Json) (hk : k ∉ joinList) (hon : k ≠ "on") :
    fromItem c db (.dict [(k, v)]) = .ok (.dict []) := by
  simp [fromItem, joinItems, hk, hon, Except.map]

example : "full join" ∉ joinList ∧ "cross join" ∉ joinList ∧ "left outer join" ∉ joinList := by decide

/-- **C31 fails** for joined tables with an alias: they raise. -/
theorem C31_fails_joined_alias (c : Crypto) (db : Db) (k t a : String) (hk : k ∈ joinList) (rest : List (String × Json)) :
    fromItem c db (.dict ((k, .dict [("value", .str t), ("name", .str a)]) :: rest)) = .error .typeError := by
  simp [fromItem, joinItems, hk, tableOfJson, Except.map]

/-- **C31 fails** for a column qualified by its table in a query over one table: the logical name of the table is sent. -/
theorem C31_fails_qualified_column (db : Db) (t n b : String) (tm : TableMeta ColMeta) (cm : ColMeta) (s : Sel) (ht : Dict.get? db t = some tm)
    (hc : Dict.get? tm.columns n = some cm) (hp : cm.plaintext = false) (hb : Dict.get? cm.encCols "symmetric" = some b) (ht0 : t ≠ "")
    (h1 : '.' ∉ t.toList) (h2 : '.' ∉ n.toList) :
    selStr db (.str t) "symmetric" s (t ++ "." ++ n) = .ok (.str (t ++ "." ++ b), s.push (t ++ "." ++ n) cm.type "symmetric") := by
  have e : (t ++ "." ++ n).toList = t.toList ++ '.' :: n.toList := by simp
  have hs : splitQual (t ++ "." ++ n) = .ok (t, n) := by
    unfold splitQual splitDot
    simp only [e, Text.split_append _ _ h1, Text.split_word _ h2]
    simp
  have h3 : tableOf db t = .ok tm := getItem_ok.2 ht
  have h4 : Dict.getItem tm.columns n = .ok cm := getItem_ok.2 hc
  simp [selStr, selCol, hs, tableOfJson, h3, h4, hp, getItem_ok.2 hb, ht0]

/-- **C31 fails** for clauses the rewriter does not know (GROUP BY, HAVING, LIMIT, UNION, VALUES, ...): in every accepted statement they are sent as written, with the
logical names of encrypted columns. -/
theorem C31_fails_other_clauses (c : Crypto) (db : Db) (fuel : Nat) (json json' : Dict String Json) (table : Json) (s : Sel) (k : String) (hk : k ∉ clauseKeys)
    (h : rewriteQuery c db fuel json = .ok (json', table, s)) : Dict.get? json' k = Dict.get? json k :=
  ((rewriteQuery_spec h).2 k).1 hk

example : "groupby" ∉ clauseKeys ∧ "having" ∉ clauseKeys ∧ "values" ∉ clauseKeys := by decide

/-- **C31 fails** for a single selected column with an alias: the alias is taken for a column, so the statement raises unless the table has a column of that name. -/
theorem C31_fails_alias (db : Db) (t n a : String) (tm : TableMeta ColMeta) (s : Sel) (ht : Dict.get? db t = some tm) (hn : Readable tm.columns n)
    (ha : '.' ∉ a.toList) (has : a ≠ "*") (hno : Dict.get? tm.columns a = none) :
    selRw db (.str t) "symmetric" s (.dict [("value", .str n), ("name", .str a)]) = .error .keyError := by
  obtain ⟨cm, b, hc, hb⟩ := hn.col
  have h1 := selCol_plain s ht hc hn.dot hb
  have h3 : tableOf db t = .ok tm := getItem_ok.2 ht
  have hcs : isCountStar [("value", .str n), ("name", .str a)] = false := rfl
  have hv : funcCipher "value" = none := by decide
  have hnm : funcCipher "name" = none := by decide
  simp (decide := true) only [selRw, hcs, Bool.false_eq_true, if_false, selDict, if_neg hn.star, selStr, hv, hnm, Option.getD_none, h1, if_neg has]
  simp [selCol, splitQual_plain ha, tableOfJson, h3, Dict.getItem, hno]

/-! ## C32 -/

/-- The columns of a key as `parse_alter_key` returns them. -/
def keyCols (ns : List String) : Json := .list (ns.map fun n => .dict [("value", .str n)])

theorem selStr_no_value {db : Db} {table : Json} {cipher v : String} {s s' : Sel} {j : Json} (h : selStr db table cipher s v = .ok (j, s')) :
    pyItem "value" j = .error .typeError := by
  have one : ∀ t, selCol db t cipher s v = .ok (j, s') → pyItem "value" j = .error .typeError := by
    intro t h
    unfold selCol at h
    split at h
    · cases h
    · split at h
      · cases h
      · split at h
        · cases h
        · split at h
          · cases h
          · injection h with h
            injection h with h _
            subst h
            rfl
  unfold selStr at h
  split at h
  · unfold selJoinCol at h
    split at h
    · cases h
    · split at h
      · cases h
      · split at h
        · cases h
        · split at h
          · cases h
          · simp only at h
            split at h
            · cases h
            · injection h with h
              injection h with h _
              subst h
              rfl
  · exact one _ h
  · exact one _ h

/-- After rewriting, the columns of a key are no longer dicts. -/
theorem keyCols_no_value {db : Db} {table : Json} {s s' : Sel} {j : Json} {ns : List String} (hn : ns ≠ []) (h : selRw db table "symmetric" s (keyCols ns) = .ok (j, s')) :
    truthy j = true ∧ ∃ l, pyIter j = .ok l ∧ joinValues l = .error .typeError := by
  cases ns with
  | nil => exact absurd rfl hn
  | cons n r =>
    simp only [keyCols, List.map_cons] at h
    rw [selRw, selList] at h
    simp only [selItem, selValueOf, if_true] at h
    cases h1 : selRw db table "symmetric" s (.str n) with
    | error e => simp [h1] at h
    | ok p =>
      obtain ⟨x, s1⟩ := p
      simp only [h1] at h
      have hx : pyItem "value" x = .error .typeError := by
        rw [selRw] at h1
        split at h1
        · unfold selStar at h1
          simp only at h1
          split at h1
          · cases h1
          · injection h1 with h1
            injection h1 with h1 _
            subst h1
            rfl
        · exact selStr_no_value h1
      split at h
      · cases h
      · rename_i p' _ _ heq
        split at heq
        · cases heq
        · injection heq with heq
          injection heq with e1 e2
          injection h with h
          injection h with h _
          subst h
          subst e1
          refine ⟨rfl, _, rfl, ?_⟩
          rw [joinValues, hx]

theorem stepKey_key {c : Crypto} {db : Db} {table : Json} {columns : Option Json} {k : String} {v v' : Json} {s s' : Sel}
    (hk : k = "add primary key" ∨ k = "add foreign key" ∨ k = "reference_feature") (h : stepKey c db table columns k v s = .ok (v', s')) :
    ∃ s1, selRw db table "symmetric" {} v = .ok (v', s1) := by
  cases hs : selRw db table "symmetric" {} v with
  | error e => rcases hk with rfl | rfl | rfl <;> simp (decide := true) [stepKey, hs] at h
  | ok p =>
    obtain ⟨x, s1⟩ := p
    rcases hk with rfl | rfl | rfl <;>
      · simp (decide := true) [stepKey, hs] at h
        exact ⟨s1, by rw [h.1]⟩

theorem key_rewritten {c : Crypto} {db : Db} {fuel : Nat} {json json' : Dict String Json} {table : Json} {s : Sel} {k : String} {ns : List String}
    (hk : k = "add primary key" ∨ k = "add foreign key" ∨ k = "reference_feature") (hn : ns ≠ []) (hg : Dict.get? json k = some (keyCols ns))
    (h : rewriteQuery c db fuel json = .ok (json', table, s)) : has json' k = true ∧ keyList json' k = .error .typeError := by
  have hmem : k ∈ clauseKeys := by rcases hk with rfl | rfl | rfl <;> decide
  obtain ⟨v', s1, s2, h1, h2⟩ := (((rewriteQuery_spec h).2 k).2 hmem).2 _ hg
  have hne : k ≠ "from" := by rcases hk with rfl | rfl | rfl <;> decide
  rw [oneStep, if_neg hne] at h1
  obtain ⟨s3, h3⟩ := stepKey_key hk h1
  obtain ⟨h4, l, h5, h6⟩ := keyCols_no_value hn h3
  refine ⟨by simp [has, h2, h4], ?_⟩
  simp [keyList, h2, h5, h6, Except.map]

/-- **C32 fails**: every ALTER TABLE ... ADD PRIMARY KEY raises. -/
theorem C32_fails_primary_key (c : Crypto) (db : Db) (fuel : Nat) (json : Dict String Json) (ns : List String) (hn : ns ≠ [])
    (hg : Dict.get? json "add primary key" = some (keyCols ns)) : ∃ e, alterQuery c db fuel json = .error e := by
  unfold alterQuery
  cases h : rewriteQuery c db fuel json with
  | error e => exact ⟨e, rfl⟩
  | ok p =>
    obtain ⟨json', table, s⟩ := p
    obtain ⟨h1, h2⟩ := key_rewritten (Or.inl rfl) hn hg h
    simp only [formatAlter, h1, h2, if_true]
    cases field json' "alter" with
    | error e => exact ⟨e, rfl⟩
    | ok t => exact ⟨_, rfl⟩

/-- **C32 fails**: every ALTER TABLE ... ADD FOREIGN KEY raises. -/
theorem C32_fails_foreign_key (c : Crypto) (db : Db) (fuel : Nat) (json : Dict String Json) (ns : List String) (hn : ns ≠ [])
    (hp : Dict.get? json "add primary key" = none) (hd : Dict.get? json "drop primary key" = none)
    (hg : Dict.get? json "add foreign key" = some (keyCols ns)) : ∃ e, alterQuery c db fuel json = .error e := by
  unfold alterQuery
  cases h : rewriteQuery c db fuel json with
  | error e => exact ⟨e, rfl⟩
  | ok p =>
    obtain ⟨json', table, s⟩ := p
    obtain ⟨h1, h2⟩ := key_rewritten (Or.inr (Or.inl rfl)) hn hg h
    have h3 : has json' "add primary key" = false := by
      simp [has, (((rewriteQuery_spec h).2 "add primary key").2 (by decide)).1 hp]
    have h4 : has json' "drop primary key" = false := by
      simp [has, ((rewriteQuery_spec h).2 "drop primary key").1 (by decide), hd]
    simp only [formatAlter, h1, h2, h3, h4, if_true, Bool.false_eq_true, if_false]
    cases field json' "alter" with
    | error e => exact ⟨e, rfl⟩
    | ok t =>
      cases field json' "add constraint" with
      | error e => exact ⟨e, rfl⟩
      | ok n => exact ⟨_, rfl⟩

/-- **C32 fails** for the referenced table as well: it is replaced by the backend name of the table being altered, whatever table is referenced. -/
theorem C32_fails_reference_table (c : Crypto) (db : Db) (fuel : Nat) (json json' : Dict String Json) (t : String) (tm : TableMeta ColMeta) (u : Json) (s : Sel)
    (ht : Dict.get? db t = some tm) (hu : Dict.get? json "reference_table" = some u) (h : rewriteQuery c db fuel json = .ok (json', .str t, s)) :
    Dict.get? json' "reference_table" = some (.str tm.anonymous) := by
  obtain ⟨v', s1, s2, h1, h2⟩ := (((rewriteQuery_spec h).2 "reference_table").2 (by decide)).2 _ hu
  have h3 : tableOf db t = .ok tm := getItem_ok.2 ht
  simp (decide := true) [oneStep, stepKey, anonRw, tableOfJson, h3, Except.map] at h1
  rw [h2, ← h1.1]

/-- A statement in which only the table is rewritten. -/
theorem alter_rewrite {c : Crypto} {db : Db} {fuel : Nat} {json : Dict String Json} {t : String} {tm : TableMeta ColMeta} (ht : Dict.get? db t = some tm)
    (ha : Dict.get? json "alter" = some (.str t)) (hrest : ∀ k ∈ clauseKeys, k ≠ "alter" → Dict.get? json k = none) :
    ∃ json' s, rewriteQuery c db fuel json = .ok (json', .str t, s) ∧ Dict.get? json' "alter" = some (.str tm.anonymous) ∧
      ∀ k, k ≠ "alter" → Dict.get? json' k = Dict.get? json k := by
  have h3 : tableOf db t = .ok tm := getItem_ok.2 ht
  have hft : findTable json tableKeys = .ok (.str t) := by
    have g := fun k hk hne => hrest k hk hne
    simp only [tableKeys, findTable, g "insert" (by decide) (by decide), g "from" (by decide) (by decide), g "select_distinct" (by decide) (by decide),
      g "update" (by decide) (by decide), g "delete" (by decide) (by decide), g "drop" (by decide) (by decide), ha]
  obtain ⟨json', hj⟩ := clauseLoop_ok c db (fromOuter c db (rewriteClause c db fuel)) (.str t) (Dict.get? json "columns") clauseKeys json {} clauseKeys_nodup (by
    intro k hk v hv
    by_cases hka : k = "alter"
    · subst hka
      refine ⟨by decide, .str tm.anonymous, fun s => ?_⟩
      simp (decide := true) [stepKey, anonRw, tableOfJson, h3, Except.map]
    · rw [hrest k hk hka] at hv; cases hv)
  have hq : rewriteQuery c db fuel json = .ok (json', .str t, {}) := by
    unfold rewriteQuery
    rw [hft]
    simp only [hj]
  refine ⟨json', {}, hq, ?_, ?_⟩
  · exact C31_statement_table_partial c db fuel json json' "alter" t tm _ _ _ (by simp) ht hq rfl ha
  · intro k hk
    by_cases hm : k ∈ clauseKeys
    · rw [hrest k hm hk, (((rewriteQuery_spec hq).2 k).2 hm).1 (hrest k hm hk)]
    · exact ((rewriteQuery_spec hq).2 k).1 hm

theorem noClause {json : Dict String Json} (ks : List String) (hj : ∀ k, k ∉ ks → Dict.get? json k = none) (hks : ∀ k ∈ ks, k = "alter" ∨ k ∉ clauseKeys) :
    ∀ k ∈ clauseKeys, k ≠ "alter" → Dict.get? json k = none := by
  intro k hk hne
  refine hj k fun hm => ?_
  rcases hks k hm with h | h
  · exact hne h
  · exact h hk

/-- `has` and `field` look at one key only. -/
theorem has_of_get {json json' : Dict String Json} {k : String} (h : Dict.get? json' k = Dict.get? json k) : has json' k = has json k := by
  simp only [has, h]

/-- **C32, partial.** DROP PRIMARY KEY, DROP FOREIGN KEY and DROP INDEX are sent as asked, to the backend table. -/
theorem C32_drop_primary_key_partial (c : Crypto) (db : Db) (fuel : Nat) (t : String) (tm : TableMeta ColMeta) (ht : Dict.get? db t = some tm) :
    alterQuery c db fuel [("alter", .str t), ("drop primary key", .int 1)] = .ok (some ("alter table " ++ tm.anonymous ++ " drop primary key;")) := by
  obtain ⟨json', s, h1, h2, h3⟩ := alter_rewrite (c := c) (fuel := fuel) (json := [("alter", .str t), ("drop primary key", .int 1)]) ht rfl
    (noClause ["alter", "drop primary key"] (by intro k hk; simp only [List.mem_cons, List.not_mem_nil, or_false, not_or] at hk; simp [Dict.get?_cons, Ne.symm hk.1, Ne.symm hk.2]) (by decide))
  have a0 : field json' "alter" = .ok tm.anonymous := by simp [field, h2, shown]
  have a1 : has json' "add primary key" = false := has_of_get (h3 _ (by decide))
  have a2 : has json' "drop primary key" = true := has_of_get (h3 _ (by decide))
  simp only [alterQuery, h1, formatAlter, a0, a1, a2, Bool.false_eq_true, if_false, if_true, Bind.bind, Except.bind, pure, Except.pure]

theorem C32_drop_foreign_key_partial (c : Crypto) (db : Db) (fuel : Nat) (t i : String) (tm : TableMeta ColMeta) (ht : Dict.get? db t = some tm) (hi : i ≠ "") :
    alterQuery c db fuel [("alter", .str t), ("drop foreign key", .str i)] = .ok (some ("alter table " ++ tm.anonymous ++ " drop foreign key " ++ i ++ ";")) := by
  obtain ⟨json', s, h1, h2, h3⟩ := alter_rewrite (c := c) (fuel := fuel) (json := [("alter", .str t), ("drop foreign key", .str i)]) ht rfl
    (noClause ["alter", "drop foreign key"] (by intro k hk; simp only [List.mem_cons, List.not_mem_nil, or_false, not_or] at hk; simp [Dict.get?_cons, Ne.symm hk.1, Ne.symm hk.2]) (by decide))
  have a0 : field json' "alter" = .ok tm.anonymous := by simp [field, h2, shown]
  have a1 : has json' "add primary key" = false := has_of_get (h3 _ (by decide))
  have a2 : has json' "drop primary key" = false := has_of_get (h3 _ (by decide))
  have a3 : has json' "add foreign key" = false := has_of_get (h3 _ (by decide))
  have g : Dict.get? json' "drop foreign key" = some (.str i) := h3 _ (by decide)
  have a4 : has json' "drop foreign key" = true := by simp [has, g, truthy, hi]
  have a5 : field json' "drop foreign key" = .ok i := by simp [field, g, shown]
  simp only [alterQuery, h1, formatAlter, a0, a1, a2, a3, a4, a5, Bool.false_eq_true, if_false, if_true, Bind.bind, Except.bind, pure, Except.pure]

theorem C32_drop_index_partial (c : Crypto) (db : Db) (fuel : Nat) (t i : String) (tm : TableMeta ColMeta) (ht : Dict.get? db t = some tm) (hi : i ≠ "") :
    alterQuery c db fuel [("alter", .str t), ("drop index", .str i)] = .ok (some ("alter table " ++ tm.anonymous ++ " drop index " ++ i ++ ";")) := by
  obtain ⟨json', s, h1, h2, h3⟩ := alter_rewrite (c := c) (fuel := fuel) (json := [("alter", .str t), ("drop index", .str i)]) ht rfl
    (noClause ["alter", "drop index"] (by intro k hk; simp only [List.mem_cons, List.not_mem_nil, or_false, not_or] at hk; simp [Dict.get?_cons, Ne.symm hk.1, Ne.symm hk.2]) (by decide))
  have a0 : field json' "alter" = .ok tm.anonymous := by simp [field, h2, shown]
  have a1 : has json' "add primary key" = false := has_of_get (h3 _ (by decide))
  have a2 : has json' "drop primary key" = false := has_of_get (h3 _ (by decide))
  have a3 : has json' "add foreign key" = false := has_of_get (h3 _ (by decide))
  have a4 : has json' "drop foreign key" = false := has_of_get (h3 _ (by decide))
  have a5 : has json' "add index" = false := has_of_get (h3 _ (by decide))
  have a6 : has json' "add unique" = false := has_of_get (h3 _ (by decide))
  have a7 : has json' "add fulltext" = false := has_of_get (h3 _ (by decide))
  have g : Dict.get? json' "drop index" = some (.str i) := h3 _ (by decide)
  have a8 : has json' "drop index" = true := by simp [has, g, truthy, hi]
  have a9 : field json' "drop index" = .ok i := by simp [field, g, shown]
  simp only [alterQuery, h1, formatAlter, a0, a1, a2, a3, a4, a5, a6, a7, a8, a9, Bool.false_eq_true, if_false, if_true, Bind.bind, Except.bind, pure, Except.pure]

/-- **C32 fails** for ADD INDEX: the logical name of the column is sent, encrypted or not. -/
theorem C32_fails_index_column (c : Crypto) (db : Db) (fuel : Nat) (t i n : String) (tm : TableMeta ColMeta) (ht : Dict.get? db t = some tm) (hi : i ≠ "") :
    alterQuery c db fuel [("alter", .str t), ("add index", .str i), ("add index feature", keyCols [n])] =
      .ok (some ("alter table " ++ tm.anonymous ++ " add index " ++ i ++ "(" ++ n ++ ");")) := by
  obtain ⟨json', s, h1, h2, h3⟩ := alter_rewrite (c := c) (fuel := fuel)
    (json := [("alter", .str t), ("add index", .str i), ("add index feature", keyCols [n])]) ht rfl
    (noClause ["alter", "add index", "add index feature"] (by
      intro k hk
      simp only [List.mem_cons, List.not_mem_nil, or_false, not_or] at hk
      simp [Dict.get?_cons, Ne.symm hk.1, Ne.symm hk.2.1, Ne.symm hk.2.2]) (by decide))
  have a0 : field json' "alter" = .ok tm.anonymous := by simp [field, h2, shown]
  have a1 : has json' "add primary key" = false := has_of_get (h3 _ (by decide))
  have a2 : has json' "drop primary key" = false := has_of_get (h3 _ (by decide))
  have a3 : has json' "add foreign key" = false := has_of_get (h3 _ (by decide))
  have a4 : has json' "drop foreign key" = false := has_of_get (h3 _ (by decide))
  have g : Dict.get? json' "add index" = some (.str i) := h3 _ (by decide)
  have g' : Dict.get? json' "add index feature" = some (keyCols [n]) := h3 _ (by decide)
  have a5 : has json' "add index" = true := by simp [has, g, truthy, hi]
  have a6 : field json' "add index" = .ok i := by simp [field, g, shown]
  have a7 : keyList json' "add index feature" = .ok n := by
    simp [keyList, g', keyCols, pyIter, joinValues, pyItem, Dict.getItem, Dict.get?_cons, Except.map, Text.join]
  simp only [alterQuery, h1, formatAlter, a0, a1, a2, a3, a4, a5, a6, a7, Bool.false_eq_true, if_false, if_true, Bind.bind, Except.bind, pure, Except.pure]

end EulerDB.Clause
