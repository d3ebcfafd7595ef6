import Verif.Clause.InsertProps
import Verif.Clause.WhereProps

/-!
# Which parts of a statement are rewritten at all (C98)

The loop of `rewrite_query` (rewrite_hander.py 49-71) visits the clauses named in clause/__init__.py 12-30; the value under any other key is formatted as it was parsed.
-/

namespace EulerDB.Clause

open EulerDB EulerDB.Delta

/-- **C98 (what is left alone).** If a statement is rewritten, the value under every key that is no clause of the rewriter - `groupby`, `having`, `with`, `limit`, `union` and all
others - is sent as it was parsed, whatever names and literals are in it. -/
theorem C98_frame {c : Crypto} {db : Db} {fuel : Nat} {json json' : Dict String Json} {table : Json} {s : Sel} (h : rewriteQuery c db fuel json = .ok (json', table, s)) {k : String}
    (hk : k ∉ clauseKeys) : Dict.get? json' k = Dict.get? json k := by
  unfold rewriteQuery at h
  split at h
  · cases h
  · split at h
    · cases h
    · next hl =>
      injection h with h
      injection h with h1 h2
      subst h1
      exact (clauseLoop_spec c db _ _ _ clauseKeys _ _ _ _ clauseKeys_nodup hl k).1 hk

/-- **C98 (no clause is added or lost).** A rewritten statement has the clauses of the parsed one. -/
theorem C98_clauses {c : Crypto} {db : Db} {fuel : Nat} {json json' : Dict String Json} {table : Json} {s : Sel} (h : rewriteQuery c db fuel json = .ok (json', table, s)) (k : String) :
    (Dict.get? json' k).isSome = (Dict.get? json k).isSome := by
  unfold rewriteQuery at h
  split at h
  · cases h
  · split at h
    · cases h
    · next hl =>
      injection h with h
      injection h with h1 h2
      subst h1
      obtain ⟨h3, h4⟩ := clauseLoop_spec c db _ _ _ clauseKeys _ _ _ _ clauseKeys_nodup hl k
      by_cases hk : k ∈ clauseKeys
      · cases hv : Dict.get? json k with
        | none => rw [(h4 hk).1 hv]
        | some v =>
          obtain ⟨v', _, _, _, h5⟩ := (h4 hk).2 v hv
          rw [h5]
          rfl
      · rw [h3 hk]

/-- **C98 (false: GROUP BY, HAVING, WITH).** So a literal of a HAVING condition, and a whole query of a WITH clause, leave the proxy as they are: these keys are no clauses of the
rewriter. -/
theorem C98_fails_clauses {c : Crypto} {db : Db} {fuel : Nat} {json json' : Dict String Json} {table v : Json} {s : Sel} (h : rewriteQuery c db fuel json = .ok (json', table, s)) {k : String}
    (hk : k ∈ ["groupby", "having", "with", "with_recursive", "window", "qualify"]) (hv : Dict.get? json k = some v) : Dict.get? json' k = some v := by
  have key : ∀ k ∈ ["groupby", "having", "with", "with_recursive", "window", "qualify"], k ∉ clauseKeys := by decide
  rw [C98_frame h (key k hk), hv]

theorem findTable_none {json : Dict String Json} : (l : List String) → (∀ k ∈ l, Dict.get? json k = none) → findTable json l = .error .generic
  | [], _ => rfl
  | k :: r, h => by
    rw [findTable, h k List.mem_cons_self]
    exact findTable_none r fun k hk => h k (List.mem_cons_of_mem _ hk)

/-- **C98 (false: set operations are refused).** The parse result of a UNION (INTERSECT, EXCEPT, MINUS) has one key, the operation; there is "no table found", whatever the operands. -/
theorem C98_fails_union (c : Crypto) (db : Db) (fuel : Nat) {op : String} (hop : op ∈ ["union", "union_all", "intersect", "intersect_all", "except", "except_all", "minus", "minus_all"]) (v : Json) :
    rewriteQuery c db fuel [(op, v)] = .error .generic := by
  have key : ∀ op ∈ ["union", "union_all", "intersect", "intersect_all", "except", "except_all", "minus", "minus_all"], op ∉ tableKeys := by decide
  unfold rewriteQuery
  rw [findTable_none tableKeys]
  intro k hk
  rw [Dict.get?_cons, if_neg]
  · rfl
  · rintro rfl
    exact key _ hop hk

/-- **C98 (false: set operations with LIMIT).** With a LIMIT behind it the combined query stands under `from`; the rewriter replaces it by None, so that nothing of it is sent, and
reports success. -/
theorem C98_fails_union_limit (c : Crypto) (db : Db) (fuel : Nat) {op : String} (hop : op ≠ "value") (v n : Json) :
    rewriteQuery c db fuel [("from", .dict [(op, v)]), ("limit", n)] = .ok ([("from", .null), ("limit", n)], .dict [(op, v)], {}) := by
  have hp : pyIn "value" (.dict [(op, v)]) = false := by
    simp only [pyIn]
    rw [Dict.get?_cons, if_neg hop]
    rfl
  have hf : fromOuter c db (rewriteClause c db fuel) (.dict [(op, v)]) (.dict [(op, v)]) {} = .ok (.null, {}) := by
    unfold fromOuter
    dsimp only
    unfold fromInner
    rw [hp]
    rfl
  unfold rewriteQuery
  have ht : findTable [("from", Json.dict [(op, v)]), ("limit", n)] tableKeys = .ok (.dict [(op, v)]) := by
    rfl
  rw [ht]
  dsimp only
  have step : clauseLoop c db (fromOuter c db (rewriteClause c db fuel)) (.dict [(op, v)]) none clauseKeys [("from", .dict [(op, v)]), ("limit", n)] {} =
      .ok ([("from", .null), ("limit", n)], {}) := by
    simp [clauseLoop, clauseKeys, Dict.get?, hf, Dict.set]
  have hcol : Dict.get? [("from", Json.dict [(op, v)]), ("limit", n)] "columns" = none := rfl
  rw [hcol, step]

/-- Keys that are no operator are passed over. -/
theorem whereDict_other (c : Crypto) (db : Db) (table : Json) (cipher key : String) (all : List (String × Json)) : (d : List (String × Json)) → (∀ e ∈ d, e.1 ∉ knownOps) →
    whereDict c db table cipher key all d = .ok (.dict all)
  | [], _ => by rw [whereDict]
  | (k, v) :: r, h => by
    have hk := h (k, v) List.mem_cons_self
    simp only [knownOps, List.mem_cons, List.not_mem_nil, or_false, not_or] at hk
    obtain ⟨h1, h2, h3, h4, h5, h6, h7, h8, h9⟩ := hk
    unfold whereDict
    rw [if_neg h1, if_neg (by simp [h2, h3, h4, h5]), if_neg h6, if_neg (by simp [h7, h8]), if_neg h9]
    exact whereDict_other c db table cipher key all r fun e he => h e (List.mem_cons_of_mem _ he)

/-- **C98 (false: subqueries in conditions).** A query inside a condition - `EXISTS (...)`, `a IN (SELECT ...)`, or the right side of an equality of an encrypted column - is sent
as it was parsed: with the names of its tables and columns and its literals in clear. -/
theorem C98_fails_subquery (c : Crypto) (db : Db) (table : Json) (cipher key : String) {q : List (String × Json)} (hq : ∀ e ∈ q, e.1 ∉ knownOps) :
    whereRw c db table cipher key (.dict q) = .ok (.dict q) ∧
    (∀ op a, op ∉ knownOps → whereRw c db table cipher key (.dict [(op, .list [a, .dict q])]) = .ok (.dict [(op, .list [a, .dict q])])) ∧
    ∀ {t n b : String} {tm : TableMeta ColMeta} {cm : ColMeta}, Dict.get? db t = some tm → Dict.get? tm.columns n = some cm → cm.plaintext = false →
      Dict.get? cm.encCols "symmetric" = some b →
      whereRw c db (.str t) cipher key (.dict [("eq", .list [.str n, .dict q])]) = .ok (.dict [("eq", .list [.str b, .dict q])]) := by
  have h1 : ∀ table cipher key, whereRw c db table cipher key (.dict q) = .ok (.dict q) := by
    intro table cipher key
    rw [whereRw]
    exact whereDict_other c db table cipher key q q hq
  refine ⟨h1 table cipher key, fun op a hop => C27_fails_other_operators c db table cipher key op _ hop, ?_⟩
  intro t n b tm cm ht hc hp hb
  have hw := whereCols_ok ht
  rw [whereRw, whereDict, if_pos rfl]
  rw [hw]
  cases hcols : tm.columns with
  | nil =>
    rw [hcols] at hc
    cases hc
  | cons e r =>
    dsimp only
    rw [← hcols]
    have hcol : colOfJson tm.columns (.str n) = .ok cm := by
      simp [colOfJson, Dict.getItem, hc]
    rw [hcol]
    dsimp only
    rw [if_neg (by rw [hp]; decide), Dict.getItem, hb]
    dsimp only
    rw [h1]

/-- The query of `WHERE id IN (SELECT owner FROM card WHERE number = '4111')`: table, columns and the number are sent in clear. -/
example (c : Crypto) (db : Db) (table : Json) : whereRw c db table "symmetric" "" (.dict [("in", .list [.str "id", .dict [("select", .dict [("value", .str "owner")]), ("from", .str "card"),
    ("where", .dict [("eq", .list [.str "number", .dict [("literal", .str "4111")]])])]])]) = .ok (.dict [("in", .list [.str "id", .dict [("select", .dict [("value", .str "owner")]),
    ("from", .str "card"), ("where", .dict [("eq", .list [.str "number", .dict [("literal", .str "4111")]])])]])]) :=
  C27_fails_other_operators c db table "symmetric" "" "in" _ (by decide)

end EulerDB.Clause
