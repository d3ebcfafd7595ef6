import Verif.Clause.WholeProps
import Verif.Codec.Props

/-!
# Whole statements with a condition (C26, C27), MAX and MIN (C29), NULL and float results (C25)

The theorems on WHERE speak of `whereRw`; here they are carried over to the statement that is sent.
-/

namespace EulerDB.Clause

open EulerDB EulerDB.Delta

/-- The WHERE clause of a rewritten statement is the rewritten WHERE clause. -/
theorem statement_where {c : Crypto} {db : Db} {fuel : Nat} {json json' : Dict String Json} {table v : Json} {s : Sel}
    (h : rewriteQuery c db fuel json = .ok (json', table, s)) (hv : Dict.get? json "where" = some v) :
    ∃ j, whereRw c db table "symmetric" "" v = .ok j ∧ Dict.get? json' "where" = some j := by
  obtain ⟨_, hspec⟩ := rewriteQuery_spec h
  obtain ⟨v', s1, s2, h1, h2⟩ := ((hspec "where").2 (by decide)).2 v hv
  refine ⟨v', ?_, h2⟩
  simp (decide := true) only [oneStep, stepKey, if_false, if_true] at h1
  split at h1
  · cases h1
  · rename_i x hx
    simp only [Except.ok.injEq, Prod.mk.injEq] at h1
    rw [hx, h1.1]

/-- **C26, partial: the statement sent.** Whatever statement carries the condition (SELECT, UPDATE, DELETE), the statement sent has a condition that is true of
a stored row exactly when the condition written is true of its values. -/
theorem C26_statement_where_partial (c : Crypto) (db : Db) (fuel : Nat) (json json' : Dict String Json) (t : String) (tm : TableMeta ColMeta)
    (s : Sel) (vals : String → Option Val) (row : Dict String DbVal) (x : Cond) (ht : Dict.get? db t = some tm) (hr : Holds c tm.columns vals row)
    (hf : x.Fits tm.columns vals) (h : rewriteQuery c db fuel json = .ok (json', .str t, s)) (hv : Dict.get? json "where" = some x.json) :
    ∃ j, Dict.get? json' "where" = some j ∧ evalCond row j = some (x.holds vals) := by
  obtain ⟨j, h1, h2⟩ := statement_where h hv
  obtain ⟨j', h3, h4⟩ := C26_where_meaning_partial c db t tm vals row x ht hr hf
  rw [h1] at h3
  cases h3
  exact ⟨j, h2, h4⟩

/-- **C26, partial: DELETE.** `DELETE FROM t WHERE x` is accepted, names the backend table, and its condition selects the rows meant. -/
theorem C26_delete_partial (c : Crypto) (db : Db) (fuel : Nat) (t : String) (tm : TableMeta ColMeta) (vals : String → Option Val)
    (row : Dict String DbVal) (x : Cond) (ht : Dict.get? db t = some tm) (hr : Holds c tm.columns vals row) (hf : x.Fits tm.columns vals) :
    ∃ j, rewriteQuery c db fuel [("delete", .str t), ("where", x.json)] =
        .ok ([("delete", .str tm.anonymous), ("where", j)], .str t, {}) ∧ evalCond row j = some (x.holds vals) := by
  obtain ⟨j, h3, h4⟩ := C26_where_meaning_partial c db t tm vals row x ht hr hf
  refine ⟨j, ?_, h4⟩
  have h5 : tableOf db t = .ok tm := getItem_ok.2 ht
  have hfind : findTable [("delete", Json.str t), ("where", x.json)] tableKeys = .ok (.str t) := rfl
  have hs1 : stepKey c db (.str t) none "delete" (.str t) {} = .ok (.str tm.anonymous, {}) := by
    simp (decide := true) only [stepKey, if_false, if_true, anonRw, tableOfJson, h5, Except.map]
  have hs2 : stepKey c db (.str t) none "where" x.json {} = .ok (j, {}) := by
    simp (decide := true) only [stepKey, if_false, if_true, h3]
  have h0 : Dict.get? [("delete", Json.str t), ("where", x.json)] "columns" = none := rfl
  unfold rewriteQuery
  rw [hfind]
  simp only [h0]
  simp (decide := true) only [clauseKeys, clauseLoop, Dict.get?_cons, Dict.get?_nil, if_false, if_true, hs1, hs2, Dict.set]

/-- **C27, partial: the statement sent.** The condition of the statement sent shows the backend only what `MaySee` and `MaySeeInt` allow. -/
theorem C27_statement_where_partial (c : Crypto) (db : Db) (fuel : Nat) (json json' : Dict String Json) (t : String) (tm : TableMeta ColMeta)
    (s : Sel) (vals : String → Option Val) (x : Cond) (ht : Dict.get? db t = some tm) (hf : x.Fits tm.columns vals)
    (h : rewriteQuery c db fuel json = .ok (json', .str t, s)) (hv : Dict.get? json "where" = some x.json) :
    ∃ j, Dict.get? json' "where" = some j ∧ (∀ s ∈ Json.strings j, MaySee c tm.columns x.leaves s) ∧
      (∀ z ∈ Json.ints j, MaySeeInt c tm.columns x.leaves z) := by
  obtain ⟨j, h1, h2⟩ := statement_where h hv
  exact ⟨j, h2, C27_only_ciphertexts_partial c db t tm vals x j ht hf h1⟩

/-- **C25, partial: NULL.** A NULL of the backend is shown as NULL, whatever the column and its cipher. -/
theorem C25_null_result (c : Crypto) (homDec ev) (db : Db) (table : Json) (col state : String) :
    decryptVal c homDec ev db table .null col state = .ok .null := by
  simp [decryptVal]

/-- **C25, partial: rows of NULLs.** -/
theorem C25_null_row (c : Crypto) (homDec ev) (db : Db) (table : Json) : ∀ (cols sts : List String), cols.length = sts.length →
    decryptRow c homDec ev db table cols sts (cols.map fun _ => .null) = .ok (cols.map fun _ => .null)
  | [], [], _ => rfl
  | col :: cols, st :: sts, h => by
    have ih := C25_null_row c homDec ev db table cols sts (by simpa using h)
    simp only [List.map_cons, decryptRow, ih, C25_null_result, plainVal]
    split <;> simp_all
  | [], _ :: _, h => by simp at h
  | _ :: _, [], h => by simp at h

/-- **C25, partial: float columns.** The ciphertext `encrypt_value` makes for a number of a float column is shown as the number, up to the
truncation at twelve decimals. -/
theorem C25_float_partial (c : Crypto) (homDec ev) (db : Db) (t n : String) (cm : ColMeta) (q : ℚ)
    (hc : decCol db (.str t) n = .ok cm) (hty : cm.type = "float") :
    ∃ s r, encryptValue c cm (.float q) "symmetric" = .ok (.dict [("value", Json.lit s)]) ∧
      decryptVal c homDec ev db (.str t) (.text s) n "symmetric" = .ok (.num r) ∧ |r - q| < 1 / 10 ^ 12 := by
  refine ⟨String.ofList (Aes.ct (c.aes cm.key) (intText (Codec.encodeFloat q)).toList), Codec.decodeFloat (Codec.encodeFloat q), ?_, ?_,
    Codec.C10_float_roundtrip_error q⟩
  · simp (decide := true) [encryptValue, encodeJson, hty, pyStr, sym_eq, Except.map]
  · have hn : ¬ Aes.EndsInNul (intText (Codec.encodeFloat q)).toList := by
      simpa [intText] using intStr_not_nul (Codec.encodeFloat q)
    have hd := symDec_ct c cm.key (intText (Codec.encodeFloat q)).toList hn
    have hi : Text.parseInt (intText (Codec.encodeFloat q)).toList = .ok (Codec.encodeFloat q) := by simp [intText, Text.parseInt_intStr]
    simp (decide := true) [decryptVal, hc, hd, Except.map, decodeVal, hty, hi]

/-- **C30, partial: MAX and MIN** of an encrypted column are asked of its order-preserving column and recorded as such. -/
theorem C30_max_min_partial (db : Db) (t n k b : String) (tm : TableMeta ColMeta) (cm : ColMeta) (s : Sel)
    (hk : k = "max" ∨ k = "min") (ht : Dict.get? db t = some tm) (hc : Dict.get? tm.columns n = some cm) (hp : cm.plaintext = false)
    (hb : Dict.get? cm.encCols "order-preserving" = some b) (hd : '.' ∉ n.toList) (hstar : n ≠ "*") :
    selRw db (.str t) "symmetric" s (.dict [(k, .str n)]) = .ok (.dict [(k, .str b)], s.push n cm.type "order-preserving") := by
  have h1 : tableOf db t = .ok tm := getItem_ok.2 ht
  have h2 := getItem_ok.2 hc
  have h3 := getItem_ok.2 hb
  have hq := splitQual_plain hd
  rcases hk with rfl | rfl <;>
    simp (decide := true) [selRw, isCountStar, selDict, funcCipher, hstar, selStr, selCol, hq, tableOfJson, h1, h2, hp, h3, Dict.set]

/-- The order-preserving column answers MAX rightly: the greatest ciphertext of a column is that of its greatest value. -/
theorem C30_max_is_max_partial (c : Crypto) (key : String) (zs ys : List Int) (m y : Int)
    (he : List.Forall₂ (fun z y => c.opeEnc key z = .ok y) zs ys) (hm : m ∈ zs) (hy : c.opeEnc key m = .ok y)
    (hmax : ∀ b ∈ ys, b ≤ y) : ∀ a ∈ zs, a ≤ m := by
  induction he with
  | nil => simp
  | cons h1 h2 ih =>
    rename_i a b as bs
    have key' : ∀ (a' : Int) (b' : Int), c.opeEnc key a' = .ok b' → b' ≤ y → a' ≤ m := by
      intro a' b' h hb
      have := Ope.C01_ope_order_preserving _ _ _ _ _ hy h
      omega
    intro x hx
    rcases List.mem_cons.1 hx with rfl | hx
    · exact key' _ _ h1 (hmax _ (by simp))
    · have : ∀ (zs ys : List Int), List.Forall₂ (fun z y => c.opeEnc key z = .ok y) zs ys → x ∈ zs → ∃ b ∈ ys, c.opeEnc key x = .ok b := by
        intro zs ys hf
        induction hf with
        | nil => simp
        | cons g1 _ ig =>
          intro hx
          rcases List.mem_cons.1 hx with rfl | hx
          · exact ⟨_, by simp, g1⟩
          · obtain ⟨b, hb, h⟩ := ig hx
            exact ⟨b, by simp [hb], h⟩
      obtain ⟨b', hb', h⟩ := this as bs h2 hx
      exact key' _ _ h (hmax _ (by simp [hb']))

/-- The hypotheses can be met: the demo row is deleted by a condition on its name. -/
example : ∃ stored j, rewriteQuery demoCrypto demoDb 1 [("delete", .str "emp"), ("where", (Cond.eqText "name" "bob").json)] =
    .ok ([("delete", .str "table_0"), ("where", j)], .str "emp", {}) ∧ evalCond stored j = some true := by
  obtain ⟨ins, s, stored, h1, _, h2⟩ := C25_insert_accepted_partial demoCrypto demoDb 1 "emp" demoTable demoRow rfl demo_fits
  have hr := C26_inserted_row_holds_partial demoCrypto demoDb 1 "emp" demoTable demoRow ins _ s stored rfl demo_ciphers demo_names
    (fun e he => (demo_fits e he).imp fun _ h => ⟨h.1, h.2.1⟩) h1 h2
  obtain ⟨j, h3, h4⟩ := C26_delete_partial demoCrypto demoDb 1 "emp" demoTable _ stored (.eqText "name" "bob") rfl hr
    ⟨_, "bob", rfl, rfl, fun _ => ⟨by simp [Aes.EndsInNul], by simp [Aes.EndsInNul], _, rfl⟩⟩
  exact ⟨stored, j, h3, h4⟩

example : selRw demoDb (.str "emp") "symmetric" {} (.dict [("max", .str "age")]) =
    .ok (.dict [("max", .str "age_o")], Sel.push {} "age" "int" "order-preserving") :=
  C30_max_min_partial demoDb "emp" "age" "max" "age_o" demoTable _ {} (Or.inl rfl) rfl rfl rfl rfl (by simp) (by decide)

end EulerDB.Clause
