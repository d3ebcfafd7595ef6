import Verif.Clause.OrderProps
import Verif.Clause.SetProps
import Verif.Clause.SelectProps
import Verif.Clause.NameProps

/-!
# INSERT and WHERE together (C26), and a concrete table

The theorems on WHERE and ORDER BY speak of rows that hold their values (`Holds`).  Here: the rows INSERT stores do.  At the end of the file the hypotheses of
the theorems of this directory are met by a concrete table.
-/

namespace EulerDB.Clause

open EulerDB EulerDB.Delta EulerDB.Table

/-- The slot of an inserted value. -/
theorem inserted_slot {c : Crypto} {db : Db} {fuel : Nat} {t : String} {tm : TableMeta ColMeta} {row : List (String × Val)} {ins : Dict String Json} {table : Json}
    {s0 : Sel} {stored : Dict String DbVal} (ht : Dict.get? db t = some tm)
    (hk : ∀ n cm, Dict.get? tm.columns n = some cm → cm.plaintext = false → ∀ e ∈ Dict.keys cm.encCols, e ∈ knownCiphers)
    (hnames : ((row.map Prod.fst).flatMap (backendNames tm.columns)).Nodup)
    (hins : rewriteQuery c db fuel (insertJson t row) = .ok (ins, table, s0)) (hstore : runInsert ins = some stored)
    {n b : String} {v : Val} {cm : ColMeta} {enc : Option String} (hm : (n, v) ∈ row) (hc : Dict.get? tm.columns n = some cm)
    (hs : (Json.str b, enc) ∈ slotsOf (.str n) cm) : ∃ out x, Filled c ⟨.str b, enc, cm, v.json⟩ out ∧ dbLit out = some x ∧ Dict.get? stored b = some x := by
  obtain ⟨bvals, h1, h2, h3⟩ := C23_insert_aligned_partial c db fuel _ ins t _ _ table s0 tm (insertJson_isInsert t row) ht (by simp) hk (by
    intro v hv
    obtain ⟨e, _, rfl⟩ := List.mem_map.1 hv
    cases e.2 with
    | int z => exact ⟨_, rfl, .int z⟩
    | text s => exact ⟨_, rfl, .text s⟩) hins
  have hrow : storeRow ((rowSlots tm.columns (row.map fun e => .str e.1) (row.map fun e => e.2.json)).map Slot.name) bvals = some stored := by
    unfold runInsert at hstore
    rw [h1, h2] at hstore
    exact hstore
  have hnd : ((rowSlots tm.columns (row.map fun e => .str e.1) (row.map fun e => e.2.json)).map Slot.name).Nodup := by
    rw [rowSlots_names]
    exact List.Nodup.map (fun a b h => by injection h) hnames
  exact storeRow_lookup _ _ _ c h3 hrow hnd _ (rowSlots_mem tm.columns hc row hm (.str b, enc) hs) b rfl

/-- What `Typed` makes of a value that suits its column. -/
theorem typed_suits {cm : ColMeta} {v : Val} {x w : Json} (hs : Suits cm v) (hx : pyItem "value" v.json = .ok x) (hw : Typed cm x w) :
    w = match v with | .int z => .int z | .text s => .str s := by
  cases v with
  | int z =>
    have : x = .int z := by
      simp only [Val.json, pyItem, Dict.getItem, Dict.get?_cons, if_true] at hx
      injection hx with hx
      exact hx.symm
    subst this
    unfold Suits at hs
    cases hw with
    | int _ _ _ => rfl
    | floatInt _ h => rw [hs] at h; exact absurd h (by decide)
    | doubleInt _ _ h _ => rw [hs] at h; exact absurd h (by decide)
  | text s =>
    have : x = Json.lit s := by
      simp only [Val.json, pyItem, Dict.getItem, Dict.get?_cons, if_true] at hx
      injection hx with hx
      exact hx.symm
    subst this
    cases hw with
    | text _ _ _ => rfl

/-- **C26, partial: the row INSERT stores holds the inserted values**, as the theorems on WHERE and ORDER BY ask. -/
theorem C26_inserted_row_holds_partial (c : Crypto) (db : Db) (fuel : Nat) (t : String) (tm : TableMeta ColMeta) (row : List (String × Val))
    (ins : Dict String Json) (table : Json) (s0 : Sel) (stored : Dict String DbVal) (ht : Dict.get? db t = some tm)
    (hk : ∀ n cm, Dict.get? tm.columns n = some cm → cm.plaintext = false → ∀ e ∈ Dict.keys cm.encCols, e ∈ knownCiphers)
    (hnames : ((row.map Prod.fst).flatMap (backendNames tm.columns)).Nodup)
    (hsuits : ∀ e ∈ row, ∃ cm, Dict.get? tm.columns e.1 = some cm ∧ Suits cm e.2)
    (hins : rewriteQuery c db fuel (insertJson t row) = .ok (ins, table, s0)) (hstore : runInsert ins = some stored) :
    Holds c tm.columns (fun n => Dict.get? row n) stored := by
  have hsu : ∀ n v cm, Dict.get? row n = some v → Dict.get? tm.columns n = some cm → Suits cm v := by
    intro n v cm hv hc
    obtain ⟨cm', hc', h⟩ := hsuits (n, v) (Dict.mem_of_get? hv)
    simp only at hc' h
    rw [hc] at hc'
    injection hc' with hc'
    rw [hc']; exact h
  constructor
  · intro n v cm hv hc hp
    obtain ⟨out, x, hf, hx, hg⟩ := inserted_slot ht hk hnames hins hstore (b := n) (enc := none) (Dict.mem_of_get? hv) hc (by simp [slotsOf, hp])
    unfold Filled at hf
    simp only at hf
    subst hf
    rw [hg]
    cases v with
    | int z => simp only [Val.json, dbLit] at hx; injection hx with hx; subst hx; rfl
    | text s => simp only [Val.json, dbLit, Json.lit] at hx; injection hx with hx; subst hx; rfl
  · intro n v cm b hv hc hp hb
    obtain ⟨out, x, hf, hx, hg⟩ := inserted_slot ht hk hnames hins hstore (b := b) (enc := some "symmetric") (Dict.mem_of_get? hv) hc (by
      rw [slotsOf, if_neg (by simp [hp])]
      exact List.mem_map.2 ⟨("symmetric", b), Dict.mem_of_get? hb, rfl⟩)
    unfold Filled at hf
    simp only at hf
    obtain ⟨y, hy, henc⟩ := hf
    generalize he : "symmetric" = enc at henc
    cases henc with
    | ope _ _ _ _ _ _ => exact absurd he (by decide)
    | fuzzy _ _ _ _ _ _ => exact absurd he (by decide)
    | hom _ _ _ _ _ _ => exact absurd he (by decide)
    | sym w tx y hw htx hsy =>
      have hw' := typed_suits (hsu n v cm hv hc) hy hw
      subst hw'
      simp only [dbLit, Json.lit] at hx
      injection hx with hx
      subst hx
      refine ⟨y, ?_, hg⟩
      cases v with
      | int z =>
        have e : tx = intText z := by simpa [pyStr, eq_comm] using htx
        rw [e] at hsy; exact hsy
      | text s =>
        have e : tx = s := by simpa [pyStr, eq_comm] using htx
        rw [e] at hsy; simpa [Val.str] using hsy
  · intro n z cm b hv hc hp hb
    obtain ⟨out, x, hf, hx, hg⟩ := inserted_slot ht hk hnames hins hstore (b := b) (enc := some "order-preserving") (Dict.mem_of_get? hv) hc (by
      rw [slotsOf, if_neg (by simp [hp])]
      exact List.mem_map.2 ⟨("order-preserving", b), Dict.mem_of_get? hb, rfl⟩)
    unfold Filled at hf
    simp only at hf
    obtain ⟨y, hy, henc⟩ := hf
    generalize he : "order-preserving" = enc at henc
    cases henc with
    | sym _ _ _ _ _ _ => exact absurd he (by decide)
    | fuzzy _ _ _ _ _ _ => exact absurd he (by decide)
    | hom _ _ _ _ _ _ => exact absurd he (by decide)
    | ope w z' y hw hz hsy =>
      have hw' := typed_suits (hsu n (.int z) cm hv hc) hy hw
      subst hw'
      simp only [pyInt] at hz
      injection hz with hz
      subst hz
      simp only [dbLit] at hx
      injection hx with hx
      subst hx
      exact ⟨y, hsy, hg⟩
  · intro n v cm b hv hc hp hb
    obtain ⟨out, x, hf, hx, hg⟩ := inserted_slot ht hk hnames hins hstore (b := b) (enc := some "fuzzy") (Dict.mem_of_get? hv) hc (by
      rw [slotsOf, if_neg (by simp [hp])]
      exact List.mem_map.2 ⟨("fuzzy", b), Dict.mem_of_get? hb, rfl⟩)
    unfold Filled at hf
    simp only at hf
    obtain ⟨y, hy, henc⟩ := hf
    generalize he : "fuzzy" = enc at henc
    cases henc with
    | ope _ _ _ _ _ _ => exact absurd he (by decide)
    | sym _ _ _ _ _ _ => exact absurd he (by decide)
    | hom _ _ _ _ _ _ => exact absurd he (by decide)
    | fuzzy w tx y hw htx hsy =>
      have hw' := typed_suits (hsu n v cm hv hc) hy hw
      subst hw'
      simp only [dbLit, Json.lit] at hx
      injection hx with hx
      subst hx
      refine ⟨y, ?_, hg⟩
      cases v with
      | int z =>
        have e : tx = intText z := by simpa [pyStr, eq_comm] using htx
        rw [e] at hsy; exact hsy
      | text s =>
        have e : tx = s := by simpa [pyStr, eq_comm] using htx
        rw [e] at hsy; simpa [Val.str] using hsy

/-- **C26, partial: INSERT, then WHERE.** A condition on inserted values is rewritten, and the backend evaluates the rewritten condition on the row it stored to
the truth of the condition on the values inserted. -/
theorem C26_insert_then_where_partial (c : Crypto) (db : Db) (fuel : Nat) (t : String) (tm : TableMeta ColMeta) (row : List (String × Val))
    (ins : Dict String Json) (table : Json) (s0 : Sel) (stored : Dict String DbVal) (x : Cond) (ht : Dict.get? db t = some tm)
    (hk : ∀ n cm, Dict.get? tm.columns n = some cm → cm.plaintext = false → ∀ e ∈ Dict.keys cm.encCols, e ∈ knownCiphers)
    (hnames : ((row.map Prod.fst).flatMap (backendNames tm.columns)).Nodup)
    (hsuits : ∀ e ∈ row, ∃ cm, Dict.get? tm.columns e.1 = some cm ∧ Suits cm e.2)
    (hins : rewriteQuery c db fuel (insertJson t row) = .ok (ins, table, s0)) (hstore : runInsert ins = some stored)
    (hf : x.Fits tm.columns fun n => Dict.get? row n) :
    ∃ j, whereRw c db (.str t) "symmetric" "" x.json = .ok j ∧ evalCond stored j = some (x.holds fun n => Dict.get? row n) :=
  C26_where_meaning_partial c db t tm _ stored x ht (C26_inserted_row_holds_partial c db fuel t tm row ins table s0 stored ht hk hnames hsuits hins hstore) hf

/-! ## A concrete table

Every column kind once: a plaintext column, a text column that can be searched, a number column that can be compared.  The block cipher is the reversal of a
block and the order-preserving cipher the greedy one (`Ope.greedyKey`). -/

def demoCrypto : Crypto := ⟨fun _ => Aes.demoBlock, fun _ => Ope.greedyKey true, fun _ => true, fun _ _ => "h", fun _ => "1.5"⟩

def demoTable : TableMeta ColMeta :=
  ⟨"table_0", [("id", ⟨true, "int", "", [], none, none, none⟩),
    ("name", ⟨false, "varchar(20)", "k", [("fuzzy", "name_f"), ("symmetric", "name_s")], none, none, none⟩),
    ("age", ⟨false, "int", "k", [("order-preserving", "age_o"), ("symmetric", "age_s")], none, none, none⟩)], none⟩

def demoDb : Db := [("emp", demoTable)]

def demoRow : List (String × Val) := [("id", .int 7), ("name", .text "bob"), ("age", .int 40)]

theorem demo_ciphers : ∀ n cm, Dict.get? demoTable.columns n = some cm → cm.plaintext = false → ∀ e ∈ Dict.keys cm.encCols, e ∈ knownCiphers := by
  intro n cm h _
  have := Dict.mem_of_get? h
  simp only [demoTable, List.mem_cons, Prod.mk.injEq, List.not_mem_nil, or_false] at this
  rcases this with ⟨_, rfl⟩ | ⟨_, rfl⟩ | ⟨_, rfl⟩ <;> decide

theorem demo_names : ((demoRow.map Prod.fst).flatMap (backendNames demoTable.columns)).Nodup := by decide

theorem demo_fits : ∀ e ∈ demoRow, ∃ cm, Dict.get? demoTable.columns e.1 = some cm ∧ Suits cm e.2 ∧ Accepts cm e.2 := by
  intro e he
  simp only [demoRow, List.mem_cons, List.not_mem_nil, or_false] at he
  rcases he with rfl | rfl | rfl
  · exact ⟨_, rfl, rfl, by intro enc h; simp [Dict.keys] at h⟩
  · refine ⟨_, rfl, ⟨by decide, by decide, by decide, by simp [Aes.EndsInNul]⟩, ?_⟩
    intro enc h
    simp only [Dict.keys, List.map_cons, List.map_nil, List.mem_cons, List.not_mem_nil, or_false] at h
    rcases h with rfl | rfl <;> simp
  · refine ⟨_, rfl, rfl, ?_⟩
    intro enc h
    simp only [Dict.keys, List.map_cons, List.map_nil, List.mem_cons, List.not_mem_nil, or_false] at h
    rcases h with rfl | rfl <;> simp (decide := true)

theorem demo_plain : PlainTable "emp" := by simp [PlainTable, pyIn, isSub]; decide

theorem demo_readable : ∀ n ∈ ["id", "name", "age"], Readable demoTable.columns n := by
  intro n hn
  simp only [List.mem_cons, List.not_mem_nil, or_false] at hn
  rcases hn with rfl | rfl | rfl
  · exact ⟨by simp, by decide, _, _, rfl, rfl⟩
  · exact ⟨by simp, by decide, _, _, rfl, rfl⟩
  · exact ⟨by simp, by decide, _, _, rfl, rfl⟩

/-- C23, C24, C25: the row is inserted and read back, in another order and with a repetition. -/
example : ∃ ins s stored, rewriteQuery demoCrypto demoDb 1 (insertJson "emp" demoRow) = .ok (ins, .str "emp", s) ∧ runInsert ins = some stored ∧
    ∃ q s' cells, rewriteQuery demoCrypto demoDb 1 (selectJson "emp" ["age", "name", "age"]) = .ok (q, .str "emp", s') ∧ runSelect q stored = some cells ∧
      decryptRow demoCrypto (fun _ _ => .error .typeError) (fun _ => none) demoDb (.str "emp") s'.columns s'.state cells = .ok [.int 40, .text "bob", .int 40] := by
  obtain ⟨ins, s, stored, h1, _, h2⟩ := C25_insert_accepted_partial demoCrypto demoDb 1 "emp" demoTable demoRow rfl demo_fits
  refine ⟨ins, s, stored, h1, h2, ?_⟩
  exact C25_insert_then_select_partial demoCrypto _ _ demoDb 1 "emp" demoTable demoRow [("age", .int 40), ("name", .text "bob"), ("age", .int 40)] ins _ s stored rfl
    demo_plain demo_ciphers demo_names (fun e he => (demo_fits e he).imp fun _ h => ⟨h.1, h.2.1⟩) h1 h2 (by decide) (by
      intro e he
      simp only [List.mem_cons, List.not_mem_nil, or_false] at he
      rcases he with rfl | rfl | rfl <;> exact demo_readable _ (by decide))

/-- C26, C27: `name = 'bob' AND (age < 50 OR id = 3)` is rewritten and true of the stored row. -/
example : ∃ ins s stored j, rewriteQuery demoCrypto demoDb 1 (insertJson "emp" demoRow) = .ok (ins, .str "emp", s) ∧ runInsert ins = some stored ∧
    whereRw demoCrypto demoDb (.str "emp") "symmetric" "" (Cond.and [.eqText "name" "bob", .or [.cmp .lt "age" 50, .eqInt "id" 3]]).json = .ok j ∧
    evalCond stored j = some true := by
  obtain ⟨ins, s, stored, h1, _, h2⟩ := C25_insert_accepted_partial demoCrypto demoDb 1 "emp" demoTable demoRow rfl demo_fits
  obtain ⟨j, h3, h4⟩ := C26_insert_then_where_partial demoCrypto demoDb 1 "emp" demoTable demoRow ins _ s stored
    (Cond.and [.eqText "name" "bob", .or [.cmp .lt "age" 50, .eqInt "id" 3]]) rfl
    demo_ciphers demo_names (fun e he => (demo_fits e he).imp fun _ h => ⟨h.1, h.2.1⟩) h1 h2 (by
      refine ⟨⟨_, "bob", rfl, rfl, fun _ => ⟨by simp [Aes.EndsInNul], by simp [Aes.EndsInNul], _, rfl⟩⟩,
        ⟨⟨_, 40, rfl, rfl, fun _ => ⟨rfl, by simp [Int64], _, rfl⟩⟩, ⟨_, 7, rfl, rfl, fun h => absurd h (by decide)⟩, trivial⟩, trivial⟩)
  exact ⟨ins, s, stored, j, h1, h2, h3, h4⟩

/-- C28: an assignment to the name is accepted and writes both cipher columns. -/
example : ∃ out, setRw demoCrypto demoDb "emp" [("name", (Val.text "eve").rhs)] = .ok out ∧ (Dict.get? out "name_s").isSome ∧ (Dict.get? out "name_f").isSome ∧
    ([("name", (Val.text "eve").rhs)].flatMap fun e => targets demoTable.columns e.1).Nodup := by
  obtain ⟨x, hx⟩ : ∃ x, whereRw demoCrypto demoDb (.str "emp") "fuzzy" "k" (Val.text "eve").rhs = .ok x := by
    obtain ⟨p', hp⟩ : ∃ p', demoCrypto.like "k" "eve" = .ok p' := by
      have h : "eve".toList = ['e', 'v', 'e'] := by simp
      unfold Crypto.like
      rw [h]
      exact ⟨_, rfl⟩
    exact ⟨_, by simp (decide := true) [Val.rhs, Json.lit, whereRw, whereDict, rewriteLeaf, hp, Except.map]; rfl⟩
  obtain ⟨y, hy⟩ : ∃ x, whereRw demoCrypto demoDb (.str "emp") "symmetric" "k" (Val.text "eve").rhs = .ok x := by
    exact ⟨_, by simp (decide := true) [Val.rhs, Json.lit, whereRw, whereDict, rewriteLeaf, sym_eq, Except.map]; rfl⟩
  refine ⟨[("name_f", x), ("name_s", y)], ?_, rfl, rfl, by decide⟩
  have hc : Dict.getItem demoTable.columns "name" = .ok ⟨false, "varchar(20)", "k", [("fuzzy", "name_f"), ("symmetric", "name_s")], none, none, none⟩ := rfl
  have ht : tableOf demoDb "emp" = .ok demoTable := rfl
  simp [setRw, ht, setLoop, hc, setCols, hx, hy, Dict.set]

/-- C29: two rows in order of age. -/
example : ∃ j, orderRw demoDb (.str "emp") (SortKey.json ⟨"age", none⟩) = .ok j ∧ j = .dict [("value", .str "age_o")] := ⟨_, rfl, rfl⟩

/-- C29: rows in the order of their ages exist (two inserted rows). -/
example : ∃ rows : List ((String → Option Val) × Dict String DbVal), rows.length = 2 ∧ HoldAll demoCrypto demoTable.columns "age" rows := by
  obtain ⟨ins, s, stored, h1, _, h2⟩ := C25_insert_accepted_partial demoCrypto demoDb 1 "emp" demoTable demoRow rfl demo_fits
  have h := C26_inserted_row_holds_partial demoCrypto demoDb 1 "emp" demoTable demoRow ins _ s stored rfl demo_ciphers demo_names
    (fun e he => (demo_fits e he).imp fun _ h => ⟨h.1, h.2.1⟩) h1 h2
  refine ⟨[(fun n => Dict.get? demoRow n, stored), (fun n => Dict.get? demoRow n, stored)], rfl, ?_⟩
  intro r hr
  simp only [List.mem_cons, List.not_mem_nil, or_false, or_self] at hr
  subst hr
  exact ⟨h, 40, rfl⟩

/-- C30: a list with a plaintext column, an encrypted column, a function and COUNT(*). -/
example : ∃ j s, selRw demoDb (.str "emp") "symmetric" {} (.list ([Item.col "id", .col "name", .fn "max" "age", .countStar].map Item.json)) = .ok (j, s) ∧
    s.columns = ["id", "name", "age", "count"] ∧ s.state = ["plaintext", "symmetric", "order-preserving", "plaintext"] := by
  have q1 : splitQual "id" = .ok ("", "id") := splitQual_plain (by simp)
  have q2 : splitQual "name" = .ok ("", "name") := splitQual_plain (by simp)
  have q3 : splitQual "age" = .ok ("", "age") := splitQual_plain (by simp)
  have f1 : funcCipher "max" = some "order-preserving" := by decide
  simp (decide := true) [selRw, selList, selItem, selValueOf, selStr, selCol, Item.json, Item.value, demoDb, demoTable, tableOf, tableOfJson, Dict.getItem, Dict.get?_cons,
    q1, q2, q3, selDict, f1, Sel.push]

/-- C31: a join of the table with itself is renamed. -/
example : ∃ js s, fromOuter demoCrypto demoDb (fun _ _ => .error .nonterm) (.list ([FromTable.table "emp", .join "join" "emp" ("emp", "id") ("emp", "age")].map FromTable.json))
      (.list ([FromTable.table "emp", .join "join" "emp" ("emp", "id") ("emp", "age")].map FromTable.json)) {} = .ok (js, s) ∧
    ∀ f ∈ [FromTable.table "emp", .join "join" "emp" ("emp", "id") ("emp", "age")], f.Good ∧ f.Plain := by
  have hg : ∀ f ∈ [FromTable.table "emp", .join "join" "emp" ("emp", "id") ("emp", "age")], f.Good ∧ f.Plain := by
    intro f hf
    simp only [List.mem_cons, List.not_mem_nil, or_false] at hf
    rcases hf with rfl | rfl
    · exact ⟨trivial, demo_plain⟩
    · exact ⟨⟨by decide, by simp, by simp, by simp, by simp⟩, rfl⟩
  have h1 : splitTableCol (.str "emp.id") = .ok ("emp", "id") := by simpa using splitTableCol_dot (a := ("emp", "id")) (by simp) (by simp)
  have h2 : splitTableCol (.str "emp.age") = .ok ("emp", "age") := by simpa using splitTableCol_dot (a := ("emp", "age")) (by simp) (by simp)
  have hl : fromRw demoCrypto demoDb (.list ([FromTable.table "emp", .join "join" "emp" ("emp", "id") ("emp", "age")].map FromTable.json)) =
      .ok (.list [.str "table_0", .dict [("join", .str "table_0"), ("on", .dict [("eq", .list [.str "table_0.id", .str "table_0.age_s"])])]]) := by
    have e : tableOf demoDb "emp" = .ok demoTable := rfl
    have c1 : Dict.getItem demoTable.columns "id" = .ok ⟨true, "int", "", [], none, none, none⟩ := rfl
    have c2 : Dict.getItem demoTable.columns "age" = .ok ⟨false, "int", "k", [("order-preserving", "age_o"), ("symmetric", "age_s")], none, none, none⟩ := rfl
    simp (decide := true) [fromRw, fromList, fromItem, FromTable.json, joinItems, tableOfJson, e, Except.map, whereRw, whereDict, whereCols, joinEq, h1, h2, c1, c2,
      Dict.set]
    rfl
  have h3 := fromItems_eq (nested := fun _ _ => .error .nonterm) hl 0 ([FromTable.table "emp", .join "join" "emp" ("emp", "id") ("emp", "age")].map FromTable.json) {} (by
    intro v hv
    obtain ⟨f, hf, rfl⟩ := List.mem_map.1 hv
    exact (hg f hf).2) rfl
  exact ⟨_, _, by rw [fromOuter, h3], hg⟩

end EulerDB.Clause
