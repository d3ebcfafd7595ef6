import Verif.Web.Ids
import Verif.Clause.WholeProps

/-! # C34: what an id of the two-step interface stands for -/

namespace EulerDB.Web

open EulerDB EulerDB.Delta EulerDB.Clause

/-- The entry of an id is not touched by later events, as long as no statement is encrypted in the same millisecond. -/
theorem ids_stable (c : Crypto) (fuel : Nat) (id : Nat) (h : List Ev) (s : Server) (hn : ∀ db json, .encrypt id db json ∉ h) :
    Dict.get? (s.run c fuel h).ids id = Dict.get? s.ids id := by
  induction h generalizing s with
  | nil => rfl
  | cons e h ih =>
    have h1 : Dict.get? (s.step c fuel e).ids id = Dict.get? s.ids id := by
      cases e with
      | encrypt ms db json =>
        have : id ≠ ms := by rintro rfl; exact hn db json (by simp)
        simp only [Server.step, encryptSql2]
        split
        · rfl
        · split
          · rfl
          · exact Dict.get?_set_ne _ this _
      | create db t tm => rfl
      | drop db t =>
        simp only [Server.step]
        split <;> rfl
    rw [← h1]
    exact ih _ (fun db json hx => hn db json (by simp [hx]))

/-- The metadata of a database is touched only by CREATE and DROP in that database. -/
theorem dbOf_stable (c : Crypto) (fuel : Nat) (d : String) (h : List Ev) (s : Server) (hc : ∀ t tm, .create d t tm ∉ h) (hd : ∀ t, .drop d t ∉ h) :
    dbOf (s.run c fuel h) d = dbOf s d := by
  induction h generalizing s with
  | nil => rfl
  | cons e h ih =>
    have h1 : dbOf (s.step c fuel e) d = dbOf s d := by
      cases e with
      | encrypt ms db json =>
        simp only [Server.step, encryptSql2]
        split
        · rfl
        · split <;> rfl
      | create db t tm =>
        have : d ≠ db := by rintro rfl; exact hc t tm (by simp)
        simp only [Server.step, dbOf, Dict.get?_set_ne _ this]
      | drop db t =>
        have : d ≠ db := by rintro rfl; exact hd t (by simp)
        simp only [Server.step]
        split
        · rfl
        · simp only [dbOf, Dict.get?_set_ne _ this]
    rw [← h1]
    exact ih _ (fun t tm hx => hc t tm (by simp [hx])) (fun t hx => hd t (by simp [hx]))

/-- What a successful `encrypt_sql2` leaves behind. -/
theorem encrypted {c : Crypto} {fuel : Nat} {s s' : Server} {ms id : Nat} {db : String} {json json' : Dict String Json} {table : Json}
    (h : encryptSql2 c fuel s ms db json = (s', .ok (json', table, id))) :
    id = ms ∧ s'.dbs = s.dbs ∧ ∃ sel, rewriteQuery c (dbOf s db) fuel json = .ok (json', table, sel) ∧ Dict.get? s'.ids ms = some ⟨db, table, sel⟩ := by
  unfold encryptSql2 at h
  split at h
  · cases h
  · rename_i j t sel hr
    split at h
    · cases h
    · injection h with h1 h2
      injection h2 with h2
      injection h2 with h2 h3
      injection h3 with h3 h4
      subst h1; subst h2; subst h3; subst h4
      exact ⟨rfl, rfl, sel, hr, Dict.get?_set_self _ _ _⟩

/-- If no other statement is encrypted in the same millisecond and no table of the database is created or dropped, the id stands for its own query: the data are
decrypted with the columns, ciphers, table and keys that the query had when it was encrypted. -/
theorem C34_own_query_partial (c : Crypto) (fuel : Nat) (d : Decrypter) (s s' : Server) (ms id : Nat) (db : String) (json json' : Dict String Json) (table : Json)
    (he : encryptSql2 c fuel s ms db json = (s', .ok (json', table, id))) (h : List Ev) (hn : ∀ db json, .encrypt ms db json ∉ h)
    (hc : ∀ t tm, .create db t tm ∉ h) (hd : ∀ t, .drop db t ∉ h) (rows : List (List DbVal)) :
    ∃ sel, rewriteQuery c (dbOf s db) fuel json = .ok (json', table, sel) ∧
      decryptData d (s'.run c fuel h) id rows = reply sel.columns (decrypt1Rows d (dbOf s db) ⟨db, table, sel⟩ rows) := by
  obtain ⟨rfl, h2, sel, h3, h4⟩ := encrypted he
  refine ⟨sel, h3, ?_⟩
  have : dbOf s' db = dbOf s db := by rw [dbOf, dbOf, h2]
  simp only [decryptData, ids_stable c fuel id h s' hn, h4, dbOf_stable c fuel db h s' hc hd, this]

theorem decrypt1Row_texts (d : Decrypter) (db : Db) (e : Entry) (row : List DbVal) (h : ∀ v ∈ row, ∃ s, v = .text s) :
    decrypt1Row d db e row = decryptRow d.c d.homDec d.ev db e.table e.sel.columns e.sel.state row := by
  unfold decrypt1Row
  rw [if_pos]
  rw [List.all_eq_true]
  rintro ⟨a, b, v⟩ hm
  obtain ⟨s, rfl⟩ := h v (List.of_mem_zip (List.of_mem_zip hm).2).2
  rfl

/-- For rows of texts the answer is what the one-step interface answers. -/
theorem C34_like_one_step_partial (d : Decrypter) (db : Db) (e : Entry) (rows : List (List DbVal)) (h : ∀ r ∈ rows, ∀ v ∈ r, ∃ s, v = .text s) :
    decrypt1Rows d db e rows = rows.mapM fun r => decryptRow d.c d.homDec d.ev db e.table e.sel.columns e.sel.state r := by
  induction rows with
  | nil => rfl
  | cons r rs ih =>
    rw [decrypt1Rows, decrypt1Row_texts d db e r (h r (by simp)), List.mapM_cons, ih fun r hr => h r (by simp [hr])]
    cases decryptRow d.c d.homDec d.ev db e.table e.sel.columns e.sel.state r with
    | error => rfl
    | ok o =>
      simp only [bind, Except.bind]
      cases List.mapM (fun r => decryptRow d.c d.homDec d.ev db e.table e.sel.columns e.sel.state r) rs <;> rfl

/-- The property fails for any two statements encrypted in one millisecond: they get the same id, and it stands for the second. -/
theorem C34_fails_same_millisecond (c : Crypto) (fuel : Nat) (d : Decrypter) (s s₁ s₂ : Server) (ms i₁ i₂ : Nat) (db₁ db₂ : String)
    (q₁ q₂ q₁' q₂' : Dict String Json) (t₁ t₂ : Json) (h₁ : encryptSql2 c fuel s ms db₁ q₁ = (s₁, .ok (q₁', t₁, i₁)))
    (h₂ : encryptSql2 c fuel s₁ ms db₂ q₂ = (s₂, .ok (q₂', t₂, i₂))) (rows : List (List DbVal)) :
    i₁ = i₂ ∧ ∃ sel, rewriteQuery c (dbOf s db₂) fuel q₂ = .ok (q₂', t₂, sel) ∧
      decryptData d s₂ i₁ rows = reply sel.columns (decrypt1Rows d (dbOf s db₂) ⟨db₂, t₂, sel⟩ rows) := by
  obtain ⟨rfl, a2, _, _, _⟩ := encrypted h₁
  obtain ⟨rfl, b2, sel, b3, b4⟩ := encrypted h₂
  have e1 : dbOf s₁ db₂ = dbOf s db₂ := by rw [dbOf, dbOf, a2]
  have e2 : dbOf s₂ db₂ = dbOf s db₂ := by rw [dbOf, dbOf, b2, a2]
  rw [e1] at b3
  exact ⟨rfl, sel, b3, by simp only [decryptData, b4, e2]⟩

/-- It fails when the table is dropped in between: a value of an encrypted column is no longer decrypted, the answer is empty. -/
theorem C34_fails_dropped (c : Crypto) (fuel : Nat) (d : Decrypter) (s : Server) (id : Nat) (db t n : String) (ty : List String) (x : String) (md : Db)
    (he : Dict.get? s.ids id = some ⟨db, .str t, ⟨[n], ty, ["symmetric"]⟩⟩) (hd : Dict.get? s.dbs db = some md) (hn : '.' ∉ n.toList) :
    decryptData d (s.run c fuel [.drop db t]) id [[.text x]] = none := by
  have h1 : s.run c fuel [.drop db t] = { s with dbs := Dict.set s.dbs db (Dict.erase md t) } := by simp [Server.run, Server.step, hd]
  have h2 : splitDot n = [n] := by
    unfold splitDot
    rw [Text.split_word _ hn]; simp
  rw [h1]
  simp only [decryptData, he, dbOf, Dict.get?_set_self, Option.getD_some, decrypt1Rows]
  rw [decrypt1Row_texts _ _ _ _ (by simp)]
  simp [decryptRow, decryptVal, decCol, h2, tableOfJson, tableOf, Dict.getItem, reply]

/-- It fails when the table is dropped and created again with another key: the key of the new table is used. -/
theorem C34_fails_recreated (c : Crypto) (fuel : Nat) (d : Decrypter) (s : Server) (id : Nat) (db t n : String) (ty : List String) (x : String) (md : Db) (tm : TableMeta ColMeta) (cm : ColMeta)
    (he : Dict.get? s.ids id = some ⟨db, .str t, ⟨[n], ty, ["symmetric"]⟩⟩) (hd : Dict.get? s.dbs db = some md) (hn : '.' ∉ n.toList)
    (hc : Dict.get? tm.columns n = some cm) (ht : cm.type ∉ ["int", "float", "double"]) :
    decryptData d (s.run c fuel [.drop db t, .create db t tm]) id [[.text x]] = reply [n] ((d.c.symDec cm.key x).map fun y => [[.text y]]) := by
  have h1 : s.run c fuel [.drop db t, .create db t tm] = { s with dbs := Dict.set (Dict.set s.dbs db (Dict.erase md t)) db (Dict.set (Dict.erase md t) t tm) } := by
    simp [Server.run, Server.step, hd, dbOf]
  have h2 : splitDot n = [n] := by
    unfold splitDot
    rw [Text.split_word _ hn]; simp
  rw [h1]
  simp only [decryptData, he, dbOf, Dict.get?_set_self, Option.getD_some, decrypt1Rows]
  rw [decrypt1Row_texts _ _ _ _ (by simp)]
  simp only [decryptRow, decryptVal, decCol, h2, tableOfJson, tableOf, Dict.getItem, Dict.get?_set_self, hc]
  simp only [List.mem_cons, List.not_mem_nil, or_false, not_or] at ht
  cases d.c.symDec cm.key x <;> simp [Except.map, decodeVal, ht, reply]

/-- It fails for every answer with a NULL or a number in a selected column: nothing is decrypted at all. -/
theorem C34_fails_not_text (d : Decrypter) (s : Server) (id : Nat) (e : Entry) (he : Dict.get? s.ids id = some e) (rows : List (List DbVal)) (row : List DbVal) (hr : row ∈ rows)
    (col st : String) (v : DbVal) (hm : (col, st, v) ∈ e.sel.columns.zip (e.sel.state.zip row)) (hv : ∀ x, v ≠ .text x) : decryptData d s id rows = none := by
  have h1 : decrypt1Row d (dbOf s e.db) e row = .error .typeError := by
    unfold decrypt1Row
    rw [if_neg]
    intro h
    rw [List.all_eq_true] at h
    have := h _ hm
    cases v <;> simp_all
  have h2 : ∀ rows, row ∈ rows → ∃ x, decrypt1Rows d (dbOf s e.db) e rows = .error x := by
    intro rows
    induction rows with
    | nil => simp
    | cons r rs ih =>
      intro hr
      rw [decrypt1Rows]
      rcases List.mem_cons.1 hr with rfl | hr
      · exact ⟨_, by rw [h1]⟩
      · obtain ⟨x, hx⟩ := ih hr
        cases decrypt1Row d (dbOf s e.db) e r with
        | error y => exact ⟨y, rfl⟩
        | ok o => exact ⟨x, by rw [hx]⟩
  obtain ⟨x, hx⟩ := h2 rows hr
  simp only [decryptData, he, hx, reply]

/-- An id that was never returned is answered with nothing. -/
theorem C34_unknown_id (d : Decrypter) (s : Server) (id : Nat) (h : Dict.get? s.ids id = none) (rows : List (List DbVal)) : decryptData d s id rows = none := by
  simp only [decryptData, h]

/-- A full round trip: `SELECT n FROM t` is encrypted, other statements are encrypted at other times, and the ciphertext of a text is decrypted to that text. -/
theorem C34_round_trip_partial (c : Crypto) (fuel : Nat) (hom : Nat × Nat → DbVal → Except PyErr DbVal) (ev : String → Option OutVal) (s : Server) (ms : Nat) (db t n : String) (tm : TableMeta ColMeta)
    (cm : ColMeta) (md : Db) (hdb : Dict.get? s.dbs db = some md) (ht : Dict.get? md t = some tm) (hp : PlainTable t) (hr : Readable tm.columns n)
    (hc : Dict.get? tm.columns n = some cm) (hpl : cm.plaintext = false) (hty : cm.type ∉ ["int", "float", "double"]) :
    ∃ s' json', encryptSql2 c fuel s ms db (selectJson t [n]) = (s', .ok (json', .str t, ms)) ∧
      ∀ h, (∀ db json, .encrypt ms db json ∉ h) → (∀ t tm, .create db t tm ∉ h) → (∀ t, .drop db t ∉ h) →
        ∀ x : String, ¬ Aes.EndsInNul x.toList → ∃ y, c.sym cm.key x = .ok y ∧
          decryptData ⟨c, hom, ev⟩ (s'.run c fuel h) ms [[.text y]] = some ([n], [[.text x]]) := by
  have hmd : dbOf s db = md := by simp [dbOf, hdb]
  obtain ⟨json', h1, _, _⟩ := select_rewrite (c := c) (fuel := fuel) (ns := [n]) ht hp (by simpa using hr)
  have hpush : pushAll tm.columns {} [n] = ⟨[n], [cm.type], ["symmetric"]⟩ := by
    simp [pushAll, hc, Sel.push, readState, hpl]
  have he : encryptSql2 c fuel s ms db (selectJson t [n]) = ({ s with ids := Dict.set s.ids ms ⟨db, .str t, pushAll tm.columns {} [n]⟩ }, .ok (json', .str t, ms)) := by
    simp only [encryptSql2, hmd, h1, hdb]
  refine ⟨_, json', he, ?_⟩
  intro h hn hcr hdr x hx
  refine ⟨_, sym_eq c cm.key x, ?_⟩
  obtain ⟨sel, h3, h4⟩ := C34_own_query_partial c fuel ⟨c, hom, ev⟩ s _ ms ms db _ json' _ he h hn hcr hdr [[.text (String.ofList (Aes.ct (c.aes cm.key) x.toList))]]
  rw [hmd, h1] at h3
  injection h3 with h3
  injection h3 with _ h3
  injection h3 with _ h3
  subst h3
  rw [h4, hmd, hpush]
  simp only [decrypt1Rows]
  rw [decrypt1Row_texts _ _ _ _ (by simp)]
  have hsplit : splitDot n = [n] := by
    unfold splitDot
    rw [Text.split_word _ hr.dot]; simp
  have hd := symDec_ct c cm.key x.toList hx
  simp only [List.mem_cons, List.not_mem_nil, or_false, not_or] at hty
  simp [decryptRow, decryptVal, decCol, hsplit, tableOfJson, tableOf, Dict.getItem, ht, hc, hd, Except.map, decodeVal, hty, reply]

/-- The concrete table: the name of an employee, with a statement on another column encrypted a millisecond later; and both in one millisecond. -/
example : ∃ s' q, encryptSql2 demoCrypto 1 ⟨[("hr", demoDb)], []⟩ 5 "hr" (selectJson "emp" ["name"]) = (s', .ok (q, .str "emp", 5)) ∧
    ∃ y, demoCrypto.sym "k" "bob" = .ok y ∧
      decryptData ⟨demoCrypto, fun _ _ => .error .typeError, fun _ => none⟩ (s'.run demoCrypto 1 [.encrypt 6 "hr" (selectJson "emp" ["age"])]) 5 [[.text y]] =
        some (["name"], [[.text "bob"]]) := by
  obtain ⟨s', q, h1, h2⟩ := C34_round_trip_partial demoCrypto 1 (fun _ _ => .error .typeError) (fun _ => none) ⟨[("hr", demoDb)], []⟩ 5 "hr" "emp" "name" demoTable
    _ demoDb rfl rfl demo_plain (demo_readable _ (by decide)) rfl rfl (by decide)
  exact ⟨s', q, h1, h2 _ (by simp) (by simp) (by simp) "bob" (by simp [Aes.EndsInNul])⟩

example : ∃ s₁ s₂ q₁ q₂, encryptSql2 demoCrypto 1 ⟨[("hr", demoDb)], []⟩ 5 "hr" (selectJson "emp" ["name"]) = (s₁, .ok (q₁, .str "emp", 5)) ∧
    encryptSql2 demoCrypto 1 s₁ 5 "hr" (selectJson "emp" ["id"]) = (s₂, .ok (q₂, .str "emp", 5)) ∧
    ∀ d y, decryptData d s₂ 5 [[.text y]] = some (["id"], [[.text y]]) := by
  obtain ⟨q₁, h1, _, _⟩ := select_rewrite (c := demoCrypto) (fuel := 1) (ns := ["name"]) (db := demoDb) rfl demo_plain (by simpa using demo_readable "name" (by decide))
  obtain ⟨q₂, h2, _, _⟩ := select_rewrite (c := demoCrypto) (fuel := 1) (ns := ["id"]) (db := demoDb) rfl demo_plain (by simpa using demo_readable "id" (by decide))
  refine ⟨⟨[("hr", demoDb)], Dict.set [] 5 ⟨"hr", .str "emp", pushAll demoTable.columns {} ["name"]⟩⟩,
    ⟨[("hr", demoDb)], Dict.set (Dict.set [] 5 ⟨"hr", .str "emp", pushAll demoTable.columns {} ["name"]⟩) 5 ⟨"hr", .str "emp", pushAll demoTable.columns {} ["id"]⟩⟩,
    q₁, q₂, ?_, ?_, ?_⟩
  · simp only [encryptSql2, dbOf, Dict.get?_cons, if_true, Option.getD_some, h1]
  · simp only [encryptSql2, dbOf, Dict.get?_cons, if_true, Option.getD_some, h2]
  · intro d y
    simp only [decryptData, Dict.get?_set_self, decrypt1Rows]
    rw [decrypt1Row_texts _ _ _ _ (by simp)]
    simp [pushAll, demoTable, Dict.get?, Sel.push, readState, decryptRow, plainVal, reply]

end EulerDB.Web
