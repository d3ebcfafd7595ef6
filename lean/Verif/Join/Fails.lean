/-
C80: sessions with joins, a concrete case, and the joins that go wrong.
-/
import Verif.Join.Props
import Verif.Whole.Serve

namespace EulerDB.Join

open EulerDB EulerDB.Clause EulerDB.Delta EulerDB.Whole

/-! ### After a session -/

theorem no_dot {P : Writer} {res : List Char → Bool} {s : String} (h : Bare P res s) : '.' ∉ s.toList := by
  intro hm
  rcases h.chars _ hm with h | h
  · exact absurd h (by decide)
  · exact absurd h (by decide)

/-- What C71 asks of the proxy is enough. -/
theorem names_of_sound {P : Proxy} {res : List Char → Bool} (h : Sound P res) : Names P.db where
  tables := h.tables
  anon t tm ht := by
    have hb := (h.named t tm ht).table
    refine ⟨no_dot hb, fun e => hb.ne ?_⟩
    rw [e]
    rfl
  keys t tm ht := by
    have h1 := (List.nodup_flatMap.1 (h.names t tm ht)).2
    refine h1.imp_of_mem ?_
    intro a b ha hb hd e
    subst e
    obtain ⟨p, hp, rfl⟩ := List.mem_map.1 ha
    obtain ⟨cm, hc⟩ : ∃ cm, Dict.get? tm.columns p.1 = some cm := by
      cases hg : Dict.get? tm.columns p.1 with
      | some cm => exact ⟨cm, rfl⟩
      | none => exact absurd ha ((Dict.get?_eq_none_iff _ _).1 hg)
    have hne : targets tm.columns p.1 ≠ [] := by
      unfold targets
      rw [hc]
      by_cases hpl : cm.plaintext = true
      · simp [hpl]
      · have := h.stored t tm ht p.1 cm hc (by simpa using hpl)
        simpa [hpl] using this
    obtain ⟨x, hx⟩ := List.exists_mem_of_ne_nil _ hne
    exact hd hx hx
  cols t tm n cm b ht hc hb := by
    unfold readName at hb
    by_cases hp : cm.plaintext = true
    · rw [if_pos hp] at hb
      injection hb with hb
      subst hb
      exact no_dot ((h.named t tm ht).plain n cm hc hp)
    · rw [if_neg hp] at hb
      exact no_dot ((h.named t tm ht).enc n cm hc (by simpa using hp) _ _ (Dict.mem_of_get? hb))

/-- **C80, partial: a session and then a join.** The statements are sent as text through the proxy; the query over several tables that follows is answered
from what they stored as a database without encryption would answer it. -/
theorem C80_session_partial {P : Proxy} {res : List Char → Bool} (hP : Sound P res) {pst : PTables} {bst : Tables} (hR : Rel P pst bst) {sqls : List (List Char)}
    {us : List UStmt} (hs : List.Forall₂ (Says P.env P.space) sqls us) (hf : ∀ u ∈ us, Whole.Fine P.db u) {q : Query} (hq : Fine P.db q) :
    ∃ bst' json table s rows, P.session res bst sqls = some (bst', (psession pst us).2) ∧ rewriteQuery P.c P.db P.fuel q.json = .ok (json, table, s) ∧
      runJoin bst' json = some rows ∧ P.answer table s rows = .ok (q.answer P.db (psession pst us).1) := by
  obtain ⟨bst', h1, h2⟩ := C71_session_partial hP hR hs hf
  obtain ⟨json, table, s, rows, h3, h4, h5⟩ := C80_join_partial (names_of_sound hP) h2 hq
  exact ⟨bst', json, table, s, rows, h1, h3, h4, h5⟩

/-! ### Columns that cannot be compared -/

/-- **C80 fails** for columns under different keys: two rows with the same value in both columns are not joined (unless the ciphertexts are the same). -/
theorem C80_fails_keys {c : Crypto} {db : Db} (hn : Names db) {ts : List String} {e : Env PRow} {e' : Env Row} (h : EnvRel c db ts e e') {a b : Ref} {tm tm' : TableMeta ColMeta}
    {cm cm' : ColMeta} {x x' : String} (ha : Known db a tm cm x) (hb : Known db b tm' cm' x') (ha' : a.1 ∈ ts) (hb' : b.1 ∈ ts) (hp : cm.plaintext = false)
    (hp' : cm'.plaintext = false) {v : Val} (hv : valueOf e a = some v) (hw : valueOf e b = some v)
    (hk : Aes.ct (c.aes cm.key) v.str ≠ Aes.ct (c.aes cm'.key) v.str) :
    (On.eq a b).truth e = some true ∧ truthJ e' ((On.eq a b).sent db) = some (some false) := by
  obtain ⟨y, hy, fy⟩ := look_found hn h ha' ha
  obtain ⟨z, hz, fz⟩ := look_found hn h hb' hb
  rw [hv] at fy
  rw [hw] at fz
  obtain ⟨_, rfl⟩ := fy
  obtain ⟨_, rfl⟩ := fz
  refine ⟨by simp [On.truth, hv, hw, eqVal], ?_⟩
  simp (decide := true) only [On.sent, truthJ, truthD, truthO, if_false, if_true, hy, hz, hp, hp', Bool.false_eq_true]
  simp [eq3, dbEq, ofList_inj, hk]

theorem utf8_length : ∀ s : List Char, s.length ≤ (Aes.utf8 s).length
  | [] => Nat.zero_le _
  | ch :: s => by
    have h := utf8_length s
    have h1 : 1 ≤ (String.utf8EncodeChar ch).length := by
      rw [String.length_utf8EncodeChar]
      exact Char.utf8Size_pos ch
    have e : (Aes.utf8 (ch :: s)).length = (String.utf8EncodeChar ch).length + (Aes.utf8 s).length := by simp [Aes.utf8]
    rw [e, List.length_cons]
    omega

/-- No text but the empty one is its own ciphertext. -/
theorem ct_ne (A : Aes.Block) {s : List Char} (h : s ≠ []) : Aes.ct A s ≠ s := by
  intro e
  have h1 := congrArg List.length e
  rw [Aes.ct_length, Aes.blocks] at h1
  have h2 := utf8_length s
  have h3 := List.length_pos_iff.2 h
  omega

/-- **C80 fails** for a plaintext column and an encrypted one: rows with the same (non-empty) text in both columns are never joined. -/
theorem C80_fails_mixed {c : Crypto} {db : Db} (hn : Names db) {ts : List String} {e : Env PRow} {e' : Env Row} (h : EnvRel c db ts e e') {a b : Ref} {tm tm' : TableMeta ColMeta}
    {cm cm' : ColMeta} {x x' : String} (ha : Known db a tm cm x) (hb : Known db b tm' cm' x') (ha' : a.1 ∈ ts) (hb' : b.1 ∈ ts) (hp : cm.plaintext = true)
    (hp' : cm'.plaintext = false) {s : String} (hs : s.toList ≠ []) (hv : valueOf e a = some (.text s)) (hw : valueOf e b = some (.text s)) :
    (On.eq a b).truth e = some true ∧ truthJ e' ((On.eq a b).sent db) = some (some false) := by
  obtain ⟨y, hy, fy⟩ := look_found hn h ha' ha
  obtain ⟨z, hz, fz⟩ := look_found hn h hb' hb
  rw [hv] at fy
  rw [hw] at fz
  obtain ⟨_, rfl⟩ := fy
  obtain ⟨_, rfl⟩ := fz
  refine ⟨by simp [On.truth, hv, hw, eqVal], ?_⟩
  have hne : s ≠ String.ofList (Aes.ct (c.aes cm'.key) s.toList) := fun e => ct_ne (c.aes cm'.key) hs (by
    have := congrArg String.toList e
    rw [String.toList_ofList] at this
    exact this.symm)
  simp (decide := true) only [On.sent, truthJ, truthD, truthO, if_false, if_true, hy, hz, hp, hp', Bool.false_eq_true]
  simp [eq3, dbEq, Val.db, Val.str, hne]

/-! ### Statements that raise -/

/-- A clause after FROM that raises. -/
theorem clause_raises {c : Crypto} {db : Db} (hn : Names db) {q : Query} (h : Fine db q) (hw : q.cond = none) (fuel : Nat) {k : String} (hk : k = "where" ∨ k = "orderby")
    {v : Json} {er : PyErr} (he : ∀ s, stepKey c db q.from none k v s = .error er) : rewriteQuery c db fuel (q.json ++ [(k, v)]) = .error er := by
  have hf := fun s => from_rewritten (c := c) h (rewriteClause c db fuel) s
  obtain ⟨sel, hsel⟩ : ∃ sel, sel = q.cols db := ⟨_, rfl⟩
  have hc : selRw db q.from "symmetric" {} q.select = .ok (sel, pushRefs db {} (q.refs db)) := by
    cases hi : q.items with
    | none =>
      have := star_rewritten hn h hi
      simp only [Query.select, Query.cols, hi] at hsel ⊢
      rw [this, hsel]
    | some l =>
      have := items_rewritten h hi
      simp only [Query.select, Query.cols, hi] at hsel ⊢
      rw [this, hsel]
  obtain ⟨fr, hfr⟩ : ∃ fr, fr = q.from := ⟨_, rfl⟩
  have hj : q.json = [("select", q.select), ("from", fr)] := by simp [Query.json, hw, hfr]
  rw [hj]
  rw [← hfr] at hc hf he
  have hst : ∀ s, stepKey c db fr none "select" q.select s = selRw db fr "symmetric" s q.select := fun s => by simp [stepKey]
  rcases hk with rfl | rfl <;>
    simp (decide := true) [rewriteQuery, findTable, tableKeys, Dict.get?_cons, clauseKeys, clauseLoop, hst, Dict.set, Dict.get?, hc, hf, he]

/-- **C80 fails** for conditions on a value: a join with `WHERE t.c = literal` raises. -/
theorem C80_fails_literal {c : Crypto} {db : Db} (hn : Names db) {q : Query} (h : Fine db q) (hw : q.cond = none) (fuel : Nat) {a : Ref} (h1 : '.' ∉ a.1.toList)
    (h2 : '.' ∉ a.2.toList) (v : Val) :
    rewriteQuery c db fuel (q.json ++ [("where", .dict [("eq", .list [.str (dotted a), v.rhs])])]) = .error .attributeError := by
  refine clause_raises hn h hw fuel (.inl rfl) fun s => ?_
  have e1 : splitTableCol (.str (dotted a)) = .ok (a.1, a.2) := splitTableCol_dot h1 h2
  have e2 : splitTableCol v.rhs = .error .attributeError := by cases v <;> rfl
  have e3 : whereCols db q.from = none := rfl
  simp (decide := true) [stepKey, whereRw, whereDict, e3, joinEq, e1, e2]

/-- **C80 fails** for ranges and LIKE: they raise. -/
theorem C80_fails_range {c : Crypto} {db : Db} (hn : Names db) {q : Query} (h : Fine db q) (hw : q.cond = none) (fuel : Nat) {k : String} (hk : k ∈ ["gt", "lt", "gte", "lte", "like"])
    (a b : Json) : rewriteQuery c db fuel (q.json ++ [("where", .dict [(k, .list [a, b])])]) = .error .typeError := by
  refine clause_raises hn h hw fuel (.inl rfl) fun s => ?_
  have e3 : whereCols db q.from = none := rfl
  simp only [List.mem_cons, List.not_mem_nil, or_false] at hk
  rcases hk with rfl | rfl | rfl | rfl | rfl <;> simp (decide := true) [stepKey, whereRw, whereDict, e3, condCol]

/-- **C80 fails** for ORDER BY: it raises. -/
theorem C80_fails_order {c : Crypto} {db : Db} (hn : Names db) {q : Query} (h : Fine db q) (hw : q.cond = none) (fuel : Nat) (v : Json) :
    rewriteQuery c db fuel (q.json ++ [("orderby", v)]) = .error .typeError := by
  refine clause_raises hn h hw fuel (.inr rfl) fun s => ?_
  have e3 : tableOfJson db q.from = .error .typeError := rfl
  simp (decide := true) [stepKey, orderRw, e3]

/-- **C80 fails** for `SELECT *` with an INNER JOIN of a table in whose name "join" occurs: it raises. -/
theorem C80_fails_star_name {db : Db} {t t' : String} {tm tm' : TableMeta ColMeta} (ht : Dict.get? db t = some tm) (ht' : Dict.get? db t' = some tm')
    (hj : pyIn "join" (.str t') = true) (h0 : tm'.columns ≠ []) (hr : ∀ a ∈ starOf db t, ∃ tm cm b, Known db a tm cm b) (hn : Names db) (o : On) :
    selRw db (.list [.str t, .dict [("inner join", .str t'), ("on", o.json)]]) "symmetric" {} (.str "*") = .error .typeError := by
  have h1 := star_tables hn (l := [(.str t, t)]) (by simp) (by simpa using ⟨tm, ht⟩) (by simpa using hr) {}
  have t1 : tableOf db t = .ok tm := getItem_ok.2 ht
  have t2 : tableOf db t' = .ok tm' := getItem_ok.2 ht'
  have hd : descend joinList (.dict [("inner join", .str t'), ("on", o.json)]) = .error .typeError := by
    have := @in_step t' o.json
    simp (decide := true) [joinList, descend, this, pyItem, Dict.getItem, Dict.get?, hj]
  have hp : starPrefix db true t' (.dict [("inner join", .str t'), ("on", o.json)]) = .error .typeError := by simp [starPrefix, hd]
  have hn' : getNest [("inner join", .str t'), ("on", o.json)] = .str t' := by simp (decide := true) [getNest, getTableDict, getTable]
  have hs : ∀ s, starCols db true t' (.dict [("inner join", .str t'), ("on", o.json)]) "symmetric" tm'.columns s = .error .typeError := by
    intro s
    cases hcs : tm'.columns with
    | nil => exact absurd hcs h0
    | cons p d => simp [starCols, hp]
  rw [selRw, if_pos rfl]
  unfold selStar
  have hl : (decide (([.str t, .dict [("inner join", .str t'), ("on", o.json)]] : List Json).length > 1)) = true := rfl
  dsimp only
  rw [hl]
  rw [List.map_cons, List.map_nil, starTables] at h1
  rw [starTables]
  simp only [t1] at h1 ⊢
  cases hc : starCols db true t (.str t) "symmetric" tm.columns {} with
  | error e => simp [hc] at h1
  | ok r => simp [starTables, hn', t2, hs]

/-! ### USING -/

/-- **C80 fails** for USING: the columns are dropped.  JOIN and INNER JOIN then give every pair of rows; MySQL refuses outer joins without ON. -/
theorem C80_fails_using {c : Crypto} {db : Db} {t t' : String} {tm tm' : TableMeta ColMeta} (ht : Dict.get? db t = some tm) (ht' : Dict.get? db t' = some tm') (k : Kind) (u : Json) :
    ∃ j, fromRw c db (.list [.str t, .dict [(k.key, .str t'), ("using", u)]]) = .ok j ∧ ∀ {bst : Tables} {rows rows' : List Row},
      Dict.get? bst tm.anonymous = some rows → Dict.get? bst tm'.anonymous = some rows' → tm'.anonymous ≠ tm.anonymous →
      fromRows bst j = if k = .join ∨ k = .inner then some (rows.flatMap fun r => rows'.map fun r' => [(tm.anonymous, some r), (tm'.anonymous, some r')]) else none := by
  have t1 : tableOf db t = .ok tm := getItem_ok.2 ht
  have h1 := C31_fails_using_dropped c db k.key t' tm' u k.key_mem ht'
  refine ⟨.list [.str tm.anonymous, .dict [(k.key, .str tm'.anonymous)]], ?_, ?_⟩
  · have h0 : fromItem c db (.str t) = .ok (.str tm.anonymous) := by simp [fromItem, t1, Except.map]
    simp [fromRw, fromList, h1, h0, Except.map]
  · intro bst rows rows' hr hr' hne
    have hf : ∀ p : Row → Env Row, (rows'.map p).filter (fun _ => true) = rows'.map p := fun p => List.filter_eq_self.2 fun _ _ => rfl
    have hk : keeps none = fun _ => true := rfl
    have hd : ∀ e, defined none e = true := fun _ => rfl
    cases k <;> simp (decide := true) [fromRows, hr, isStr, bjoin, stepOf, Kind.key, hr', hne, hd, joinStep, hk, List.flatMap_map]

/-! ### A concrete case -/

def empTable : TableMeta ColMeta :=
  ⟨"t_1", [("id", ⟨true, "int", "", [], none, none, none⟩), ("dept", ⟨false, "varchar(20)", "k", [("symmetric", "dept_s")], none, none, none⟩)], none⟩

def deptTable : TableMeta ColMeta :=
  ⟨"t_2", [("name", ⟨false, "varchar(20)", "k", [("symmetric", "name_s")], none, none, none⟩), ("floor", ⟨true, "int", "", [], none, none, none⟩)], none⟩

def officeDb : Db := [("emp", empTable), ("dept", deptTable)]

theorem office_get {t : String} {tm : TableMeta ColMeta} (h : Dict.get? officeDb t = some tm) : t = "emp" ∧ tm = empTable ∨ t = "dept" ∧ tm = deptTable := by
  have := Dict.mem_of_get? h
  simpa [officeDb] using this

theorem office_names : Names officeDb where
  tables t t' tm tm' h h' he := by
    rcases office_get h with ⟨rfl, rfl⟩ | ⟨rfl, rfl⟩ <;> rcases office_get h' with ⟨rfl, rfl⟩ | ⟨rfl, rfl⟩ <;> first | rfl | exact absurd he (by decide)
  anon t tm h := by rcases office_get h with ⟨rfl, rfl⟩ | ⟨rfl, rfl⟩ <;> exact ⟨by decide, by decide⟩
  keys t tm h := by rcases office_get h with ⟨rfl, rfl⟩ | ⟨rfl, rfl⟩ <;> decide
  cols t tm n cm b h hc hb := by
    have := Dict.mem_of_get? hc
    rcases office_get h with ⟨rfl, rfl⟩ | ⟨rfl, rfl⟩
    · simp only [empTable, List.mem_cons, Prod.mk.injEq, List.not_mem_nil, or_false] at this
      rcases this with ⟨rfl, rfl⟩ | ⟨rfl, rfl⟩ <;> (injection hb with hb; subst hb; decide)
    · simp only [deptTable, List.mem_cons, Prod.mk.injEq, List.not_mem_nil, or_false] at this
      rcases this with ⟨rfl, rfl⟩ | ⟨rfl, rfl⟩ <;> (injection hb with hb; subst hb; decide)

/-- `SELECT * FROM emp LEFT JOIN dept ON emp.dept = dept.name`. -/
def officeQuery : Query := ⟨none, "emp", [⟨"dept", some (.left, .eq ("emp", "dept") ("dept", "name"))⟩], none⟩

theorem office_known : ∀ a ∈ officeQuery.refs officeDb, a.1 ∈ officeQuery.tables ∧ ∃ tm cm b, Known officeDb a tm cm b := by
  have e : officeQuery.refs officeDb = [("emp", "id"), ("emp", "dept"), ("dept", "name"), ("dept", "floor")] := rfl
  rw [e]
  intro a ha
  simp only [List.mem_cons, List.not_mem_nil, or_false] at ha
  rcases ha with rfl | rfl | rfl | rfl <;> exact ⟨by decide, _, _, _, ⟨rfl, rfl, rfl, by decide, by decide⟩⟩

theorem office_fine : Fine officeDb officeQuery where
  more := by simp [officeQuery]
  known t ht := by
    have e : officeQuery.tables = ["emp", "dept"] := rfl
    rw [e] at ht
    simp only [List.mem_cons, List.not_mem_nil, or_false] at ht
    rcases ht with rfl | rfl
    · exact ⟨empTable, rfl⟩
    · exact ⟨deptTable, rfl⟩
  once := by decide
  dots := by decide
  plain := ⟨by simp [PlainTable, officeQuery, pyIn, isSub, List.isPrefixOf], by simp [officeQuery]⟩
  uniform := .inr (by simp [officeQuery])
  steps := by
    refine ⟨fun k c h => ?_, trivial⟩
    have h : some (Kind.left, On.eq ("emp", "dept") ("dept", "name")) = some (k, c) := h
    injection h with h
    injection h with h1 h2
    subst h1
    subst h2
    exact ⟨by simp [officeQuery], by simp [officeQuery], _, _, _, _, _, _, ⟨rfl, rfl, rfl, by decide, by decide⟩, ⟨rfl, rfl, rfl, by decide, by decide⟩,
      .inr ⟨rfl, rfl, rfl⟩, by simp⟩
  cond := by simp [officeQuery]
  refs := office_known
  odd t ht := by
    have e : officeQuery.tables = ["emp", "dept"] := rfl
    rw [e] at ht
    simp only [List.mem_cons, List.not_mem_nil, or_false] at ht
    intro w hw
    simp only [List.mem_cons, List.not_mem_nil, or_false] at hw
    rcases ht with rfl | rfl <;> rcases hw with rfl | rfl | rfl <;> simp [pyIn, isSub, List.isPrefixOf]
  star _ s hs := by
    have : s = ⟨"dept", some (.left, .eq ("emp", "dept") ("dept", "name"))⟩ := by simpa [officeQuery] using hs
    subst this
    intro h
    exact absurd h (by decide)

def officeRows : PTables :=
  [("emp", [[("id", .int 1), ("dept", .text "law")], [("id", .int 2), ("dept", .text "art")]]), ("dept", [[("name", .text "law"), ("floor", .int 3)]])]

/-- Two rows; nobody is found for the second. -/
example : officeQuery.answer officeDb officeRows = [[.int 1, .text "law", .text "law", .int 3], [.int 2, .text "art", .null, .null]] := by decide +kernel

/-- The proxy gives this answer, whenever the backend holds the rows. -/
example (P : Proxy) (hdb : P.db = officeDb) (bst : Tables) (hr : Rel P officeRows bst) : ∃ json table s rows,
    rewriteQuery P.c P.db P.fuel officeQuery.json = .ok (json, table, s) ∧ runJoin bst json = some rows ∧
      P.answer table s rows = .ok [[.int 1, .text "law", .text "law", .int 3], [.int 2, .text "art", .null, .null]] := by
  have h := C80_join_partial (P := P) (hdb ▸ office_names) hr (q := officeQuery) (hdb ▸ office_fine)
  have e : officeQuery.answer P.db officeRows = [[.int 1, .text "law", .text "law", .int 3], [.int 2, .text "art", .null, .null]] := by rw [hdb]; decide +kernel
  rwa [e] at h

example : pyIn "join" (.str "joins") = true := by simp [pyIn, isSub, List.isPrefixOf]

end EulerDB.Join
