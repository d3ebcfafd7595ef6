/-
Tables that cannot be created, or not as declared (C84).
-/
import Verif.Create.Session
import Verif.Whole.Examples

namespace EulerDB.Create

open EulerDB EulerDB.Table EulerDB.Delta EulerDB.Whole EulerDB.Clause

/-! ### Created again -/

/-- A table that exists, created again, even with IF NOT EXISTS: the proxy records a new, empty table under the old name, and the rows are not found any more. -/
theorem C84_fails_again {P : Proxy} {B : Back} {k : Client} {w : World} (h : Inv P B k w) {sql s n : List Char} {cols : List Col} {opts : Dict String EncOpt} {env : Table.Env}
    (ht : Sql.Trimmed P.space sql s) (hs : SpCreate s n cols) (hr : Roomy B.width ⟨cols, opts⟩) (hf : Fresh P.w B.res env ⟨cols, opts⟩)
    (ha : env.anon ∉ Dict.keys w.store.cols) :
    ∃ w', serve P B w (.create sql opts env) = some (w', []) ∧ Dict.get? w'.db (Sql.strOf n) = some (tableOf env opts cols) ∧
      ∀ {q : List Char} {ns : List String} {c : Option Cond}, Says P.env P.space q (.select (Sql.strOf n) ns c) → Fine w'.db (.select (Sql.strOf n) ns c) →
        ∃ bst', (at_ P w').serve B.res w'.store.rows q = some (bst', []) := by
  obtain ⟨h1, h2⟩ := create_sound h (Sql.strOf n) hr hf ha
  refine ⟨_, serve_create ht hs hr hf ha, Dict.get?_set_self _ _ _, fun hq hfine => ?_⟩
  obtain ⟨bst', h3, _⟩ := serve_says h1 h2 hq hfine
  refine ⟨bst', h3.trans ?_⟩
  simp [pexec, Dict.get?_set_self]

/-! ### Refused -/

theorem create_refused {P : Proxy} {B : Back} {w : World} {sql s n : List Char} {cols : List Col} {opts : Dict String EncOpt} {env : Table.Env}
    (ht : Sql.Trimmed P.space sql s) (hs : SpCreate s n cols) (hg : ∀ c ∈ cols, Good opts c) (hn : (cols.map Col.name).Nodup) (h0 : cols ≠ [])
    (hf : Fresh P.w B.res env ⟨cols, opts⟩) (ha : env.anon ∉ Dict.keys w.store.cols) (hl : legal B.width ((outsAll env opts 0 cols).map mcol) = false) :
    serve P B w (.create sql opts env) = none := by
  obtain ⟨r, h1, h2, h3⟩ := rewriteCreate_good (t := Sql.strOf n) env hg hn
  have h4 := read_create (P := P.w) (res := B.res) (env := env) (outsAll_ne env opts 0 h0) hf.anon
    fun o ho => ⟨hf.bare o ho, outsAll_known env 0 hg o ho⟩
  have h5 : Dict.get? w.store.cols env.anon = none := (Dict.get?_eq_none_iff _ _).2 ha
  rw [serve, C84_read_partial P.space ht hs]
  simp only
  rw [h1]
  simp only [h2, h3]
  rw [h4]
  simp [Store.create, h5, hl]

/-- A table whose encrypted columns take more bytes than a row may have is refused. -/
theorem C84_fails_size {P : Proxy} {B : Back} {w : World} {sql s n : List Char} {cols : List Col} {opts : Dict String EncOpt} {env : Table.Env}
    (ht : Sql.Trimmed P.space sql s) (hs : SpCreate s n cols) (hg : ∀ c ∈ cols, Good opts c) (hn : (cols.map Col.name).Nodup) (h0 : cols ≠ [])
    (hf : Fresh P.w B.res env ⟨cols, opts⟩) (ha : env.anon ∉ Dict.keys w.store.cols)
    (hb : 65535 < ((Decl.types ⟨cols, opts⟩).map (MType.bytes B.width)).sum) : serve P B w (.create sql opts env) = none := by
  refine create_refused ht hs hg hn h0 hf ha ?_
  have h1 := types_eq env ⟨cols, opts⟩
  rw [h1, List.map_map] at hb
  have : ¬ (((outsAll env opts 0 cols).map mcol).map fun c => c.type.bytes B.width).sum ≤ 65535 := by
    rw [List.map_map]
    exact Nat.not_le.2 hb
  rw [legal, decide_eq_false this]
  simp

/-- Columns that can be searched take 2000 characters each. -/
theorem fuzzy_bytes (w : Nat) (opts : Dict String EncOpt) (env : Table.Env) : ∀ (i : Nat) (cols : List Col),
    (cols.countP fun c => match Dict.get? opts c.name with | some o => o.fuzzy | none => false) * (w * 2000) ≤
      ((outsAll env opts i cols).map fun o => (mtypeOf o).bytes w).sum
  | _, [] => by simp
  | i, c :: r => by
    have ih := fuzzy_bytes w opts env (i + taken opts c) r
    rw [outsAll, List.map_append, List.sum_append, List.countP_cons]
    cases ho : Dict.get? opts c.name with
    | none => simp only [Bool.false_eq_true, if_false, Nat.add_zero]; omega
    | some o =>
      cases hz : o.fuzzy with
      | false => simp only [hz, Bool.false_eq_true, if_false, Nat.add_zero]; omega
      | true =>
        simp only [hz, if_true, Nat.add_mul, Nat.one_mul]
        have : w * 2000 ≤ ((outs env opts i c).map fun o => (mtypeOf o).bytes w).sum := by
          have hm : ∃ x ∈ outs env opts i c, (mtypeOf x).bytes w ≥ w * 2000 := by
            unfold outs
            rw [ho]
            have hk : "fuzzy" ∈ ciphers c o := by simp [ciphers, hz]
            obtain ⟨j, hj, hx⟩ := List.mem_iff_getElem.1 hk
            refine ⟨_, List.mem_map.2 ⟨("fuzzy", i + j), ?_, rfl⟩, ?_⟩
            · exact List.mem_zipIdx_iff_le_and_getElem?_sub.2 ⟨by simp, by simpa using List.getElem?_eq_some_iff.2 ⟨hj, hx⟩⟩
            · have : mtypeOf ⟨env.names (i + j), (cipherType c "fuzzy").1, (cipherType c "fuzzy").2, c.opts.nullable, c.opts.pk && "fuzzy" == "symmetric"⟩ = .chars false 2000 := by
                refine (mtypeOf_eq (cipherType_some _ c "fuzzy" rfl rfl)).trans ?_
                simp
              rw [this, MType.bytes]
              omega
          obtain ⟨x, hx, hle⟩ := hm
          exact Nat.le_trans hle (List.le_sum_of_mem (List.mem_map.2 ⟨x, hx, rfl⟩))
        omega

/-- With characters of four bytes no table may have more than eight columns that can be searched. -/
theorem C84_fails_fuzzy {P : Proxy} {B : Back} {w : World} {sql s n : List Char} {cols : List Col} {opts : Dict String EncOpt} {env : Table.Env}
    (ht : Sql.Trimmed P.space sql s) (hs : SpCreate s n cols) (hg : ∀ c ∈ cols, Good opts c) (hn : (cols.map Col.name).Nodup)
    (hf : Fresh P.w B.res env ⟨cols, opts⟩) (ha : env.anon ∉ Dict.keys w.store.cols) (hw : B.width = 4)
    (hz : 8 < cols.countP fun c => match Dict.get? opts c.name with | some o => o.fuzzy | none => false) : serve P B w (.create sql opts env) = none := by
  refine C84_fails_size ht hs hg hn ?_ hf ha ?_
  · rintro rfl
    simp at hz
  · have h1 := fuzzy_bytes B.width opts env 0 cols
    have h2 := types_eq env ⟨cols, opts⟩
    rw [h2, List.map_map]
    refine Nat.lt_of_lt_of_le ?_ h1
    rw [hw]
    omega

/-- A primary key whose ciphertext is too long for an index is refused. -/
theorem C84_fails_key {P : Proxy} {B : Back} {w : World} {sql s n : List Char} {cols : List Col} {opts : Dict String EncOpt} {env : Table.Env}
    (ht : Sql.Trimmed P.space sql s) (hs : SpCreate s n cols) (hg : ∀ c ∈ cols, Good opts c) (hn : (cols.map Col.name).Nodup) (h0 : cols ≠ [])
    (hf : Fresh P.w B.res env ⟨cols, opts⟩) (ha : env.anon ∉ Dict.keys w.store.cols) {ty : MType} (hy : ty ∈ Decl.keyTypes ⟨cols, opts⟩)
    (hb : 3072 < ty.keyBytes B.width) : serve P B w (.create sql opts env) = none := by
  refine create_refused ht hs hg hn h0 hf ha ?_
  rw [keyTypes_eq env] at hy
  obtain ⟨o, ho, rfl⟩ := List.mem_map.1 hy
  obtain ⟨h1, h2⟩ := List.mem_filter.1 ho
  have : ((outsAll env opts 0 cols).map mcol).all (fun c => !c.pk || decide (c.type.keyBytes B.width ≤ 3072)) = false := by
    rw [List.all_eq_false]
    refine ⟨mcol o, List.mem_map.2 ⟨o, h1, rfl⟩, ?_⟩
    have h3 : (mcol o).pk = true := h2
    have h4 : (mcol o).type = mtypeOf o := rfl
    simp [h3, h4, Nat.not_le.2 hb]
  simp [legal, this]

/-- VARCHAR(600) may be a primary key (2400 bytes), but not if it is encrypted. -/
example : (MType.chars false 600).keyBytes 4 ≤ 3072 ∧
    ∃ ty ∈ Decl.keyTypes ⟨[⟨"a", "varchar", .num 600, false, { pk := true }⟩], [("a", ⟨"k", false, false, none, false, ""⟩)]⟩, 3072 < ty.keyBytes 4 :=
  by decide +kernel

theorem rewriteCols_refused {env : Table.Env} {opts : Dict String EncOpt} {c : ColDef} (h : ∀ i, ∃ e, rewriteCol env opts i c = .error e) : ∀ {cols : List ColDef},
    c ∈ cols → ∀ i bs kv, ∃ e, rewriteCols env opts i cols bs kv = .error e
  | [], hc, _, _, _ => by simp at hc
  | x :: r, hc, i, bs, kv => by
    rw [rewriteCols]
    rcases List.mem_cons.1 hc with rfl | hr
    · obtain ⟨e, he⟩ := h i
      rw [he]
      exact ⟨e, rfl⟩
    · cases hx : rewriteCol env opts i x with
      | error e => exact ⟨e, rfl⟩
      | ok v => exact rewriteCols_refused h hr _ _ _

/-- An encrypted integer column with a display width, such as INT(11), is refused. -/
theorem C84_fails_width {env : Table.Env} {opts : Dict String EncOpt} {t : String} {cols : List Col} {c : Col} {n : Nat} (hc : c ∈ cols) (hty : c.type = "int")
    (hn : c.arg = .num (n + 1)) (ho : (Dict.get? opts c.name).isSome = true) : ∃ e, rewriteCreate env opts t cols = .error e := by
  unfold rewriteCreate
  split
  · exact ⟨_, rfl⟩
  · split
    · exact ⟨_, rfl⟩
    · obtain ⟨o, ho⟩ := Option.isSome_iff_exists.1 ho
      have : ∀ i, ∃ e, rewriteCol env opts i c.def_ = .error e := by
        intro i
        have h1 : Dict.get? opts c.def_.name = some o := ho
        have h2 : c.def_.typeName = "int" := hty
        have h3 : c.def_.typeArg = .num (n + 1) := hn
        have h4 : elementType (upper "int") = some [("order-preserving", .fixed "BIGINT"), ("symmetric", .fixed "VARCHAR(300)")] := by decide +kernel
        rw [rewriteCol, h1]
        simp only [cipherCols, h2, h4, elemCols, encColType, h3]
        exact ⟨_, rfl⟩
      obtain ⟨e, he⟩ := rewriteCols_refused this (List.mem_map.2 ⟨c, hc, rfl⟩) 0 [] []
      exact ⟨e, by rw [rewriteTable]; simp only [he]⟩

/-- An encrypted column with a type outside INT, VARCHAR, CHAR, FLOAT and DOUBLE is refused. -/
theorem C84_fails_type {env : Table.Env} {opts : Dict String EncOpt} {t : String} {cols : List Col} {c : Col} (hc : c ∈ cols) (hty : elementType (upper c.type) = none)
    (ho : (Dict.get? opts c.name).isSome = true) : ∃ e, rewriteCreate env opts t cols = .error e := by
  unfold rewriteCreate
  split
  · exact ⟨_, rfl⟩
  · split
    · exact ⟨_, rfl⟩
    · obtain ⟨o, ho⟩ := Option.isSome_iff_exists.1 ho
      have : ∀ i, ∃ e, rewriteCol env opts i c.def_ = .error e := by
        intro i
        have h1 : Dict.get? opts c.def_.name = some o := ho
        have h2 : elementType (upper c.def_.typeName) = none := hty
        rw [rewriteCol, h1]
        simp only [cipherCols, h2]
        exact ⟨_, rfl⟩
      obtain ⟨e, he⟩ := rewriteCols_refused this (List.mem_map.2 ⟨c, hc, rfl⟩) 0 [] []
      exact ⟨e, by rw [rewriteTable]; simp only [he]⟩

/-- BIGINT and TEXT, for example. -/
example : (∃ t ∈ types, t.1 = "bigint") ∧ (∃ t ∈ types, t.1 = "text") ∧ elementType (upper "bigint") = none ∧ elementType (upper "text") = none := by
  decide +kernel

/-- An encrypted column with UNSIGNED is refused. -/
theorem C84_fails_unsigned {env : Table.Env} {opts : Dict String EncOpt} {t : String} {cols : List Col} {c : Col} (hc : c ∈ cols) (hu : c.unsigned = true)
    (ho : (Dict.get? opts c.name).isSome = true) : rewriteCreate env opts t cols = .error .attributeError := by
  rw [rewriteCreate, if_pos]
  rw [List.any_eq_true]
  exact ⟨c, hc, by simp [hu, ho]⟩

/-- A column with UNSIGNED that is not encrypted is written twice, first with a type that does not exist. -/
theorem C84_fails_twice (c : Col) : ∃ x y, unsignedTexts c = [c.name ++ (" unsigned(True)" ++ x), c.name ++ (" " ++ y)] :=
  ⟨nullText c.def_ ++ pkText c.def_, (if c.arg.truthy then c.type ++ "(" ++ c.arg.str ++ ")" else c.type) ++ (nullText c.def_ ++ pkText c.def_), by
    simp only [unsignedTexts, String.append_assoc]
    rfl⟩

/-- An encrypted AUTO_INCREMENT column becomes a VARCHAR column with AUTO_INCREMENT, which the backend refuses. -/
theorem C84_fails_auto : ∃ r cs, rewriteCreate ⟨fun i => if i = 0 then "a_o" else "a_s", "table_0", fun _ _ _ => .ok ""⟩ [("a", ⟨"k", false, false, none, false, ""⟩)] "t"
      [⟨"a", "int", .none, false, { pk := true, auto := true }⟩] = .ok r ∧ readCreate (fun _ => false) r.text.toList = some ("table_0", cs) ∧ ∀ w, legal w cs = false := by
  refine ⟨_, [⟨"a_o", .integer 8, false, false⟩, ⟨"a_s", .chars false 300, true, true⟩], rfl, by decide +kernel, fun w => ?_⟩
  simp [legal]

/-! ### Not as declared -/

/-- UNIQUE is forgotten: the backend is asked for the same table without it. -/
theorem C84_fails_unique (env : Table.Env) (opts : Dict String EncOpt) (t : String) (cols : List Col) :
    rewriteCreate env opts t cols = rewriteCreate env opts t (cols.map fun c => { c with opts := { c.opts with unique := false } }) := by
  have h1 : ∀ l : List Col, (l.map fun c => { c with opts := { c.opts with unique := false } }).map Col.def_ = l.map Col.def_ := by
    intro l
    rw [List.map_map]
    rfl
  unfold rewriteCreate
  rw [h1]
  simp only [List.any_map]
  rfl

/-- So two rows with the same value are accepted, where the declared column would refuse the second. -/
example : ∃ r cs, rewriteCreate ⟨fun _ => "", "table_0", fun _ _ _ => .ok ""⟩ [] "t" [⟨"a", "int", .none, false, { unique := true }⟩] = .ok r ∧
    readCreate (fun _ => false) r.text.toList = some ("table_0", cs) ∧ Store.fine ⟨[("table_0", [[("a", .int 1)], [("a", .int 1)]])], [("table_0", cs)]⟩ = true :=
  ⟨_, [⟨"a", .integer 4, false, false⟩], rfl, by decide +kernel, by decide +kernel⟩

/-- AUTO_INCREMENT of a column that is not the primary key is forgotten. -/
theorem C84_fails_counter (c : Col) (h : c.opts.pk = false) (env : Table.Env) (opts : Dict String EncOpt) (i : Nat) :
    rewriteCol env opts i c.def_ = rewriteCol env opts i { c.def_ with autoIncrement := false } := by
  have hp : c.def_.primaryKey = false := h
  have hpk : ∀ b, pkText { c.def_ with autoIncrement := b } = "" := by intro b; simp [pkText, hp]
  have h2 : pkText c.def_ = "" := by simp [pkText, hp]
  have hel : ∀ (o : EncOpt) (l : Dict String ElemType) (i : Nat), elemCols env o c.def_ i l = elemCols env o { c.def_ with autoIncrement := false } i l := by
    intro o l
    induction l with
    | nil => intro i; rfl
    | cons e r ih =>
      intro i
      obtain ⟨a, v⟩ := e
      rw [elemCols, elemCols, ih, h2, hpk]
      rfl
  unfold rewriteCol
  simp only [cipherCols, hel, plainCol, h2, hpk]
  rfl

section

open EulerDB.Sql

/-- **C84, the end.**  A list of columns that is read ends with its parenthesis: what is left of the text is what follows it. -/
theorem C84_closed {n s r : List Char} {t : String} {cols : List Col} (h : elements n s = .ok (t, cols) r) :
    t = strOf n ∧ ∃ r0 r1, lit "(" s = some r0 ∧ listOf column r0 = .ok cols r1 ∧ lit ")" r1 = some r := by
  unfold elements at h
  cases h0 : lit "(" s with
  | none => rw [h0] at h; cases h
  | some r0 =>
    rw [h0] at h
    simp only at h
    cases h1 : listOf column r0 with
    | fail => rw [h1] at h; cases h
    | crash => rw [h1] at h; cases h
    | unmod => rw [h1] at h; cases h
    | ok cs r1 =>
      rw [h1] at h
      simp only at h
      cases h2 : lit ")" r1 with
      | none => rw [h2] at h; cases h
      | some r2 =>
        rw [h2] at h
        simp only at h
        split at h
        · cases h
        · cases h
          exact ⟨rfl, r0, r1, rfl, h1, h2⟩

/-- Without it the statement is not read. -/
example : (parseCreate (fun _ => false) "create table t (a int".toList).isSome = false ∧
    (parseCreate (fun _ => false) "create table t (a int)".toList).isSome = true := by decide +kernel

end

end EulerDB.Create
