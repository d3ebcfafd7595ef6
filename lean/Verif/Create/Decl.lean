/-
Declared tables: what the proxy records and what the backend creates (C84).
-/
import Verif.Create.Columns

namespace EulerDB.Create

open EulerDB EulerDB.Table EulerDB.Delta EulerDB.Whole EulerDB.Clause

/-! ### Declared columns -/

/-- A column of the fragment: INT without a size, CHAR or VARCHAR with a size; no UNSIGNED, AUTO_INCREMENT or UNIQUE; encrypted without Paillier and SM4. -/
structure Good (opts : Dict String EncOpt) (c : Col) : Prop where
  unsigned : c.unsigned = false
  auto : c.opts.auto = false
  unique : c.opts.unique = false
  type : (c.type = "int" ∧ c.arg = .none) ∨ ∃ n, c.arg = .num n ∧ 0 < n ∧ (c.type = "varchar" ∨ c.type = "char" ∧ n ≤ 255)
  plain : ∀ o, Dict.get? opts c.name = some o → o.arithmetic = false ∧ o.sm4 = false

/-- The size of a text column. -/
def Col.size (c : Col) : Nat :=
  match c.arg with
  | .num n => n
  | _ => 0

/-- The ciphers of an encrypted column. -/
def ciphers (c : Col) (o : EncOpt) : List String :=
  (if c.type = "int" then ["order-preserving"] else []) ++ ["symmetric"] ++ (if o.fuzzy then ["fuzzy"] else [])

/-- The word and the size of the type in which a cipher is stored. -/
def cipherType (c : Col) (k : String) : String × Option Nat :=
  if k = "order-preserving" then ("BIGINT", none)
  else if k = "fuzzy" then ("VARCHAR", some 2000)
  else if c.type = "int" then ("VARCHAR", some 300)
  else (if (Aes.typeAndLen (c.type = "char") c.size).1 then "char" else "varchar", some (Aes.typeAndLen (c.type = "char") c.size).2)

/-- The columns that are written for a column, from the `i`-th random name on. -/
def outs (env : Table.Env) (opts : Dict String EncOpt) (i : Nat) (c : Col) : List Out :=
  match Dict.get? opts c.name with
  | none => [⟨c.name, c.type, if c.type = "int" then none else some c.size, c.opts.nullable, c.opts.pk⟩]
  | some o => ((ciphers c o).zipIdx i).map fun e =>
      ⟨env.names e.2, (cipherType c e.1).1, (cipherType c e.1).2, c.opts.nullable, c.opts.pk && e.1 == "symmetric"⟩

/-- What the proxy records for a column. -/
def metaOf (names : String → Nat → String) (opts : Dict String EncOpt) (i : Nat) (c : Col) : ColMeta :=
  match Dict.get? opts c.name with
  | none => { plaintext := true, type := c.type, key := "", encCols := [] }
  | some o => { plaintext := false, type := c.type, key := o.key, encCols := ((ciphers c o).zipIdx i).map fun e => (e.1, names e.1 e.2) }

/-- How many random names a column takes. -/
def taken (opts : Dict String EncOpt) (c : Col) : Nat :=
  match Dict.get? opts c.name with
  | none => 0
  | some o => (ciphers c o).length

def outsAll (env : Table.Env) (opts : Dict String EncOpt) : Nat → List Col → List Out
  | _, [] => []
  | i, c :: r => outs env opts i c ++ outsAll env opts (i + taken opts c) r

def metaAll (names : String → Nat → String) (opts : Dict String EncOpt) : Nat → List Col → Dict String ColMeta
  | _, [] => []
  | i, c :: r => (c.name, metaOf names opts i c) :: metaAll names opts (i + taken opts c) r

/-- The type that the backend gives a column. -/
def mtypeOf (o : Out) : MType := (o.type).getD (.integer 0)

def mcol (o : Out) : MCol := ⟨o.name, mtypeOf o, o.pk, false⟩

/-! ### Rewriting a column -/

theorem upper_types : upper "int" = "INT" ∧ upper "char" = "CHAR" ∧ upper "varchar" = "VARCHAR" := by decide

theorem text300 : "VARCHAR" ++ argText (some 300) = "VARCHAR(300)" := by decide
theorem text2000 : "VARCHAR" ++ argText (some 2000) = "VARCHAR(2000)" := by decide

theorem nullText_opt (c : Col) : nullText c.def_ = optNull c.opts.nullable := by
  simp only [nullText, Col.def_, optNull]
  cases c.opts.nullable with
  | none => rfl
  | some b => cases b <;> rfl

theorem pkText_opt {c : Col} (h : c.opts.auto = false) : pkText c.def_ = optKey c.opts.pk := by
  simp only [pkText, Col.def_, optKey, h]
  cases c.opts.pk <;> rfl

theorem rewriteCol_good {opts : Dict String EncOpt} {c : Col} (h : Good opts c) (env : Table.Env) (i : Nat) :
    rewriteCol env opts i c.def_ = .ok ((outs env opts i c).map Out.bcol, metaOf (fun _ => env.names) opts i c, i + taken opts c) := by
  have hn := nullText_opt c
  have hk := pkText_opt h.auto
  have ht := h.type
  have hp := h.plain
  obtain ⟨name, type, arg, uns, co⟩ := c
  simp only [Col.def_] at hn hk ht hp ⊢
  cases ho : Dict.get? opts name with
  | none =>
    have hT : (if arg.truthy = true then type ++ "(" ++ arg.str ++ ")" else type) =
        type ++ argText (if type = "int" then none else some (Col.size ⟨name, type, arg, uns, co⟩)) := by
      rcases ht with ⟨rfl, rfl⟩ | ⟨n, rfl, h0, h1⟩
      · rfl
      · have hne : type ≠ "int" := by rcases h1 with rfl | ⟨rfl, _⟩ <;> decide
        simp [TypeArg.truthy, TypeArg.str, hne, argText, Col.size, String.append_assoc, show n ≠ 0 by omega]
    simp [rewriteCol, ho, plainCol, plainDefault, outs, metaOf, taken, Out.bcol, hn, hk, hT]
  | some o =>
    obtain ⟨ha, hs⟩ := hp o ho
    have opts_ : ∀ d : ColDef, d.default = none → ∀ k, cipherDefault env k o d = .ok "" := fun d hd k => by simp [cipherDefault, hd]
    have hfz : ∀ d : ColDef, d.default = none → nullText d = optNull co.nullable → ∀ j, optCol env o d j o.fuzzy "fuzzy" "VARCHAR(2000)" =
        .ok (if o.fuzzy then [("fuzzy", ⟨env.names j, "VARCHAR(2000)", optNull co.nullable⟩)] else []) := by
      intro d hd hnd j
      unfold optCol
      cases o.fuzzy <;> simp [opts_ d hd, hnd]
    have har : ∀ d j, optCol env o d j o.arithmetic "arithmetic" "Decimal(65,0)" = .ok [] := by intro d j; simp [optCol, ha]
    have hsm : ∀ d j, optCol env o d j o.sm4 "sm4" "VARCHAR(2000)" = .ok [] := by intro d j; simp [optCol, hs]
    rcases ht with ⟨rfl, rfl⟩ | ⟨n, rfl, h0, h1⟩
    · have he : ∀ d : ColDef, d.default = none → d.typeName = "int" → d.typeArg = .none → nullText d = optNull co.nullable → pkText d = optKey co.pk →
          elemCols env o d i [("order-preserving", .fixed "BIGINT"), ("symmetric", .fixed "VARCHAR(300)")] =
          .ok [("order-preserving", ⟨env.names i, "BIGINT", optNull co.nullable⟩),
            ("symmetric", ⟨env.names (i + 1), "VARCHAR(300)", optNull co.nullable ++ optKey co.pk⟩)] := by
        intro d hd h1 h2 h3 h4
        simp [elemCols, encColType, h2, TypeArg.truthy, opts_ d hd, h3, h4]
      rw [rewriteCol]
      simp only [ho, cipherCols, upper_types.1, elementType, if_true]
      rw [he _ rfl rfl rfl hn hk]
      simp only [hfz _ rfl hn, har, hsm]
      cases hf : o.fuzzy <;>
        simp [outs, metaOf, taken, ho, ciphers, cipherType, hf, List.zipIdx, Out.bcol, optKey, ← text300, ← text2000, argText, ha, hs, Dict.set, Dict.set]
    · have hT : elementType (upper type) = some [("symmetric", .func)] := by
        rcases h1 with rfl | ⟨rfl, _⟩
        · rw [upper_types.2.2]; decide
        · rw [upper_types.2.1]; decide
      have hne : type ≠ "int" := by rcases h1 with rfl | ⟨rfl, _⟩ <;> decide
      have hty : type = "char" ∨ type = "varchar" := by rcases h1 with rfl | ⟨rfl, _⟩ <;> simp
      have he : ∀ d : ColDef, d.default = none → d.typeName = type → d.typeArg = .num n → nullText d = optNull co.nullable → pkText d = optKey co.pk →
          elemCols env o d i [("symmetric", .func)] =
          .ok [("symmetric", ⟨env.names i, (if (Aes.typeAndLen (type = "char") n).1 then "char" else "varchar") ++ argText (some (Aes.typeAndLen (type = "char") n).2),
            optNull co.nullable ++ optKey co.pk⟩)] := by
        intro d hd h1 h2 h3 h4
        simp [elemCols, encColType, h1, h2, TypeArg.truthy, opts_ d hd, h3, h4, getTypeAndLen, hty, argText, String.append_assoc, show n ≠ 0 by omega]
      rw [rewriteCol]
      simp only [ho, cipherCols, hT]
      rw [he _ rfl rfl rfl hn hk]
      simp only [hfz _ rfl hn, har, hsm]
      cases hf : o.fuzzy <;>
        simp [outs, metaOf, taken, ho, ciphers, cipherType, hf, hne, List.zipIdx, Out.bcol, optKey, ← text2000, Col.size, ha, hs, Dict.set] <;> rfl

theorem rewriteCols_good {opts : Dict String EncOpt} (env : Table.Env) : ∀ {cols : List Col} (i : Nat) (bs : List BCol) (kv : Dict String ColMeta),
    (∀ c ∈ cols, Good opts c) → (kv.map Prod.fst ++ cols.map Col.name).Nodup →
    rewriteCols env opts i (cols.map Col.def_) bs kv = .ok (bs ++ (outsAll env opts i cols).map Out.bcol, kv ++ metaAll (fun _ => env.names) opts i cols)
  | [], i, bs, kv, _, _ => by simp [rewriteCols, outsAll, metaAll]
  | c :: r, i, bs, kv, h, hn => by
    rw [List.map_cons, rewriteCols, rewriteCol_good (h c (by simp))]
    simp only
    have hnone : Dict.get? kv c.name = none := by
      rw [Dict.get?_eq_none_iff]
      intro hm
      rw [List.nodup_append] at hn
      exact hn.2.2 c.name hm c.name (by simp) rfl
    rw [show (c.def_).name = c.name from rfl, Dict.set_of_none _ _ _ hnone, rewriteCols_good env _ _ _ (fun x hx => h x (by simp [hx]))]
    · simp [outsAll, metaAll]
    · simpa [List.append_assoc] using hn

/-- The table that is recorded. -/
def tableOf (env : Table.Env) (opts : Dict String EncOpt) (cols : List Col) : TableMeta ColMeta := ⟨env.anon, metaAll (fun _ => env.names) opts 0 cols, none⟩

/-- The text that is sent. -/
def createText (env : Table.Env) (os : List Out) : String :=
  "CREATE TABLE IF NOT EXISTS " ++ env.anon ++ "(" ++ String.intercalate "," (os.map fun o => o.bcol.text) ++ ")" ++ ";"

theorem createText_eq (env : Table.Env) (os : List Out) :
    createText env os = "CREATE TABLE IF NOT EXISTS " ++ env.anon ++ "(" ++ String.intercalate "," (os.map fun o => o.bcol.text) ++ ")" ++ ";" := rfl

theorem rewriteCreate_good {opts : Dict String EncOpt} {t : String} {cols : List Col} (env : Table.Env) (h : ∀ c ∈ cols, Good opts c)
    (hn : (cols.map Col.name).Nodup) : ∃ r, rewriteCreate env opts t cols = .ok r ∧ r.text = createText env (outsAll env opts 0 cols) ∧ r.meta_ = tableOf env opts cols := by
  have h1 : (cols.any fun c => c.unsigned && (Dict.get? opts c.name).isSome) = false := by
    rw [List.any_eq_false]
    intro c hc
    simp [(h c hc).unsigned]
  have h2 : cols.any Col.unsigned = false := by
    rw [List.any_eq_false]
    intro c hc
    simp [(h c hc).unsigned]
  have hc := rewriteCols_good env (opts := opts) (cols := cols) 0 [] [] h (by simpa using hn)
  have e : rewriteTable env [] "" opts { name := t, columns := cols.map Col.def_ } =
      .ok ⟨(outsAll env opts 0 cols).map Out.bcol, [], createText env (outsAll env opts 0 cols), tableOf env opts cols⟩ := by
    unfold rewriteTable
    rw [hc]
    simp only [constraintKeys, List.nil_append, if_true, createText_eq, tableOf, List.map_map, Function.comp_def, String.append_empty]
  refine ⟨⟨(outsAll env opts 0 cols).map Out.bcol, [], createText env (outsAll env opts 0 cols), tableOf env opts cols⟩, ?_, rfl, rfl⟩
  unfold rewriteCreate
  rw [h1, h2, e]
  rfl

/-! ### What the backend reads -/

theorem cipherType_known (c : Col) (k : String) : (cipherType c k).1 ∈ words := by
  unfold cipherType
  split
  · decide
  · split
    · decide
    · split
      · decide
      · simp only
        split <;> decide

theorem typeAndLen_char {n : Nat} {b : Bool} (h : (Aes.typeAndLen b n).1 = true) : (Aes.typeAndLen b n).2 ≤ 255 := by
  unfold Aes.typeAndLen at h ⊢
  simp only at h ⊢
  by_cases hx : ((n / 16 + 1) * 16 / 3 + if (n / 16 + 1) % 3 = 0 then 0 else 1) * 4 > 254
  · rw [if_pos hx] at h; cases h
  · omega

theorem cipherType_some (o : Out) (c : Col) (k : String) (h1 : o.word = (cipherType c k).1) (h2 : o.arg = (cipherType c k).2) :
    o.type = some (if k = "order-preserving" then .integer 8 else if k = "fuzzy" then .chars false 2000 else if c.type = "int" then .chars false 300
      else .chars (Aes.typeAndLen (c.type = "char") c.size).1 (Aes.typeAndLen (c.type = "char") c.size).2) := by
  unfold Out.type
  rw [h1, h2]
  unfold cipherType
  by_cases hk : k = "order-preserving"
  · rw [if_pos hk, if_pos hk]; decide
  · rw [if_neg hk, if_neg hk]
    by_cases hk2 : k = "fuzzy"
    · rw [if_pos hk2, if_pos hk2]; decide
    · rw [if_neg hk2, if_neg hk2]
      by_cases hk3 : c.type = "int"
      · rw [if_pos hk3, if_pos hk3]; decide
      · rw [if_neg hk3, if_neg hk3]
        cases hb : (Aes.typeAndLen (c.type = "char") c.size).1 with
        | true =>
          have := typeAndLen_char hb
          have e : String.ofList ("char".toList.map Char.toUpper) = "CHAR" := by decide
          simp only [if_true, e, Option.toList, mtype]
          simp [this]
        | false =>
          have e : String.ofList ("varchar".toList.map Char.toUpper) = "VARCHAR" := by decide
          simp only [Bool.false_eq_true, if_false, e, Option.toList, mtype]
          simp

/-- Every column that is written has a known type. -/
theorem outs_known {opts : Dict String EncOpt} {c : Col} (h : Good opts c) (env : Table.Env) (i : Nat) : ∀ o ∈ outs env opts i c, o.word ∈ words ∧ ∃ ty, o.type = some ty := by
  intro o ho
  unfold outs at ho
  cases hx : Dict.get? opts c.name with
  | none =>
    rw [hx] at ho
    rcases List.mem_singleton.1 ho with rfl
    rcases h.type with ⟨h1, _⟩ | ⟨n, h1, h2, h3⟩
    · simp only [h1, if_true]
      exact ⟨by decide, .integer 4, by simp [Out.type, mtype]⟩
    · rcases h3 with h3 | ⟨h3, h4⟩
      · have e : String.ofList ("varchar".toList.map Char.toUpper) = "VARCHAR" := by decide
        refine ⟨by simp only [h3]; decide, .chars false n, ?_⟩
        simp only [Out.type, h3, e, show ¬ "varchar" = "int" by decide, if_false, Col.size, h1, Option.toList, mtype]
        simp
      · have e : String.ofList ("char".toList.map Char.toUpper) = "CHAR" := by decide
        refine ⟨by simp only [h3]; decide, .chars true n, ?_⟩
        simp only [Out.type, h3, e, show ¬ "char" = "int" by decide, if_false, Col.size, h1, Option.toList, mtype]
        simp [h4]
  | some x =>
    rw [hx] at ho
    obtain ⟨e, _, rfl⟩ := List.mem_map.1 ho
    exact ⟨cipherType_known c e.1, _, cipherType_some _ c e.1 rfl rfl⟩

theorem outsAll_known {opts : Dict String EncOpt} (env : Table.Env) : ∀ {cols : List Col} (i : Nat), (∀ c ∈ cols, Good opts c) →
    ∀ o ∈ outsAll env opts i cols, o.word ∈ words ∧ ∃ ty, o.type = some ty
  | [], _, _, o, ho => by simp [outsAll] at ho
  | c :: r, i, h, o, ho => by
    rcases List.mem_append.1 ho with ho | ho
    · exact outs_known (h c (by simp)) env i o ho
    · exact outsAll_known env _ (fun x hx => h x (by simp [hx])) o ho

/-- The text is read as the table. -/
theorem read_create {P : Writer} {res : List Char → Bool} {env : Table.Env} {os : List Out} (h0 : os ≠ []) (ha : Bare P res env.anon)
    (h : ∀ o ∈ os, Bare P res o.name ∧ o.word ∈ words ∧ ∃ ty, o.type = some ty) : readCreate res (createText env os).toList = some (env.anon, os.map mcol) := by
  have hl := lx_commas (Ends.rp []) (lx_rp Lx.nil) os h0 fun o ho => ⟨(h o ho).1, (h o ho).2.1⟩
  have h1 := lx_word_lp ha.name hl
  have hk : ∀ (w : String) (r : List Char) (out : List MTok), Whole.Name w.toList → Lx r out → Lx (w.toList ++ ' ' :: r) (.word w.toList :: out) := by
    intro w r out hw hr
    exact cut_word hw (' ' :: r) out (Ends.blank _) (hr.blank (by decide))
  have h2 := hk "CREATE" _ _ (by unfold Whole.Name; decide) (hk "TABLE" _ _ (by unfold Whole.Name; decide) (hk "IF" _ _ (by unfold Whole.Name; decide)
    (hk "NOT" _ _ (by unfold Whole.Name; decide) (hk "EXISTS" _ _ (by unfold Whole.Name; decide) h1))))
  have ht : (createText env os).toList = ("CREATE".toList ++ ' ' :: ("TABLE".toList ++ ' ' :: ("IF".toList ++ ' ' :: ("NOT".toList ++ ' ' :: ("EXISTS".toList ++ ' ' ::
      (env.anon.toList ++ '(' :: ((String.intercalate "," (os.map fun o => o.bcol.text)).toList ++ [')']))))))) ++ [';'] := by
    have hc : "CREATE TABLE IF NOT EXISTS ".toList = "CREATE".toList ++ ' ' :: ("TABLE".toList ++ ' ' :: ("IF".toList ++ ' ' :: ("NOT".toList ++ ' ' :: ("EXISTS".toList ++ [' '])))) := by
      decide
    have h1 : "(".toList = ['('] := rfl
    have h2 : ")".toList = [')'] := rfl
    have h3 : ";".toList = [';'] := rfl
    simp only [createText_eq, String.toList_append, hc, h1, h2, h3, List.append_assoc, List.cons_append, List.nil_append]
  have h3 := h2.full
  unfold readCreate
  rw [ht]
  simp only [List.getLast?_concat, List.dropLast_concat, if_true, h3, Option.bind_some]
  have hsep := pSep_after (rest := []) (p := pCol res) (f := Out.toks) (g := mcol) os (commaToks (os.map Out.toks) ++ [MTok.rp]).length h0
    (fun o ho r hr => by
      obtain ⟨hb, _, ty, hty⟩ := h o ho
      rw [Out.read hb hty hr]
      simp [mcol, mtypeOf, hty])
    (by
      have := commaToks_length (os.map Out.toks)
      simp only [List.length_map] at this
      simp only [List.length_append]
      omega)
  unfold pCreate
  rw [pKw_self "CREATE" (by decide)]
  simp only [Option.bind_eq_bind, Option.bind_some]
  rw [pKw_self "TABLE" (by decide)]
  simp only [Option.bind_some]
  rw [pKw_self "IF" (by decide)]
  simp only [Option.bind_some]
  rw [pKw_self "NOT" (by decide)]
  simp only [Option.bind_some]
  rw [pKw_self "EXISTS" (by decide)]
  simp only [Option.bind_some]
  rw [show pName res (.word env.anon.toList :: .lp :: (commaToks (os.map Out.toks) ++ [MTok.rp])) = some (env.anon, .lp :: (commaToks (os.map Out.toks) ++ [MTok.rp])) from
    pName_bare ha _]
  simp only [Option.bind_some, hsep]

end EulerDB.Create
