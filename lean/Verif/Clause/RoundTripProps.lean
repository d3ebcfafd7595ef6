import Verif.Clause.InsertProps
import Verif.Table.Props
import Verif.Fuzzy.Props

/-!
# What is inserted is what SELECT returns (C25)

The backend is modelled as far as one stored row is concerned: an INSERT stores the given values under the given names, a SELECT of names returns the stored
values.
-/

namespace EulerDB.Clause

open EulerDB EulerDB.Delta EulerDB.Table

/-! ## The backend -/

/-- The value of an item of VALUES (...). -/
def dbLit : Json → Option DbVal
  | .dict [("value", .int z)] => some (.int z)
  | .dict [("value", .dict [("literal", .str s)])] => some (.text s)
  | _ => none

/-- The stored row: the names with their values; the numbers must agree. -/
def storeRow : List Json → List Json → Option (Dict String DbVal)
  | [], [] => some []
  | .str n :: ns, v :: vs =>
    match dbLit v, storeRow ns vs with
    | some x, some r => some ((n, x) :: r)
    | _, _ => none
  | _, _ => none

/-- The row an INSERT statement stores. -/
def runInsert (json : Dict String Json) : Option (Dict String DbVal) :=
  match Dict.get? json "columns", Dict.get? json "query" with
  | some (.list ns), some (.dict [("select", .list vs)]) => storeRow ns vs
  | _, _ => none

/-- The columns a SELECT statement asks for. -/
def selectNames : List Json → Option (List String)
  | [] => some []
  | .str n :: r => (selectNames r).map (n :: ·)
  | _ => none

/-- The answer to a SELECT for one stored row. -/
def runSelect (json : Dict String Json) (row : Dict String DbVal) : Option (List DbVal) :=
  let names : Option (List String) :=
    match Dict.get? json "select" with
    | some (.list l) => selectNames l
    | some (.dict [("value", .str n)]) => some [n]
    | _ => none
  match names with
  | some l => l.mapM fun n => Dict.get? row n
  | none => none

/-! ## User values -/

/-- An integer or a text. -/
inductive Val where
  | int (z : Int)
  | text (s : String)
  deriving DecidableEq, Repr

/-- As the parser gives it. -/
def Val.json : Val → Json
  | .int z => .dict [("value", .int z)]
  | .text s => .dict [("value", Json.lit s)]

/-- As it must come back. -/
def Val.out : Val → OutVal
  | .int z => .int z
  | .text s => .text s

/-- The value suits the column: integers in int columns; texts that do not end in NUL in columns without a numeric type. -/
def Suits (cm : ColMeta) : Val → Prop
  | .int _ => cm.type = "int"
  | .text s => cm.type ≠ "int" ∧ cm.type ≠ "float" ∧ cm.type ≠ "double" ∧ ¬ Aes.EndsInNul s.toList

/-- The column `SELECT n` reads, and the state recorded for it. -/
def readName (n : String) (cm : ColMeta) : Option String := if cm.plaintext then some n else Dict.get? cm.encCols "symmetric"

def readState (cm : ColMeta) : String := if cm.plaintext then "plaintext" else "symmetric"

/-! ## The select list -/

theorem splitQual_plain {n : String} (h : '.' ∉ n.toList) : splitQual n = .ok ("", n) := by
  unfold splitQual splitDot
  rw [Text.split_word]
  · simp
  · exact h

theorem selCol_plain {db : Db} {t : String} {tm : TableMeta ColMeta} {n b : String} {cm : ColMeta} (s : Sel) (ht : Dict.get? db t = some tm)
    (hc : Dict.get? tm.columns n = some cm) (hn : '.' ∉ n.toList) (hb : readName n cm = some b) :
    selCol db (.str t) "symmetric" s n = .ok (.str b, s.push n cm.type (readState cm)) := by
  unfold selCol
  rw [splitQual_plain hn]
  have h1 : tableOfJson db (.str t) = .ok tm := getItem_ok.2 ht
  have h2 : Dict.getItem tm.columns n = .ok cm := getItem_ok.2 hc
  simp only [h1, h2]
  unfold readName at hb
  unfold readState
  by_cases hp : cm.plaintext
  · rw [if_pos hp] at hb ⊢
    injection hb with hb
    subst hb
    simp [hp]
  · rw [if_neg hp] at hb ⊢
    rw [getItem_ok.2 hb]
    simp [hp]

/-- The record after selecting columns. -/
def pushAll (cols : Dict String ColMeta) (s : Sel) : List String → Sel
  | [] => s
  | n :: r =>
    match Dict.get? cols n with
    | some cm => pushAll cols (s.push n cm.type (readState cm)) r
    | none => pushAll cols s r

/-- A column that can be selected. -/
structure Readable (cols : Dict String ColMeta) (n : String) : Prop where
  dot : '.' ∉ n.toList
  star : n ≠ "*"
  col : ∃ cm b, Dict.get? cols n = some cm ∧ readName n cm = some b

/-- The columns read for a list of names. -/
def readNames (cols : Dict String ColMeta) (ns : List String) : List String :=
  ns.map fun n => ((Dict.get? cols n).bind (readName n)).getD ""

theorem selList_plain {db : Db} {t : String} {tm : TableMeta ColMeta} (ht : Dict.get? db t = some tm) : ∀ (ns : List String) (s : Sel),
    (∀ n ∈ ns, Readable tm.columns n) →
    selList db (.str t) s (ns.map fun n => .dict [("value", .str n)]) = .ok ((readNames tm.columns ns).map .str, pushAll tm.columns s ns)
  | [], s, _ => by simp [selList, readNames, pushAll]
  | n :: r, s, h => by
    obtain ⟨cm, b, hc, hb⟩ := (h n (by simp)).col
    rw [List.map_cons, selList]
    simp only [selItem, selValueOf, if_true, selRw, if_neg (h n (by simp)).star, selStr]
    rw [selCol_plain s ht hc (h n (by simp)).dot hb]
    simp only
    rw [selList_plain ht r _ (fun n hn => h n (by simp [hn]))]
    simp [readNames, hc, hb, pushAll]

theorem selectNames_map (l : List String) : selectNames (l.map .str) = some l := by
  induction l with
  | nil => rfl
  | cons a r ih => simp [selectNames, ih]

/-- `SELECT n1, ..., nk FROM t` as parsed. -/
def selectJson (t : String) (ns : List String) : Dict String Json :=
  [("select", match ns with | [n] => .dict [("value", .str n)] | ns => .list (ns.map fun n => .dict [("value", .str n)])), ("from", .str t)]

/-- "value" does not occur in the name of the table (otherwise every SELECT raises, see `C31_fails_value_in_table_name`). -/
def PlainTable (t : String) : Prop := pyIn "value" (.str t) = false

/-- A statement with SELECT and FROM only. -/
theorem select_query {c : Crypto} {db : Db} {fuel : Nat} {json : Dict String Json} {v fr v' fr' : Json} {s1 s2 : Sel}
    (hs : Dict.get? json "select" = some v) (hf : Dict.get? json "from" = some fr)
    (hrest : ∀ k ∈ clauseKeys, k ≠ "select" → k ≠ "from" → Dict.get? json k = none)
    (h1 : selRw db fr "symmetric" {} v = .ok (v', s1)) (h2 : fromOuter c db (rewriteClause c db fuel) fr fr s1 = .ok (fr', s2)) :
    rewriteQuery c db fuel json = .ok (Dict.set (Dict.set json "select" v') "from" fr', fr, s2) := by
  have hins := hrest "insert" (by decide) (by decide) (by decide)
  have ht : findTable json tableKeys = .ok fr := by rw [tableKeys, findTable, hins, findTable, hf]
  have hafter : ∀ (keys : List String) (s : Sel), (∀ k ∈ keys, k ∈ clauseKeys ∧ k ≠ "select" ∧ k ≠ "from") → ∀ cols,
      clauseLoop c db (fromOuter c db (rewriteClause c db fuel)) fr cols keys (Dict.set (Dict.set json "select" v') "from" fr') s =
        .ok (Dict.set (Dict.set json "select" v') "from" fr', s) := by
    intro keys
    induction keys with
    | nil => intro s _ cols; rw [clauseLoop]
    | cons k r ih =>
      intro s hk cols
      obtain ⟨a, b, d⟩ := hk k (by simp)
      rw [clauseLoop, Dict.get?_set_ne _ d, Dict.get?_set_ne _ b, hrest k a b d]
      exact ih s (fun k hk' => hk k (by simp [hk'])) cols
  unfold rewriteQuery
  rw [ht]
  simp only
  rw [clauseKeys, clauseLoop, hins]
  simp only
  rw [clauseLoop, hrest "delete" (by decide) (by decide) (by decide)]
  simp only
  rw [clauseLoop, hrest "update" (by decide) (by decide) (by decide)]
  simp only
  rw [clauseLoop, hs]
  simp (decide := true) only [if_false, stepKey, if_true]
  rw [h1]
  simp only
  rw [clauseLoop, Dict.get?_set_ne _ (by decide), hrest "select_distinct" (by decide) (by decide) (by decide)]
  simp only
  rw [clauseLoop, Dict.get?_set_ne _ (by decide), hf]
  simp only [if_true]
  rw [h2]
  simp only
  rw [hafter _ _ (by decide)]

theorem select_rewrite {c : Crypto} {db : Db} {fuel : Nat} {t : String} {tm : TableMeta ColMeta} {ns : List String} (ht : Dict.get? db t = some tm)
    (hp : PlainTable t) (hr : ∀ n ∈ ns, Readable tm.columns n) :
    ∃ json', rewriteQuery c db fuel (selectJson t ns) = .ok (json', .str t, pushAll tm.columns {} ns) ∧
      Dict.get? json' "from" = some (.str tm.anonymous) ∧
      ∀ row, runSelect json' row = (readNames tm.columns ns).mapM fun n => Dict.get? row n := by
  have h1 : tableOf db t = .ok tm := getItem_ok.2 ht
  have hsel : ∃ j, selRw db (.str t) "symmetric" {} (match ns with | [n] => .dict [("value", .str n)] | ns => .list (ns.map fun n => .dict [("value", .str n)])) =
      .ok (j, pushAll tm.columns {} ns) ∧ ((j = .list ((readNames tm.columns ns).map .str)) ∨ ∃ b, j = .dict [("value", .str b)] ∧ readNames tm.columns ns = [b]) := by
    have hlist : ∃ j, selRw db (.str t) "symmetric" {} (.list (ns.map fun n => .dict [("value", .str n)])) = .ok (j, pushAll tm.columns {} ns) ∧
        ((j = .list ((readNames tm.columns ns).map .str)) ∨ ∃ b, j = .dict [("value", .str b)] ∧ readNames tm.columns ns = [b]) := by
      refine ⟨_, ?_, Or.inl rfl⟩
      rw [selRw, selList_plain ht ns _ hr]
    split
    · rename_i n
      obtain ⟨cm, b, hc, hb⟩ := (hr n (by simp)).col
      refine ⟨.dict [("value", .str b)], ?_, Or.inr ⟨b, rfl, by simp [readNames, hc, hb]⟩⟩
      simp (decide := true) only [selRw, isCountStar, selDict, if_false, if_neg (hr n (by simp)).star, selStr, funcCipher, Option.getD_none]
      rw [selCol_plain _ ht hc (hr n (by simp)).dot hb]
      simp [Dict.set, pushAll, hc]
    · exact hlist
  obtain ⟨j, hj, hj'⟩ := hsel
  refine ⟨[("select", j), ("from", .str tm.anonymous)], ?_, rfl, ?_⟩
  · have := select_query (c := c) (db := db) (fuel := fuel) (json := selectJson t ns) (fr := .str t) (fr' := .str tm.anonymous) (s2 := pushAll tm.columns {} ns)
      (by simp [selectJson, Dict.get?_cons]) (by simp [selectJson, Dict.get?_cons])
      (by intro k _ h1 h2; simp [selectJson, Dict.get?_cons, Ne.symm h1, Ne.symm h2]) hj
      (by
        unfold PlainTable at hp
        simp [fromOuter, fromInner, hp, fromRw, h1, Except.map])
    rw [this]
    simp (decide := true) [selectJson, Dict.set]
  · intro row
    rcases hj' with rfl | ⟨b, rfl, hb⟩
    · simp [runSelect, Dict.get?_cons, selectNames_map]
    · simp [runSelect, Dict.get?_cons, hb]

/-! ## One value there and back -/

theorem sym_eq (c : Crypto) (key s : String) : c.sym key s = .ok (String.ofList (Aes.ct (c.aes key) s.toList)) := by
  simp [Crypto.sym, Aes.encrypt_eq, Except.map]

theorem symDec_ct (c : Crypto) (key : String) (s : List Char) (h : ¬ Aes.EndsInNul s) :
    c.symDec key (String.ofList (Aes.ct (c.aes key) s)) = .ok (String.ofList s) := by
  simp only [Crypto.symDec, String.toList_ofList, Aes.decrypt_ct, Except.map]
  rw [(Aes.rstripNul_eq_self_iff s).2 h]

theorem intStr_not_nul (z : Int) : ¬ Aes.EndsInNul (Text.intStr z) := by
  unfold Aes.EndsInNul
  intro h
  have hm : '\x00' ∈ Text.intStr z := List.mem_of_mem_getLast? (by simpa using h)
  unfold Text.intStr at hm
  split at hm
  · rcases List.mem_cons.1 hm with h | h
    · exact absurd h (by decide)
    · exact Text.not_mem_natStr (c := '\x00') (by decide) _ h
  · exact Text.not_mem_natStr (c := '\x00') (by decide) _ hm

/-- The text of a value. -/
def Val.str : Val → List Char
  | .int z => Text.intStr z
  | .text s => s.toList

/-- The value stored in a symmetric column decrypts to what was inserted. -/
theorem decrypt_inserted {c : Crypto} {homDec ev} {db : Db} {t n : String} {tm : TableMeta ColMeta} {cm : ColMeta} {v : Val} {x out : Json} {b : DbVal}
    (ht : Dict.get? db t = some tm) (hc : Dict.get? tm.columns n = some cm) (hn : '.' ∉ n.toList) (hs : Suits cm v)
    (hx : pyItem "value" v.json = .ok x) (he : Enciphered c cm x "symmetric" out) (hb : dbLit out = some b) :
    decryptVal c homDec ev db (.str t) b n "symmetric" = .ok v.out := by
  have hct : out = .dict [("value", Json.lit (String.ofList (Aes.ct (c.aes cm.key) v.str)))] := by
    generalize henc : "symmetric" = enc at he
    cases he with
    | ope _ _ _ _ _ _ => exact absurd henc (by decide)
    | fuzzy _ _ _ _ _ _ => exact absurd henc (by decide)
    | hom _ _ _ _ _ _ => exact absurd henc (by decide)
    | sym w tx y hw htx hy =>
      rw [sym_eq] at hy
      injection hy with hy
      subst hy
      congr 4
      cases v with
      | int z =>
        have : x = .int z := by
          simp only [Val.json, pyItem, Dict.getItem, Dict.get?_cons, if_true] at hx
          injection hx with hx
          exact hx.symm
        subst this
        unfold Suits at hs
        cases hw with
        | int _ _ _ =>
          simp only [pyStr] at htx
          injection htx with htx
          subst htx
          simp [intText, Val.str]
        | floatInt _ h => rw [hs] at h; exact absurd h (by decide)
        | doubleInt _ _ h _ => rw [hs] at h; exact absurd h (by decide)
      | text s =>
        have : x = Json.lit s := by
          simp only [Val.json, pyItem, Dict.getItem, Dict.get?_cons, if_true] at hx
          injection hx with hx
          exact hx.symm
        subst this
        cases hw with
        | text _ _ _ =>
          simp only [pyStr] at htx
          injection htx with htx
          subst htx
          rfl
  subst hct
  simp only [dbLit, Json.lit] at hb
  injection hb with hb
  subst hb
  have h1 : tableOfJson db (.str t) = .ok tm := getItem_ok.2 ht
  have h2 : Dict.getItem tm.columns n = .ok cm := getItem_ok.2 hc
  have hd : splitDot n = [n] := by unfold splitDot; rw [Text.split_word]; · simp
                                   exact hn
  unfold decryptVal decCol
  rw [if_neg (by simp)]
  simp only [hd, h1, h2, if_true]
  rw [symDec_ct]
  · cases v with
    | int z =>
      unfold Suits at hs
      simp [Val.str, Except.map, decodeVal, hs, Text.parseInt_intStr, Val.out]
    | text s =>
      obtain ⟨h3, h4, h5, _⟩ := hs
      simp [Val.str, Except.map, decodeVal, h3, h4, h5, Val.out]
  · cases v with
    | int z => exact intStr_not_nul z
    | text s => exact hs.2.2.2

/-! ## Looking up a slot -/

theorem storeRow_lookup : ∀ (slots : List Slot) (bvals : List Json) (row : Dict String DbVal) (c : Crypto), List.Forall₂ (Filled c) slots bvals →
    storeRow (slots.map Slot.name) bvals = some row → (slots.map Slot.name).Nodup → ∀ sl ∈ slots, ∀ b, sl.name = .str b →
    ∃ out x, Filled c sl out ∧ dbLit out = some x ∧ Dict.get? row b = some x
  | [], _, _, _, _, _, _ => by simp
  | sl :: r, _, row, c, .cons h1 h2, hrow, hn => by
    intro s hs b hb
    rename_i o os
    rw [List.map_cons] at hrow hn
    have hn' := List.nodup_cons.1 hn
    cases hnm : sl.name with
    | str n =>
      rw [hnm, storeRow] at hrow
      split at hrow
      · rename_i x rest hx hrest
        injection hrow with hrow
        subst hrow
        rcases List.mem_cons.1 hs with rfl | hs
        · rw [hnm] at hb
          injection hb with hb
          subst hb
          exact ⟨o, x, h1, hx, by simp [Dict.get?_cons]⟩
        · have hne : n ≠ b := by
            rintro rfl
            exact hn'.1 (List.mem_map.2 ⟨s, hs, by rw [hb, hnm]⟩)
          obtain ⟨out, y, hf, hy, hg⟩ := storeRow_lookup r _ rest c h2 hrest hn'.2 s hs b hb
          exact ⟨out, y, hf, hy, by rw [Dict.get?_cons, if_neg hne]; exact hg⟩
      · cases hrow
    | null => rw [hnm] at hrow; simp [storeRow] at hrow
    | int z => rw [hnm] at hrow; simp [storeRow] at hrow
    | float z => rw [hnm] at hrow; simp [storeRow] at hrow
    | list z => rw [hnm] at hrow; simp [storeRow] at hrow
    | dict z => rw [hnm] at hrow; simp [storeRow] at hrow

/-- The slots of a row carry the backend names of its columns. -/
theorem rowSlots_names (cols : Dict String ColMeta) : ∀ (row : List (String × Val)),
    (rowSlots cols (row.map fun e => .str e.1) (row.map fun e => e.2.json)).map Slot.name =
      ((row.map Prod.fst).flatMap (backendNames cols)).map .str
  | [] => by simp [rowSlots]
  | (n, v) :: r => by
    rw [List.map_cons, List.map_cons, rowSlots, List.map_append, rowSlots_names cols r, List.map_cons, List.flatMap_cons, List.map_append]
    congr 1
    unfold backendNames slotsOf
    cases Dict.get? cols n with
    | none => rfl
    | some cm =>
      simp only
      split <;> simp

theorem rowSlots_mem (cols : Dict String ColMeta) {n : String} {v : Val} {cm : ColMeta} (hc : Dict.get? cols n = some cm) :
    ∀ (row : List (String × Val)), (n, v) ∈ row → ∀ e ∈ slotsOf (.str n) cm,
      (⟨e.1, e.2, cm, v.json⟩ : Slot) ∈ rowSlots cols (row.map fun e => .str e.1) (row.map fun e => e.2.json)
  | [], h => by simp at h
  | (m, w) :: r, h => by
    intro e he
    rw [List.map_cons, List.map_cons, rowSlots, List.mem_append]
    rcases List.mem_cons.1 h with h | h
    · injection h with h1 h2
      subst h1 h2
      left
      rw [hc]
      exact List.mem_map.2 ⟨e, he, rfl⟩
    · right
      exact rowSlots_mem cols hc r h e he

/-! ## C25 -/

/-- `INSERT INTO t (names) VALUES (values)` as parsed (two columns or more; one column is given in another shape, see C23). -/
def insertJson (t : String) (row : List (String × Val)) : Dict String Json :=
  [("columns", .list (row.map fun e => .str e.1)), ("query", .dict [("select", .list (row.map fun e => e.2.json))]), ("insert", .str t)]

theorem insertJson_isInsert (t : String) (row : List (String × Val)) :
    IsInsert (insertJson t row) t (row.map fun e => .str e.1) (row.map fun e => e.2.json) := by
  refine ⟨by simp [insertJson, Dict.get?_cons], by simp [insertJson, Dict.get?_cons], by simp [insertJson, Dict.get?_cons], ?_⟩
  intro k _ h1 h2 h3
  simp [insertJson, Dict.get?_cons, Ne.symm h1, Ne.symm h2, Ne.symm h3]

theorem readAll {c : Crypto} {homDec ev} {db : Db} {t : String} {tm : TableMeta ColMeta} {row : List (String × Val)} {stored : Dict String DbVal}
    (ht : Dict.get? db t = some tm)
    (hget : ∀ n v cm b, Readable tm.columns n → (n, v) ∈ row → Dict.get? tm.columns n = some cm → readName n cm = some b → ∃ x, Dict.get? stored b = some x ∧
      (if readState cm = "plaintext" then .ok (plainVal x) else decryptVal c homDec ev db (.str t) x n (readState cm)) = .ok v.out) :
    ∀ (sel : List (String × Val)) (s : Sel), (∀ e ∈ sel, e ∈ row) → (∀ e ∈ sel, Readable tm.columns e.1) →
      ∃ cells, (readNames tm.columns (sel.map Prod.fst)).mapM (fun n => Dict.get? stored n) = some cells ∧ ∃ cs ts ss,
        pushAll tm.columns s (sel.map Prod.fst) = ⟨s.columns ++ cs, s.types ++ ts, s.state ++ ss⟩ ∧
        decryptRow c homDec ev db (.str t) cs ss cells = .ok (sel.map fun e => e.2.out)
  | [], s, _, _ => ⟨[], by simp [readNames], [], [], [], by simp [pushAll], by simp [decryptRow]⟩
  | (n, v) :: r, s, hsub, hread => by
    obtain ⟨cm, b, hc, hb⟩ := (hread (n, v) (by simp)).col
    simp only at hc hb
    obtain ⟨x, hx, hd⟩ := hget n v cm b (hread (n, v) (by simp)) (hsub (n, v) (by simp)) hc hb
    obtain ⟨cells, h1, cs, ts, ss, h2, h3⟩ := readAll ht hget r (s.push n cm.type (readState cm)) (fun e he => hsub e (by simp [he]))
      (fun e he => hread e (by simp [he]))
    refine ⟨x :: cells, ?_, n :: cs, cm.type :: ts, readState cm :: ss, ?_, ?_⟩
    · simp only [readNames, List.map_map] at h1
      simp only [List.map_cons, readNames, hc, Option.bind_some, hb, Option.getD_some, List.mapM_cons, hx, List.map_map]
      rw [h1]
      rfl
    · rw [List.map_cons, pushAll, hc]
      simp only
      rw [h2]
      simp [Sel.push]
    · rw [decryptRow, hd, h3]
      rfl

/-- What a stored row gives back, column by column. -/
theorem stored_cells (c : Crypto) (homDec : Nat × Nat → DbVal → Except PyErr DbVal) (ev : String → Option OutVal) (db : Db) (fuel : Nat)
    (t : String) (tm : TableMeta ColMeta) (row sel : List (String × Val)) (ins : Dict String Json) (table : Json) (s0 : Sel) (stored : Dict String DbVal)
    (ht : Dict.get? db t = some tm)
    (hk : ∀ n cm, Dict.get? tm.columns n = some cm → cm.plaintext = false → ∀ e ∈ Dict.keys cm.encCols, e ∈ knownCiphers)
    (hnames : ((row.map Prod.fst).flatMap (backendNames tm.columns)).Nodup)
    (hsuits : ∀ e ∈ row, ∃ cm, Dict.get? tm.columns e.1 = some cm ∧ Suits cm e.2)
    (hins : rewriteQuery c db fuel (insertJson t row) = .ok (ins, table, s0)) (hstore : runInsert ins = some stored)
    (hsel : ∀ e ∈ sel, e ∈ row) (hread : ∀ e ∈ sel, Readable tm.columns e.1) :
    ∃ cells, (readNames tm.columns (sel.map Prod.fst)).mapM (fun n => Dict.get? stored n) = some cells ∧
      decryptRow c homDec ev db (.str t) (pushAll tm.columns {} (sel.map Prod.fst)).columns (pushAll tm.columns {} (sel.map Prod.fst)).state cells =
        .ok (sel.map fun e => e.2.out) := by
  obtain ⟨bvals, h1, h2, h3⟩ := C23_insert_aligned_partial c db fuel _ ins t _ _ table s0 tm (insertJson_isInsert t row) ht (by simp) hk (by
    intro v hv
    obtain ⟨e, _, rfl⟩ := List.mem_map.1 hv
    cases e.2 with
    | int z => exact ⟨_, rfl, .int z⟩
    | text s => exact ⟨_, rfl, .text s⟩) hins
  have hrow : storeRow ((rowSlots tm.columns (row.map fun e => .str e.1) (row.map fun e => e.2.json)).map Slot.name) bvals = some stored := by
    unfold runInsert at hstore
    rw [h1, h2] at hstore
    exact hstore
  have hnd : ((rowSlots tm.columns (row.map fun e => .str e.1) (row.map fun e => e.2.json)).map Slot.name).Nodup := by
    rw [rowSlots_names]
    exact List.Nodup.map (fun a b h => by injection h) hnames
  have hget : ∀ n v cm b, Readable tm.columns n → (n, v) ∈ row → Dict.get? tm.columns n = some cm → readName n cm = some b → ∃ x, Dict.get? stored b = some x ∧
      (if readState cm = "plaintext" then .ok (plainVal x) else decryptVal c homDec ev db (.str t) x n (readState cm)) = .ok v.out := by
    intro n v cm b hrd hmem hcm hb
    obtain ⟨cm', hcm', hsu⟩ := hsuits (n, v) hmem
    simp only at hcm'
    rw [hcm] at hcm'
    injection hcm' with hcm'
    subst hcm'
    unfold readName at hb
    by_cases hpl : cm.plaintext = true
    · rw [if_pos hpl] at hb
      injection hb with hb
      subst hb
      obtain ⟨out, x, hf, hx, hg⟩ := storeRow_lookup _ _ _ c h3 hrow hnd _ (rowSlots_mem tm.columns hcm row hmem (.str n, none) (by simp [slotsOf, hpl])) n rfl
      refine ⟨x, hg, ?_⟩
      unfold Filled at hf
      simp only at hf
      subst hf
      rw [readState, if_pos hpl, if_pos rfl]
      cases v with
      | int z => simp only [Val.json, dbLit] at hx; injection hx with hx; subst hx; rfl
      | text s => simp only [Val.json, dbLit, Json.lit] at hx; injection hx with hx; subst hx; rfl
    · rw [if_neg hpl] at hb
      obtain ⟨out, x, hf, hx, hg⟩ := storeRow_lookup _ _ _ c h3 hrow hnd _ (rowSlots_mem tm.columns hcm row hmem (.str b, some "symmetric") (by
        rw [slotsOf, if_neg hpl]
        exact List.mem_map.2 ⟨("symmetric", b), Dict.mem_of_get? hb, rfl⟩)) b rfl
      refine ⟨x, hg, ?_⟩
      unfold Filled at hf
      simp only at hf
      obtain ⟨y, hy, henc⟩ := hf
      rw [readState, if_neg hpl, if_neg (by decide)]
      exact decrypt_inserted ht hcm hrd.dot hsu hy henc hx
  obtain ⟨cells, hc1, cs, ts, ss, hc2, hc3⟩ := readAll ht hget sel {} hsel hread
  refine ⟨cells, hc1, ?_⟩
  rw [hc2]
  exact hc3

/-- **C25, partial.** After an INSERT that the proxy accepts, a SELECT of any of the inserted columns, in any order and with repetitions, returns exactly the
inserted values.  Missing: NULL and float columns (below), qualified names, rows whose INSERT is refused. -/
theorem C25_insert_then_select_partial (c : Crypto) (homDec : Nat × Nat → DbVal → Except PyErr DbVal) (ev : String → Option OutVal) (db : Db) (fuel : Nat)
    (t : String) (tm : TableMeta ColMeta) (row sel : List (String × Val)) (ins : Dict String Json) (table : Json) (s0 : Sel) (stored : Dict String DbVal)
    (ht : Dict.get? db t = some tm) (hp : PlainTable t)
    (hk : ∀ n cm, Dict.get? tm.columns n = some cm → cm.plaintext = false → ∀ e ∈ Dict.keys cm.encCols, e ∈ knownCiphers)
    (hnames : ((row.map Prod.fst).flatMap (backendNames tm.columns)).Nodup)
    (hsuits : ∀ e ∈ row, ∃ cm, Dict.get? tm.columns e.1 = some cm ∧ Suits cm e.2)
    (hins : rewriteQuery c db fuel (insertJson t row) = .ok (ins, table, s0)) (hstore : runInsert ins = some stored)
    (hsel : ∀ e ∈ sel, e ∈ row) (hread : ∀ e ∈ sel, Readable tm.columns e.1) :
    ∃ q s cells, rewriteQuery c db fuel (selectJson t (sel.map Prod.fst)) = .ok (q, .str t, s) ∧ runSelect q stored = some cells ∧
      decryptRow c homDec ev db (.str t) s.columns s.state cells = .ok (sel.map fun e => e.2.out) := by
  obtain ⟨q, hq, _, hrun⟩ := select_rewrite (c := c) (fuel := fuel) ht hp (ns := sel.map Prod.fst) (by
    intro n hn
    obtain ⟨e, he, rfl⟩ := List.mem_map.1 hn
    exact hread e he)
  obtain ⟨cells, h1, h2⟩ := stored_cells c homDec ev db fuel t tm row sel ins table s0 stored ht hk hnames hsuits hins hstore hsel hread
  exact ⟨q, _, cells, hq, by rw [hrun]; exact h1, h2⟩

/-! ### INSERT is accepted -/

/-- The ciphers of the column can take the value: integers of 64 bits (Paillier needs a key), texts only where no integer is needed. -/
def Accepts (cm : ColMeta) (v : Val) : Prop :=
  ∀ enc ∈ Dict.keys cm.encCols,
    match v with
    | .int z => enc ∈ knownCiphers ∧ (enc = "order-preserving" → -2 ^ 63 ≤ z ∧ z ≤ 2 ^ 63 - 1) ∧ (enc = "arithmetic" → cm.homKey.isSome)
    | .text _ => enc = "symmetric" ∨ enc = "fuzzy"

theorem fuzzy_eq (c : Crypto) (key s : String) : ∃ y, c.fuzzy key s = .ok y := by
  rw [Crypto.fuzzy, Fuzzy.fuzzyEncrypt_eq]
  exact ⟨_, rfl⟩

theorem encryptValue_ok {c : Crypto} {cm : ColMeta} {v : Val} (hs : Suits cm v) (ha : Accepts cm v) {enc : String} (he : enc ∈ Dict.keys cm.encCols) {x : Json}
    (hx : pyItem "value" v.json = .ok x) : ∃ out y, encryptValue c cm x enc = .ok out ∧ dbLit out = some y := by
  have := ha enc he
  cases v with
  | int z =>
    simp only at this
    have hxz : x = .int z := by
      simp only [Val.json, pyItem, Dict.getItem, Dict.get?_cons, if_true] at hx
      injection hx with hx
      exact hx.symm
    subst hxz
    unfold Suits at hs
    obtain ⟨h1, h2, h3⟩ := this
    simp only [knownCiphers, List.mem_cons, List.not_mem_nil, or_false] at h1
    rcases h1 with rfl | rfl | rfl | rfl
    · obtain ⟨a, b⟩ := h2 rfl
      have := Ope.C04_fails_ope_is_identity (c.ope cm.key) z a b
      exact ⟨.dict [("value", .int z)], .int z, by simp [encryptValue, encodeJson, hs, pyInt, Crypto.opeEnc, this, Except.map], rfl⟩
    · refine ⟨_, _, by simp only [encryptValue, encodeJson, hs]; simp (decide := true) only [if_true, if_false, pyStr, sym_eq, Except.map]; rfl, rfl⟩
    · obtain ⟨y, hy⟩ := fuzzy_eq c cm.key (intText z)
      refine ⟨.dict [("value", Json.lit y)], .text y, ?_, rfl⟩
      simp (decide := true) [encryptValue, encodeJson, hs, pyStr, hy, Except.map]
    · obtain ⟨k, hk⟩ := Option.isSome_iff_exists.1 (h3 rfl)
      refine ⟨.dict [("value", Json.lit (c.hom k z))], .text (c.hom k z), ?_, rfl⟩
      simp (decide := true) [encryptValue, encodeJson, hs, pyInt, hk]
  | text s =>
    simp only at this
    have hxz : x = Json.lit s := by
      simp only [Val.json, pyItem, Dict.getItem, Dict.get?_cons, if_true] at hx
      injection hx with hx
      exact hx.symm
    subst hxz
    obtain ⟨g1, g2, g3, _⟩ := hs
    rcases this with rfl | rfl
    · refine ⟨.dict [("value", Json.lit (String.ofList (Aes.ct (c.aes cm.key) s.toList)))], .text _, ?_, rfl⟩
      simp (decide := true) [encryptValue, Json.lit, Dict.getItem, Dict.get?_cons, encodeJson, g2, g3, pyStr, sym_eq, Except.map]
    · obtain ⟨y, hy⟩ := fuzzy_eq c cm.key s
      refine ⟨.dict [("value", Json.lit y)], .text y, ?_, rfl⟩
      simp (decide := true) [encryptValue, Json.lit, Dict.getItem, Dict.get?_cons, encodeJson, g2, g3, pyStr, hy, Except.map]

theorem encryptAll_ok {c : Crypto} {cm : ColMeta} {v : Val} (hs : Suits cm v) (ha : Accepts cm v) {x : Json} (hx : pyItem "value" v.json = .ok x) :
    ∀ (encs : List String), (∀ e ∈ encs, e ∈ Dict.keys cm.encCols) → ∃ outs, encryptAll c cm x encs = .ok outs ∧ outs.length = encs.length ∧
      ∀ o ∈ outs, (dbLit o).isSome
  | [], _ => ⟨[], by simp [encryptAll], rfl, by simp⟩
  | e :: r, h => by
    obtain ⟨out, y, h1, h2⟩ := encryptValue_ok (c := c) hs ha (h e (by simp)) hx
    obtain ⟨outs, h3, h4, h5⟩ := encryptAll_ok (c := c) hs ha hx r (fun e he => h e (by simp [he]))
    refine ⟨out :: outs, by rw [encryptAll, h1, h3], by simp [h4], ?_⟩
    intro o ho
    rcases List.mem_cons.1 ho with rfl | ho
    · simp [h2]
    · exact h5 o ho

theorem storeRow_append : ∀ (n1 v1 n2 v2 : List Json) (r1 r2 : Dict String DbVal), storeRow n1 v1 = some r1 → storeRow n2 v2 = some r2 →
    storeRow (n1 ++ n2) (v1 ++ v2) = some (r1 ++ r2)
  | [], [], n2, v2, r1, r2, h1, h2 => by rw [storeRow] at h1; injection h1 with h1; subst h1; simpa using h2
  | [], v :: vs, n2, v2, r1, r2, h1, h2 => by simp [storeRow] at h1
  | n :: ns, [], n2, v2, r1, r2, h1, h2 => by cases n <;> simp [storeRow] at h1
  | n :: ns, v :: vs, n2, v2, r1, r2, h1, h2 => by
    cases n with
    | str n =>
      rw [storeRow] at h1
      split at h1
      · rename_i x r hx hr
        injection h1 with h1
        subst h1
        rw [List.cons_append, List.cons_append, storeRow, hx, storeRow_append ns vs n2 v2 r r2 hr h2]
        rfl
      · cases h1
    | null => simp [storeRow] at h1
    | int z => simp [storeRow] at h1
    | float z => simp [storeRow] at h1
    | list z => simp [storeRow] at h1
    | dict z => simp [storeRow] at h1

theorem storeRow_strs : ∀ (ns : List String) (vs : List Json), vs.length = ns.length → (∀ v ∈ vs, (dbLit v).isSome) →
    ∃ r, storeRow (ns.map .str) vs = some r
  | [], [], _, _ => ⟨[], rfl⟩
  | [], _ :: _, h, _ => by simp at h
  | _ :: _, [], h, _ => by simp at h
  | n :: ns, v :: vs, h, hv => by
    obtain ⟨r, hr⟩ := storeRow_strs ns vs (by simpa using h) (fun v hv' => hv v (by simp [hv']))
    obtain ⟨x, hx⟩ := Option.isSome_iff_exists.1 (hv v (by simp))
    exact ⟨(n, x) :: r, by rw [List.map_cons, storeRow, hx, hr]⟩

theorem insertLoops_ok {c : Crypto} {cols : Dict String ColMeta} : ∀ (row : List (String × Val)),
    (∀ e ∈ row, ∃ cm, Dict.get? cols e.1 = some cm ∧ Suits cm e.2 ∧ Accepts cm e.2) →
    ∃ bcols bvals stored, columnsLoop cols (row.map fun e => .str e.1) = .ok bcols ∧
      valuesLoop c cols (row.map fun e => .str e.1) (row.map fun e => e.2.json) = .ok bvals ∧ storeRow bcols bvals = some stored
  | [], _ => ⟨[], [], [], by simp [columnsLoop], by simp [valuesLoop], by simp [storeRow]⟩
  | (n, v) :: r, h => by
    obtain ⟨bcols, bvals, stored, h1, h2, h3⟩ := insertLoops_ok (c := c) (cols := cols) r (fun e he => h e (by simp [he]))
    obtain ⟨cm, hc, hs, ha⟩ := h (n, v) (by simp)
    simp only at hc hs ha
    have hcj : colOfJson cols (.str n) = .ok cm := getItem_ok.2 hc
    have hx : ∃ x, pyItem "value" v.json = .ok x := by
      cases v with
      | int z => exact ⟨.int z, rfl⟩
      | text s => exact ⟨Json.lit s, rfl⟩
    obtain ⟨x, hx⟩ := hx
    simp only [List.map_cons, columnsLoop, valuesLoop, hcj, h1, h2]
    by_cases hp : cm.plaintext = true
    · simp only [hp, if_true]
      have : ∃ y, dbLit v.json = some y := by
        cases v with
        | int z => exact ⟨.int z, rfl⟩
        | text s => exact ⟨.text s, rfl⟩
      obtain ⟨y, hy⟩ := this
      refine ⟨_, _, [(n, y)] ++ stored, rfl, rfl, storeRow_append [.str n] [v.json] _ _ _ _ ?_ h3⟩
      simp [storeRow, hy]
    · simp only [hp, hx]
      obtain ⟨outs, h4, h5, h6⟩ := encryptAll_ok (c := c) hs ha hx (Dict.keys cm.encCols) (fun e he => he)
      rw [h4]
      obtain ⟨r0, hr0⟩ := storeRow_strs (cm.encCols.map Prod.snd) outs (by rw [h5]; simp [Dict.keys]) h6
      refine ⟨_, _, r0 ++ stored, rfl, rfl, storeRow_append _ _ _ _ _ _ ?_ h3⟩
      rw [List.map_map] at hr0
      exact hr0

/-- The loop succeeds if each clause does. -/
theorem clauseLoop_ok (c : Crypto) (db : Db) (f) (table : Json) (columns : Option Json) : ∀ (keys : List String) (json : Dict String Json) (s : Sel), keys.Nodup →
    (∀ k ∈ keys, ∀ v, Dict.get? json k = some v → k ≠ "from" ∧ ∃ v', ∀ s, stepKey c db table columns k v s = .ok (v', s)) →
    ∃ json', clauseLoop c db f table columns keys json s = .ok (json', s)
  | [], json, s, _, _ => ⟨json, by rw [clauseLoop]⟩
  | k :: r, json, s, hn, h => by
    have hn' := List.nodup_cons.1 hn
    rw [clauseLoop]
    cases hg : Dict.get? json k with
    | none => exact clauseLoop_ok c db f table columns r json s hn'.2 (fun k hk => h k (by simp [hk]))
    | some v =>
      obtain ⟨h1, v', h2⟩ := h k (by simp) v hg
      simp only [if_neg h1, h2 s]
      refine clauseLoop_ok c db f table columns r _ s hn'.2 ?_
      intro k' hk' w hw
      rw [Dict.get?_set_ne _ (by rintro rfl; exact hn'.1 hk')] at hw
      exact h k' (by simp [hk']) w hw

/-- **C25, partial.** Such an INSERT is accepted and the backend can store the row. -/
theorem C25_insert_accepted_partial (c : Crypto) (db : Db) (fuel : Nat) (t : String) (tm : TableMeta ColMeta) (row : List (String × Val))
    (ht : Dict.get? db t = some tm) (h : ∀ e ∈ row, ∃ cm, Dict.get? tm.columns e.1 = some cm ∧ Suits cm e.2 ∧ Accepts cm e.2) :
    ∃ ins s stored, rewriteQuery c db fuel (insertJson t row) = .ok (ins, .str t, s) ∧ Dict.get? ins "insert" = some (.str tm.anonymous) ∧
      runInsert ins = some stored := by
  obtain ⟨bcols, bvals, stored, h1, h2, h3⟩ := insertLoops_ok (c := c) row h
  have htab : tableOf db t = .ok tm := getItem_ok.2 ht
  have hi := insertJson_isInsert t row
  have hloop : ∃ ins, clauseLoop c db (fromOuter c db (rewriteClause c db fuel)) (.str t) (Dict.get? (insertJson t row) "columns") clauseKeys
      (insertJson t row) {} = .ok (ins, {}) := by
    refine clauseLoop_ok c db _ _ _ clauseKeys _ {} clauseKeys_nodup ?_
    intro k hk v hv
    by_cases a : k = "insert"
    · subst a
      rw [hi.table] at hv
      injection hv with hv
      subst hv
      exact ⟨by decide, _, fun s => by simp (decide := true) only [stepKey, if_true, if_false, anonRw, tableOfJson, htab, Except.map]; rfl⟩
    · by_cases b : k = "columns"
      · subst b
        rw [hi.columns] at hv
        injection hv with hv
        subst hv
        exact ⟨by decide, _, fun s => by simp (decide := true) only [stepKey, if_true, if_false, columnsRw, tableOfJson, htab, pyIter, h1, Except.map]; rfl⟩
      · by_cases d : k = "query"
        · subst d
          rw [hi.query] at hv
          injection hv with hv
          subst hv
          refine ⟨by decide, .dict [("select", .list bvals)], fun s => ?_⟩
          rw [hi.columns]
          simp (decide := true) only [stepKey, if_true, if_false, innerItems, valuesRw, tableOfJson, htab, pyIter, h2, Except.map]
        · rw [hi.rest k hk a b d] at hv
          cases hv
  obtain ⟨ins, hl⟩ := hloop
  have hq : rewriteQuery c db fuel (insertJson t row) = .ok (ins, .str t, {}) := by
    unfold rewriteQuery
    rw [findTable_insert hi.table]
    simp only
    rw [hl]
  obtain ⟨tm', bcols', bvals', g0, g1, g2, g3, g4, g5⟩ := insert_spec hi hq
  rw [ht] at g0
  injection g0 with g0
  subst g0
  rw [h1] at g1
  rw [h2] at g2
  injection g1 with g1
  injection g2 with g2
  subst g1 g2
  refine ⟨ins, {}, stored, hq, g3, ?_⟩
  simp [runInsert, g4, g5, h3]

/-! ### SELECT * -/

theorem starCols_plain (db : Db) (t : String) (all : Dict String ColMeta) : ∀ (cols : Dict String ColMeta) (s : Sel),
    (∀ e ∈ cols, Dict.get? all e.1 = some e.2) → (∀ e ∈ cols, ∃ b, readName e.1 e.2 = some b) →
    starCols db false t (.str t) "symmetric" cols s = .ok ((readNames all (cols.map Prod.fst)).map .str, pushAll all s (cols.map Prod.fst))
  | [], s, _, _ => by simp [starCols, readNames, pushAll]
  | (k, v) :: r, s, ha, hr => by
    have hk := ha (k, v) (by simp)
    obtain ⟨b, hb⟩ := hr (k, v) (by simp)
    simp only at hk hb
    have ih := fun s => starCols_plain db t all r s (fun e he => ha e (by simp [he])) (fun e he => hr e (by simp [he]))
    have hn : (if v.plaintext then .ok k else Dict.getItem v.encCols "symmetric" : Except PyErr String) = .ok b := by
      unfold readName at hb
      split at hb
      · rename_i hp; rw [if_pos hp]; injection hb with hb; rw [hb]
      · rename_i hp; rw [if_neg hp]; exact getItem_ok.2 hb
    have hst : (if v.plaintext then "plaintext" else "symmetric") = readState v := rfl
    rw [starCols]
    simp only [starPrefix, hn]
    rw [hst]
    simp only [Bool.false_eq_true, if_false, String.empty_append, if_true]
    rw [ih]
    simp [readNames, hk, hb, pushAll]

/-- `SELECT * FROM t` as parsed. -/
def starJson (t : String) : Dict String Json := [("select", .str "*"), ("from", .str t)]

/-- **C25, partial.** After an INSERT of all columns that the proxy accepts, `SELECT *` returns the values in the order of the metadata. -/
theorem C25_insert_then_select_star_partial (c : Crypto) (homDec : Nat × Nat → DbVal → Except PyErr DbVal) (ev : String → Option OutVal) (db : Db) (fuel : Nat)
    (t : String) (tm : TableMeta ColMeta) (row sel : List (String × Val)) (ins : Dict String Json) (table : Json) (s0 : Sel) (stored : Dict String DbVal)
    (ht : Dict.get? db t = some tm) (hp : PlainTable t)
    (hk : ∀ n cm, Dict.get? tm.columns n = some cm → cm.plaintext = false → ∀ e ∈ Dict.keys cm.encCols, e ∈ knownCiphers)
    (hkeys : (Dict.keys tm.columns).Nodup) (hnames : ((row.map Prod.fst).flatMap (backendNames tm.columns)).Nodup)
    (hsuits : ∀ e ∈ row, ∃ cm, Dict.get? tm.columns e.1 = some cm ∧ Suits cm e.2)
    (hins : rewriteQuery c db fuel (insertJson t row) = .ok (ins, table, s0)) (hstore : runInsert ins = some stored)
    (hsel : ∀ e ∈ sel, e ∈ row) (hread : ∀ e ∈ sel, Readable tm.columns e.1) (hall : sel.map Prod.fst = Dict.keys tm.columns) :
    ∃ q s cells, rewriteQuery c db fuel (starJson t) = .ok (q, .str t, s) ∧ runSelect q stored = some cells ∧
      decryptRow c homDec ev db (.str t) s.columns s.state cells = .ok (sel.map fun e => e.2.out) := by
  obtain ⟨cells, h1, h2⟩ := stored_cells c homDec ev db fuel t tm row sel ins table s0 stored ht hk hnames hsuits hins hstore hsel hread
  have htab : tableOf db t = .ok tm := getItem_ok.2 ht
  have hst : starCols db false t (.str t) "symmetric" tm.columns {} =
      .ok ((readNames tm.columns (Dict.keys tm.columns)).map .str, pushAll tm.columns {} (Dict.keys tm.columns)) := by
    refine starCols_plain db t tm.columns tm.columns {} (fun e he => Dict.get?_of_mem_nodup hkeys he) ?_
    intro e he
    have : e.1 ∈ sel.map Prod.fst := by rw [hall]; exact List.mem_map.2 ⟨e, he, rfl⟩
    obtain ⟨x, hx, hxe⟩ := List.mem_map.1 this
    obtain ⟨cm, b, hc, hb⟩ := (hread x hx).col
    rw [hxe, Dict.get?_of_mem_nodup hkeys he] at hc
    injection hc with hc
    subst hc
    rw [hxe] at hb
    exact ⟨b, hb⟩
  have hselRw : selRw db (.str t) "symmetric" {} (.str "*") =
      .ok (.list ((readNames tm.columns (Dict.keys tm.columns)).map .str), pushAll tm.columns {} (Dict.keys tm.columns)) := by
    simp only [selRw, if_true, selStar]
    simp [starTables, htab, hst]
  have hq := select_query (c := c) (db := db) (fuel := fuel) (json := starJson t) (fr := .str t) (fr' := .str tm.anonymous)
    (s2 := pushAll tm.columns {} (Dict.keys tm.columns)) (by simp [starJson, Dict.get?_cons]) (by simp [starJson, Dict.get?_cons])
    (by intro k _ h1 h2; simp [starJson, Dict.get?_cons, Ne.symm h1, Ne.symm h2]) hselRw
    (by
      unfold PlainTable at hp
      simp [fromOuter, fromInner, hp, fromRw, htab, Except.map])
  refine ⟨_, _, cells, hq, ?_, by rw [← hall]; exact h2⟩
  rw [← hall]
  unfold runSelect
  rw [Dict.get?_set_ne _ (by decide), Dict.get?_set_self]
  simp only [selectNames_map]
  exact h1

/-! ### Where it fails -/

/-- **C25 fails for NULL.** No INSERT of NULL into an encrypted column is accepted: the parser gives `{'null': {}}` and the rewriter raises KeyError. -/
theorem C25_fails_null (c : Crypto) (cm : ColMeta) (enc : String) : encryptValue c cm (.dict [("null", .dict [])]) enc = .error .keyError := by
  simp [encryptValue, Dict.getItem, Dict.get?_cons]

/-- **C25 fails for text in numeric columns.** The decryption of an int column runs `eval` on the decrypted text, so a text that an int column with a
symmetric cipher alone accepts comes back as whatever `eval` makes of it. -/
theorem C25_fails_eval (c : Crypto) (homDec : Nat × Nat → DbVal → Except PyErr DbVal) (ev : String → Option OutVal) (db : Db) (t n : String) (tm : TableMeta ColMeta)
    (cm : ColMeta) (s : String) (w : OutVal) (ht : Dict.get? db t = some tm) (hc : Dict.get? tm.columns n = some cm) (hn : '.' ∉ n.toList) (hi : cm.type = "int")
    (hs : ¬ Aes.EndsInNul s.toList) (hnum : ∃ e, Text.parseInt s.toList = .error e) (hw : ev s = some w) :
    ∃ ct, encryptValue c cm (Json.lit s) "symmetric" = .ok (.dict [("value", Json.lit ct)]) ∧
      decryptVal c homDec ev db (.str t) (.text ct) n "symmetric" = .ok w := by
  have h1 : tableOfJson db (.str t) = .ok tm := getItem_ok.2 ht
  have h2 : Dict.getItem tm.columns n = .ok cm := getItem_ok.2 hc
  have hd : splitDot n = [n] := by
    unfold splitDot
    rw [Text.split_word]
    · simp
    · exact hn
  obtain ⟨e, he⟩ := hnum
  refine ⟨String.ofList (Aes.ct (c.aes cm.key) s.toList), ?_, ?_⟩
  · simp [encryptValue, Json.lit, Dict.getItem, Dict.get?_cons, encodeJson, hi, pyStr, sym_eq, Except.map]
  · unfold decryptVal decCol
    rw [if_neg (by simp)]
    simp only [hd, h1, h2, if_true]
    rw [symDec_ct _ _ _ hs]
    simp [Except.map, decodeVal, hi, he, hw]

end EulerDB.Clause
