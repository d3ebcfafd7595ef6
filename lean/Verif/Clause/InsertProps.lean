import Verif.Clause.Rewriter
import Verif.Ope.Props
import Verif.Aes.Props

/-!
# INSERT (C23, C24)

A parsed `INSERT INTO t (c1, ..., cn) VALUES (v1, ..., vn)` has the keys "insert" (the table), "columns" (the names) and "query" with the values
under "select".  A parsed INSERT of several rows has "insert" and "values".
-/

namespace EulerDB.Clause

open EulerDB EulerDB.Delta

/-! ## Vocabulary -/

/-- The number or text a user wrote for a column: a number stands for itself, a text is a "literal". -/
inductive Typed (cm : ColMeta) : Json → Json → Prop
  | text (s : String) : cm.type ≠ "float" → cm.type ≠ "double" → Typed cm (Json.lit s) (.str s)
  | int (z : Int) : cm.type ≠ "float" → cm.type ≠ "double" → Typed cm (.int z) (.int z)
  | num (q : ℚ) : cm.type ≠ "float" → cm.type ≠ "double" → Typed cm (.float q) (.float q)
  | floatInt (z : Int) : cm.type = "float" → Typed cm (.int z) (.int (Codec.encodeFloat z))
  | floatNum (q : ℚ) : cm.type = "float" → Typed cm (.float q) (.int (Codec.encodeFloat q))
  | doubleInt (z y : Int) : cm.type = "double" → Codec.encodeDouble z = .ok y → Typed cm (.int z) (.int y)
  | doubleNum (q : ℚ) (y : Int) : cm.type = "double" → Codec.encodeDouble q = .ok y → Typed cm (.float q) (.int y)

/-- `out` is what the backend column of cipher `enc` of a column must receive for the user value `v`: the encoded value, encrypted with that
cipher under the key of the column. -/
inductive Enciphered (c : Crypto) (cm : ColMeta) (v : Json) : String → Json → Prop
  | ope (w : Json) (z y : Int) : Typed cm v w → pyInt w = .ok z → c.opeEnc cm.key z = .ok y →
      Enciphered c cm v "order-preserving" (.dict [("value", .int y)])
  | sym (w : Json) (t y : String) : Typed cm v w → pyStr c w = .ok t → c.sym cm.key t = .ok y →
      Enciphered c cm v "symmetric" (.dict [("value", Json.lit y)])
  | fuzzy (w : Json) (t y : String) : Typed cm v w → pyStr c w = .ok t → c.fuzzy cm.key t = .ok y →
      Enciphered c cm v "fuzzy" (.dict [("value", Json.lit y)])
  | hom (w : Json) (z : Int) (k : Nat × Nat) : Typed cm v w → pyInt w = .ok z → cm.homKey = some k →
      Enciphered c cm v "arithmetic" (.dict [("value", Json.lit (c.hom k z))])

/-- The slots of the backend row a column fills: the backend name and the cipher (none for a plaintext column). -/
def slotsOf (name : Json) (cm : ColMeta) : List (Json × Option String) :=
  if cm.plaintext then [(name, none)] else cm.encCols.map fun e => (.str e.2, some e.1)

/-- A slot: where, by which cipher, from which column and which user value. -/
structure Slot where
  name : Json
  cipher : Option String
  col : ColMeta
  value : Json

/-- All slots of a row, in order. -/
def rowSlots (cols : Dict String ColMeta) : List Json → List Json → List Slot
  | .str n :: js, v :: vs =>
    (match Dict.get? cols n with
      | some cm => (slotsOf (.str n) cm).map fun e => ⟨e.1, e.2, cm, v⟩
      | none => []) ++ rowSlots cols js vs
  | _ :: js, _ :: vs => rowSlots cols js vs
  | _, _ => []

/-- A slot is filled correctly. -/
def Filled (c : Crypto) (s : Slot) (out : Json) : Prop :=
  match s.cipher with
  | none => out = s.value
  | some enc => ∃ x, pyItem "value" s.value = .ok x ∧ Enciphered c s.col x enc out

/-- The four ciphers `encrypt_value` knows. -/
def knownCiphers : List String := ["order-preserving", "symmetric", "fuzzy", "arithmetic"]

/-! ## Facts about one value -/

theorem getItem_ok {α : Type} {d : Dict String α} {k : String} {x : α} : Dict.getItem d k = .ok x ↔ Dict.get? d k = some x := by
  unfold Dict.getItem; cases Dict.get? d k <;> simp

theorem getItem_none {α : Type} {d : Dict String α} {k : String} (h : Dict.get? d k = none) : Dict.getItem d k = .error .keyError := by
  simp [Dict.getItem, h]

/-- What the user wrote, without the "literal" wrapper. -/
theorem encode_typed {cm : ColMeta} {v u w : Json} (hu : (match v with | .dict d => Dict.getItem d "literal" | v => .ok v) = .ok u)
    (hs : ∀ d, v = .dict d → ∃ s, v = Json.lit s) (hw : encodeJson cm.type u = .ok w) (hb : ∀ l, v ≠ .list l) (hn : v ≠ .null)
    (hstr : ∀ s, v ≠ .str s) : Typed cm v w := by
  unfold encodeJson at hw
  cases v with
  | null => exact absurd rfl hn
  | list l => exact absurd rfl (hb l)
  | str s => exact absurd rfl (hstr s)
  | int z =>
    injection hu with hu; subst hu
    by_cases h1 : cm.type = "float"
    · rw [if_pos h1] at hw; injection hw with hw; subst hw; exact .floatInt z h1
    · rw [if_neg h1] at hw
      by_cases h2 : cm.type = "double"
      · rw [if_pos h2] at hw
        simp only at hw
        cases h3 : Codec.encodeDouble (z : ℚ) with
        | error e => rw [h3] at hw; cases hw
        | ok y => rw [h3] at hw; injection hw with hw; subst hw; exact .doubleInt z y h2 h3
      · rw [if_neg h2] at hw; injection hw with hw; subst hw; exact .int z h1 h2
  | float q =>
    injection hu with hu; subst hu
    by_cases h1 : cm.type = "float"
    · rw [if_pos h1] at hw; injection hw with hw; subst hw; exact .floatNum q h1
    · rw [if_neg h1] at hw
      by_cases h2 : cm.type = "double"
      · rw [if_pos h2] at hw
        simp only at hw
        cases h3 : Codec.encodeDouble q with
        | error e => rw [h3] at hw; cases hw
        | ok y => rw [h3] at hw; injection hw with hw; subst hw; exact .doubleNum q y h2 h3
      · rw [if_neg h2] at hw; injection hw with hw; subst hw; exact .num q h1 h2
  | dict d =>
    obtain ⟨s, hs⟩ := hs d rfl
    unfold Json.lit at hs
    injection hs with hs
    subst hs
    have : u = .str s := by
      simp only [Dict.getItem, Dict.get?_cons, if_true] at hu
      injection hu with hu; exact hu.symm
    subst this
    by_cases h1 : cm.type = "float"
    · rw [if_pos h1] at hw; cases hw
    · rw [if_neg h1] at hw
      by_cases h2 : cm.type = "double"
      · rw [if_pos h2] at hw; cases hw
      · rw [if_neg h2] at hw; injection hw with hw; subst hw; exact .text s h1 h2

/-- A user value: a number or a text literal.  (NULL is the dict `{'null': {}}`.) -/
inductive UserVal : Json → Prop
  | int (z : Int) : UserVal (.int z)
  | num (q : ℚ) : UserVal (.float q)
  | text (s : String) : UserVal (Json.lit s)

theorem map_ok {α β : Type} {x : Except PyErr α} {f : α → β} {y : β} : x.map f = .ok y ↔ ∃ a, x = .ok a ∧ f a = y := by
  cases x with
  | error e => simp [Except.map]
  | ok a => simp [Except.map]

/-- A value of a known cipher column. -/
theorem encryptValue_spec {c : Crypto} {cm : ColMeta} {v : Json} {enc : String} {out : Json} (hv : UserVal v)
    (he : enc ∈ knownCiphers) (h : encryptValue c cm v enc = .ok out) : Enciphered c cm v enc out := by
  unfold encryptValue at h
  simp only at h
  split at h
  · cases h
  · rename_i u hu
    split at h
    · cases h
    · rename_i w hw
      have ht : Typed cm v w := by
        cases hv with
        | int z => exact encode_typed hu (by intro d e; cases e) hw (by intro l e; cases e) (by intro e; cases e) (by intro s e; cases e)
        | num q => exact encode_typed hu (by intro d e; cases e) hw (by intro l e; cases e) (by intro e; cases e) (by intro s e; cases e)
        | text s =>
          exact encode_typed hu (fun d e => ⟨s, rfl⟩) hw (by intro l e; cases e) (by intro e; cases e) (by intro s e; cases e)
      simp only [knownCiphers, List.mem_cons, List.not_mem_nil, or_false] at he
      rcases he with rfl | rfl | rfl | rfl
      · rw [if_pos rfl] at h
        split at h
        · cases h
        · rename_i z hz
          obtain ⟨y, hy, rfl⟩ := map_ok.1 h
          exact .ope w z y ht hz hy
      · rw [if_neg (by decide), if_pos rfl] at h
        split at h
        · cases h
        · rename_i z hz
          obtain ⟨y, hy, rfl⟩ := map_ok.1 h
          exact .sym w z y ht hz hy
      · rw [if_neg (by decide), if_neg (by decide), if_pos rfl] at h
        split at h
        · cases h
        · rename_i z hz
          obtain ⟨y, hy, rfl⟩ := map_ok.1 h
          exact .fuzzy w z y ht hz hy
      · rw [if_neg (by decide), if_neg (by decide), if_neg (by decide), if_pos rfl] at h
        split at h
        · cases h
        · rename_i k hk
          split at h
          · cases h
          · rename_i z hz
            injection h with h
            subst h
            exact .hom w z k ht hz hk

theorem encryptAll_spec {c : Crypto} {cm : ColMeta} {v : Json} (hv : UserVal v) : ∀ (encs : List String) (outs : List Json),
    (∀ e ∈ encs, e ∈ knownCiphers) → encryptAll c cm v encs = .ok outs → List.Forall₂ (Enciphered c cm v) encs outs
  | [], outs, _, h => by unfold encryptAll at h; injection h with h; subst h; exact .nil
  | e :: es, outs, hk, h => by
    unfold encryptAll at h
    split at h
    · cases h
    · rename_i x hx
      split at h
      · cases h
      · rename_i xs hxs
        injection h with h
        subst h
        exact .cons (encryptValue_spec hv (hk e (by simp)) hx) (encryptAll_spec hv es xs (fun e he => hk e (by simp [he])) hxs)

/-! ## C23 -/

theorem columnsLoop_spec (cols : Dict String ColMeta) : ∀ (names vs bcols : List Json), names.length = vs.length →
    columnsLoop cols names = .ok bcols → bcols = (rowSlots cols names vs).map Slot.name
  | [], _, bcols, _, h => by unfold columnsLoop at h; injection h with h; subst h; simp [rowSlots]
  | j :: js, [], _, hl, _ => by simp at hl
  | j :: js, v :: vs, bcols, hl, h => by
    unfold columnsLoop at h
    split at h
    · cases h
    · rename_i cm hcm
      split at h
      · cases h
      · rename_i r hr
        injection h with h
        subst h
        have ih := columnsLoop_spec cols js vs r (by simpa using hl) hr
        cases j with
        | str n =>
          have hn := getItem_ok.1 hcm
          simp only [rowSlots, hn, List.map_append, List.map_map, ih]
          congr 1
          unfold slotsOf
          split <;> simp [Function.comp_def]
        | null => cases hcm
        | int z => cases hcm
        | float q => cases hcm
        | list l => cases hcm
        | dict d => cases hcm

theorem valuesLoop_spec (c : Crypto) (cols : Dict String ColMeta) : ∀ (names vs bvals : List Json),
    (∀ n cm, Dict.get? cols n = some cm → cm.plaintext = false → ∀ e ∈ Dict.keys cm.encCols, e ∈ knownCiphers) →
    (∀ v ∈ vs, ∃ x, v = .dict [("value", x)] ∧ UserVal x) →
    valuesLoop c cols names vs = .ok bvals → List.Forall₂ (Filled c) (rowSlots cols names vs) bvals
  | [], vs, bvals, _, _, h => by unfold valuesLoop at h; injection h with h; subst h; simp [rowSlots]
  | j :: js, [], bvals, _, _, h => by unfold valuesLoop at h; injection h with h; subst h; unfold rowSlots; split <;> simp_all
  | j :: js, v :: vs, bvals, hk, hv, h => by
    unfold valuesLoop at h
    split at h
    · cases h
    · rename_i cm hcm
      simp only at h
      split at h
      · cases h
      · rename_i xs hxs
        split at h
        · cases h
        · rename_i r hr
          injection h with h
          subst h
          have ih := valuesLoop_spec c cols js vs r hk (fun v hv' => hv v (by simp [hv'])) hr
          cases j with
          | str n =>
            have hn := getItem_ok.1 hcm
            simp only [rowSlots, hn]
            refine List.rel_append ?_ ih
            obtain ⟨x, rfl, hx⟩ := hv v (by simp)
            unfold slotsOf
            split at hxs
            · rename_i hp
              injection hxs with hxs
              subst hxs
              simp [hp, Filled]
            · rename_i hp
              simp only [pyItem, Dict.getItem, Dict.get?_cons, if_true] at hxs
              have hf := encryptAll_spec hx _ _ (hk n cm hn (by simpa using hp)) hxs
              rw [if_neg hp]
              unfold Dict.keys at hf
              rw [List.forall₂_map_left_iff] at hf
              rw [List.map_map, List.forall₂_map_left_iff]
              refine hf.imp ?_
              intro e out he
              exact ⟨x, by simp [pyItem, Dict.getItem, Dict.get?_cons], he⟩
          | null => cases hcm
          | int z => cases hcm
          | float q => cases hcm
          | list l => cases hcm
          | dict d => cases hcm

/-- A parsed single-row INSERT: the table, the column names and the values, and no other clause the rewriter knows. -/
structure IsInsert (json : Dict String Json) (t : String) (names vs : List Json) : Prop where
  table : Dict.get? json "insert" = some (.str t)
  columns : Dict.get? json "columns" = some (.list names)
  query : Dict.get? json "query" = some (.dict [("select", .list vs)])
  rest : ∀ k ∈ clauseKeys, k ≠ "insert" → k ≠ "columns" → k ≠ "query" → Dict.get? json k = none

/-- One clause, FROM included. -/
def oneStep (c : Crypto) (db : Db) (f : Json → Json → Sel → Except PyErr (Json × Sel)) (table : Json) (columns : Option Json) (k : String) (v : Json)
    (s : Sel) : Except PyErr (Json × Sel) := if k = "from" then f table v s else stepKey c db table columns k v s

/-- What the clause loop does to each key: clauses the rewriter knows are rewritten, everything else stays. -/
theorem clauseLoop_spec (c : Crypto) (db : Db) (f) (table : Json) (columns : Option Json) : ∀ (keys : List String) (json json' : Dict String Json)
    (s s' : Sel), keys.Nodup → clauseLoop c db f table columns keys json s = .ok (json', s') →
    ∀ k, (k ∉ keys → Dict.get? json' k = Dict.get? json k) ∧
      (k ∈ keys → (Dict.get? json k = none → Dict.get? json' k = none) ∧
        ∀ v, Dict.get? json k = some v → ∃ v' s1 s2, oneStep c db f table columns k v s1 = .ok (v', s2) ∧ Dict.get? json' k = some v')
  | [], json, json', s, s', _, h, k => by
    rw [clauseLoop] at h
    injection h with h
    injection h with h1 h2
    subst h1
    simp
  | key :: r, json, json', s, s', hn, h, k => by
    have hn' := List.nodup_cons.1 hn
    rw [clauseLoop] at h
    split at h
    · rename_i h0
      have ih := clauseLoop_spec c db f table columns r json json' s s' hn'.2 h k
      by_cases hk : k = key
      · subst hk
        have := ih.1 hn'.1
        exact ⟨by simp, fun _ => ⟨fun _ => by rw [this]; exact h0, fun v hv => (by rw [h0] at hv; cases hv)⟩⟩
      · exact ⟨fun hm => ih.1 (fun hm' => hm (by simp [hm'])), fun hm => ih.2 (by simpa [hk] using hm)⟩
    · rename_i v h0
      split at h
      · cases h
      · rename_i v' s1 h1
        have ih := clauseLoop_spec c db f table columns r _ json' s1 s' hn'.2 h k
        by_cases hk : k = key
        · subst hk
          have := ih.1 hn'.1
          rw [Dict.get?_set_self] at this
          refine ⟨by simp, fun _ => ⟨fun h2 => (by rw [h0] at h2; cases h2), fun w hw => ?_⟩⟩
          rw [h0] at hw
          injection hw with hw
          subst hw
          exact ⟨v', s, s1, h1, this⟩
        · rw [Dict.get?_set_ne _ hk] at ih
          exact ⟨fun hm => ih.1 (fun hm' => hm (by simp [hm'])), fun hm => ih.2 (by simpa [hk] using hm)⟩

theorem clauseKeys_nodup : clauseKeys.Nodup := by decide

/-- `rewrite_query`, clause by clause. -/
theorem rewriteQuery_spec {c : Crypto} {db : Db} {fuel : Nat} {json json' : Dict String Json} {table : Json} {s : Sel}
    (h : rewriteQuery c db fuel json = .ok (json', table, s)) :
    findTable json tableKeys = .ok table ∧ ∀ k, (k ∉ clauseKeys → Dict.get? json' k = Dict.get? json k) ∧
      (k ∈ clauseKeys → (Dict.get? json k = none → Dict.get? json' k = none) ∧
        ∀ v, Dict.get? json k = some v → ∃ v' s1 s2,
          oneStep c db (fromOuter c db (rewriteClause c db fuel)) table (Dict.get? json "columns") k v s1 = .ok (v', s2) ∧ Dict.get? json' k = some v') := by
  unfold rewriteQuery at h
  split at h
  · cases h
  · rename_i t ht
    split at h
    · cases h
    · rename_i j s1 hl
      injection h with h
      injection h with h1 h2
      injection h2 with h2 h3
      subst h1 h2 h3
      exact ⟨ht, clauseLoop_spec c db _ _ _ _ _ _ _ _ clauseKeys_nodup hl⟩

/-- Which tables a statement is about: for INSERT it is the value of "insert". -/
theorem findTable_insert {json : Dict String Json} {t : Json} (h : Dict.get? json "insert" = some t) : findTable json tableKeys = .ok t := by
  rw [tableKeys, findTable, h]

/-- What a rewritten INSERT consists of. -/
theorem insert_spec {c : Crypto} {db : Db} {fuel : Nat} {json json' : Dict String Json} {t : String} {names vs : List Json} {table : Json} {s : Sel}
    (hi : IsInsert json t names vs) (h : rewriteQuery c db fuel json = .ok (json', table, s)) :
    ∃ tm bcols bvals, Dict.get? db t = some tm ∧ columnsLoop tm.columns names = .ok bcols ∧ valuesLoop c tm.columns names vs = .ok bvals ∧
      Dict.get? json' "insert" = some (.str tm.anonymous) ∧ Dict.get? json' "columns" = some (.list bcols) ∧
      Dict.get? json' "query" = some (.dict [("select", .list bvals)]) := by
  obtain ⟨ht, hk⟩ := rewriteQuery_spec h
  rw [findTable_insert hi.table] at ht
  injection ht with ht
  subst ht
  obtain ⟨v1, s1, s2, h1, h1'⟩ := ((hk "insert").2 (by decide)).2 _ hi.table
  obtain ⟨v2, s3, s4, h2, h2'⟩ := ((hk "columns").2 (by decide)).2 _ hi.columns
  obtain ⟨v3, s5, s6, h3, h3'⟩ := ((hk "query").2 (by decide)).2 _ hi.query
  rw [hi.columns] at h1 h2 h3
  simp only [oneStep, stepKey, anonRw, tableOfJson, columnsRw, innerItems, valuesRw, pyIter] at h1 h2 h3
  simp (decide := true) only [if_true, if_false] at h1 h2 h3
  cases htm : tableOf db t with
  | error e => rw [htm] at h1; cases h1
  | ok tm =>
    rw [htm] at h1 h2 h3
    simp only [Except.map] at h1 h2 h3
    injection h1 with h1
    injection h1 with h1 _
    cases hc : columnsLoop tm.columns names with
    | error e => rw [hc] at h2; cases h2
    | ok bcols =>
      rw [hc] at h2
      injection h2 with h2
      injection h2 with h2 _
      cases hv : valuesLoop c tm.columns names vs with
      | error e => rw [hv] at h3; cases h3
      | ok bvals =>
        rw [hv] at h3
        injection h3 with h3
        injection h3 with h3 _
        exact ⟨tm, bcols, bvals, getItem_ok.1 htm, hc, hv, by rw [h1', ← h1], by rw [h2', ← h2], by rw [h3', ← h3]⟩

/-- **C23, partial.** A rewritten single-row INSERT names the backend columns of the given columns in order and carries, position by position, the
encryption of the value of that column under the cipher of that backend column.  Missing: columns with an SM4 cipher, lists of different lengths (below). -/
theorem C23_insert_aligned_partial (c : Crypto) (db : Db) (fuel : Nat) (json json' : Dict String Json) (t : String) (names vs : List Json) (table : Json)
    (s : Sel) (tm : TableMeta ColMeta) (hi : IsInsert json t names vs) (htm : Dict.get? db t = some tm) (hl : names.length = vs.length)
    (hk : ∀ n cm, Dict.get? tm.columns n = some cm → cm.plaintext = false → ∀ e ∈ Dict.keys cm.encCols, e ∈ knownCiphers)
    (hv : ∀ v ∈ vs, ∃ x, v = .dict [("value", x)] ∧ UserVal x) (h : rewriteQuery c db fuel json = .ok (json', table, s)) :
    ∃ bvals, Dict.get? json' "columns" = some (.list ((rowSlots tm.columns names vs).map Slot.name)) ∧
      Dict.get? json' "query" = some (.dict [("select", .list bvals)]) ∧ List.Forall₂ (Filled c) (rowSlots tm.columns names vs) bvals := by
  obtain ⟨tm', bcols, bvals, h0, h1, h2, _, h4, h5⟩ := insert_spec hi h
  rw [htm] at h0
  injection h0 with h0
  subst h0
  exact ⟨bvals, by rw [h4, columnsLoop_spec _ _ _ _ hl h1], h5, valuesLoop_spec c _ _ _ _ hk hv h2⟩

/-- **C23, partial.** In particular there are as many values as backend columns. -/
theorem C23_same_length_partial (c : Crypto) (db : Db) (fuel : Nat) (json json' : Dict String Json) (t : String) (names vs : List Json) (table : Json)
    (s : Sel) (tm : TableMeta ColMeta) (hi : IsInsert json t names vs) (htm : Dict.get? db t = some tm) (hl : names.length = vs.length)
    (hk : ∀ n cm, Dict.get? tm.columns n = some cm → cm.plaintext = false → ∀ e ∈ Dict.keys cm.encCols, e ∈ knownCiphers)
    (hv : ∀ v ∈ vs, ∃ x, v = .dict [("value", x)] ∧ UserVal x) (h : rewriteQuery c db fuel json = .ok (json', table, s)) :
    ∃ bcols bvals, Dict.get? json' "columns" = some (.list bcols) ∧ Dict.get? json' "query" = some (.dict [("select", .list bvals)]) ∧
      bcols.length = bvals.length := by
  obtain ⟨bvals, h1, h2, h3⟩ := C23_insert_aligned_partial c db fuel json json' t names vs table s tm hi htm hl hk hv h
  exact ⟨_, bvals, h1, h2, by rw [List.length_map, h3.length_eq]⟩

/-- `zip` forgets the values that have no column. -/
theorem valuesLoop_extra (c : Crypto) (cols : Dict String ColMeta) (extra : List Json) : ∀ (names vs : List Json), names.length = vs.length →
    valuesLoop c cols names (vs ++ extra) = valuesLoop c cols names vs
  | [], vs, h => by cases vs with
    | nil => cases extra <;> simp [valuesLoop]
    | cons a b => simp at h
  | j :: js, [], h => by simp at h
  | j :: js, v :: vs, h => by
    rw [List.cons_append, valuesLoop, valuesLoop, valuesLoop_extra c cols extra js vs (by simpa using h)]

/-- **C23 fails.** An INSERT with more values than columns, which MySQL rejects, is rewritten to the INSERT without the superfluous values. -/
theorem C23_fails_extra_values_dropped (c : Crypto) (db : Db) (fuel : Nat) (json json' : Dict String Json) (t : String) (names vs extra : List Json)
    (table : Json) (s : Sel) (tm : TableMeta ColMeta) (hi : IsInsert json t names (vs ++ extra)) (htm : Dict.get? db t = some tm)
    (hl : names.length = vs.length)
    (hk : ∀ n cm, Dict.get? tm.columns n = some cm → cm.plaintext = false → ∀ e ∈ Dict.keys cm.encCols, e ∈ knownCiphers)
    (hv : ∀ v ∈ vs, ∃ x, v = .dict [("value", x)] ∧ UserVal x) (h : rewriteQuery c db fuel json = .ok (json', table, s)) :
    ∃ bcols bvals, Dict.get? json' "columns" = some (.list bcols) ∧ Dict.get? json' "query" = some (.dict [("select", .list bvals)]) ∧
      bcols.length = bvals.length ∧ List.Forall₂ (Filled c) (rowSlots tm.columns names vs) bvals := by
  obtain ⟨tm', bcols, bvals, h0, h1, h2, _, h4, h5⟩ := insert_spec hi h
  rw [htm] at h0
  injection h0 with h0
  subst h0
  rw [valuesLoop_extra c _ extra names vs hl] at h2
  have h6 := valuesLoop_spec c _ _ _ _ hk hv h2
  exact ⟨bcols, bvals, h4, h5, by rw [columnsLoop_spec _ _ _ _ hl h1, List.length_map, h6.length_eq], h6⟩

/-- **C23 fails for SM4.** The value of an SM4 backend column (of any cipher outside the four known ones) is None, whatever the user gave. -/
theorem C23_fails_sm4_none (c : Crypto) (cm : ColMeta) (v out : Json) (enc : String) (he : enc ∉ knownCiphers)
    (h : encryptValue c cm v enc = .ok out) : out = .null := by
  simp only [knownCiphers, List.mem_cons, List.not_mem_nil, or_false, not_or] at he
  unfold encryptValue at h
  simp only at h
  split at h
  · cases h
  · split at h
    · cases h
    · rw [if_neg he.1, if_neg he.2.1, if_neg he.2.2.1, if_neg he.2.2.2] at h
      injection h with h
      exact h.symm

/-- **C23 fails for one column.** The parser gives the only column as a string and the only value as a dict; the rewriter raises, so an INSERT of a single
column never succeeds. -/
theorem C23_fails_single_column (c : Crypto) (db : Db) (fuel : Nat) (json : Dict String Json) (t : String) (v : Json)
    (ht : Dict.get? json "insert" = some (.str t)) (hq : Dict.get? json "query" = some (.dict [("select", .dict [("value", v)])])) :
    ¬ ∃ r, rewriteQuery c db fuel json = .ok r := by
  rintro ⟨⟨json', table, s⟩, h⟩
  obtain ⟨_, hk⟩ := rewriteQuery_spec h
  obtain ⟨v3, s5, s6, h3, _⟩ := ((hk "query").2 (by decide)).2 _ hq
  simp only [oneStep, stepKey, innerItems, Dict.get?_cons, Dict.get?_nil] at h3
  simp (decide := true) only [if_true, if_false] at h3
  cases h3

/-! ## C24 -/

/-- **C24, partial.** Every value a single-row INSERT sends for an encrypted column is the output of a known cipher under the key of that column, or None
for the other cipher names.  Missing: several rows (below). -/
theorem C24_single_row_encrypted_partial (c : Crypto) (db : Db) (fuel : Nat) (json json' : Dict String Json) (t : String) (names vs : List Json)
    (table : Json) (s : Sel) (tm : TableMeta ColMeta) (hi : IsInsert json t names vs) (htm : Dict.get? db t = some tm) (hl : names.length = vs.length)
    (hk : ∀ n cm, Dict.get? tm.columns n = some cm → cm.plaintext = false → ∀ e ∈ Dict.keys cm.encCols, e ∈ knownCiphers)
    (hv : ∀ v ∈ vs, ∃ x, v = .dict [("value", x)] ∧ UserVal x) (h : rewriteQuery c db fuel json = .ok (json', table, s)) :
    ∃ bcols bvals, Dict.get? json' "insert" = some (.str tm.anonymous) ∧ Dict.get? json' "columns" = some (.list bcols) ∧
      Dict.get? json' "query" = some (.dict [("select", .list bvals)]) ∧
      (∀ b ∈ bvals, (∃ n cm v x, Dict.get? tm.columns n = some cm ∧ cm.plaintext = false ∧ v ∈ vs ∧ v = .dict [("value", x)] ∧
          ∃ enc ∈ Dict.keys cm.encCols, Enciphered c cm x enc b) ∨
        ∃ n cm, Json.str n ∈ names ∧ Dict.get? tm.columns n = some cm ∧ cm.plaintext = true ∧ b ∈ vs) ∧
      (∀ b ∈ bcols, (∃ n cm enc m, Dict.get? tm.columns n = some cm ∧ cm.plaintext = false ∧ (enc, m) ∈ cm.encCols ∧ b = .str m) ∨
        ∃ n cm, Dict.get? tm.columns n = some cm ∧ cm.plaintext = true ∧ b = .str n) := by
  obtain ⟨tm', bcols, bvals, h0, h1, h2, h3, h4, h5⟩ := insert_spec hi h
  rw [htm] at h0
  injection h0 with h0
  subst h0
  have hf := valuesLoop_spec c _ _ _ _ hk hv h2
  have hc := columnsLoop_spec _ _ _ _ hl h1
  have hslot : ∀ (names vs : List Json), ∀ sl ∈ rowSlots tm.columns names vs, sl.value ∈ vs ∧ ∃ n, Json.str n ∈ names ∧
      Dict.get? tm.columns n = some sl.col ∧ (sl.name, sl.cipher) ∈ slotsOf (.str n) sl.col := by
    intro names
    induction names with
    | nil => intro vs sl hsl; simp [rowSlots] at hsl
    | cons j js ih =>
      intro vs sl hsl
      cases vs with
      | nil => unfold rowSlots at hsl; split at hsl <;> simp_all
      | cons v vs =>
        cases j with
        | str n =>
          simp only [rowSlots, List.mem_append] at hsl
          rcases hsl with hsl | hsl
          · cases hg : Dict.get? tm.columns n with
            | none => rw [hg] at hsl; simp at hsl
            | some cm =>
              rw [hg] at hsl
              obtain ⟨e, he, rfl⟩ := List.mem_map.1 hsl
              exact ⟨by simp, n, by simp, hg, he⟩
          · obtain ⟨a, n, hn, b⟩ := ih vs sl hsl
            exact ⟨by simp [a], n, by simp [hn], b⟩
        | null => simp only [rowSlots] at hsl; obtain ⟨a, n, hn, b⟩ := ih vs sl hsl; exact ⟨by simp [a], n, by simp [hn], b⟩
        | int z => simp only [rowSlots] at hsl; obtain ⟨a, n, hn, b⟩ := ih vs sl hsl; exact ⟨by simp [a], n, by simp [hn], b⟩
        | float z => simp only [rowSlots] at hsl; obtain ⟨a, n, hn, b⟩ := ih vs sl hsl; exact ⟨by simp [a], n, by simp [hn], b⟩
        | list z => simp only [rowSlots] at hsl; obtain ⟨a, n, hn, b⟩ := ih vs sl hsl; exact ⟨by simp [a], n, by simp [hn], b⟩
        | dict z => simp only [rowSlots] at hsl; obtain ⟨a, n, hn, b⟩ := ih vs sl hsl; exact ⟨by simp [a], n, by simp [hn], b⟩
  refine ⟨bcols, bvals, h3, h4, h5, ?_, ?_⟩
  · intro b hb
    obtain ⟨i, hi', rfl⟩ := List.mem_iff_getElem.1 hb
    have hi2 : i < (rowSlots tm.columns names vs).length := by rw [hf.length_eq]; exact hi'
    have hfi := hf.get hi2 hi'
    simp only [List.get_eq_getElem] at hfi
    obtain ⟨hvm, n, hn, hg, hs⟩ := hslot names vs _ (List.getElem_mem hi2)
    generalize (rowSlots tm.columns names vs)[i] = sl at *
    unfold slotsOf at hs
    unfold Filled at hfi
    split at hs
    · rename_i hp
      simp only [List.mem_singleton, Prod.mk.injEq] at hs
      rw [hs.2] at hfi
      exact Or.inr ⟨n, sl.col, hn, hg, hp, by rw [hfi]; exact hvm⟩
    · rename_i hp
      obtain ⟨e, he, hee⟩ := List.mem_map.1 hs
      injection hee with h6 h7
      rw [← h7] at hfi
      obtain ⟨x, hx, henc⟩ := hfi
      obtain ⟨y, hy, hyu⟩ := hv _ hvm
      rw [hy] at hx
      simp only [pyItem, Dict.getItem, Dict.get?_cons, if_true] at hx
      injection hx with hx
      subst hx
      exact Or.inl ⟨n, sl.col, sl.value, y, hg, by simpa using hp, hvm, hy, e.1, List.mem_map.2 ⟨e, he, rfl⟩, henc⟩
  · intro b hb
    rw [hc] at hb
    obtain ⟨sl, hsl, rfl⟩ := List.mem_map.1 hb
    obtain ⟨_, n, _, hg, hs⟩ := hslot names vs sl hsl
    unfold slotsOf at hs
    split at hs
    · rename_i hp
      simp only [List.mem_singleton, Prod.mk.injEq] at hs
      exact Or.inr ⟨n, sl.col, hg, hp, hs.1⟩
    · rename_i hp
      obtain ⟨e, he, hee⟩ := List.mem_map.1 hs
      injection hee with h6 h7
      exact Or.inl ⟨n, sl.col, e.1, e.2, hg, by simpa using hp, he, h6.symm⟩

/-- **C24 fails for several rows.** An INSERT of several rows is sent with its values, and the logical column names in them, exactly as the user wrote
them: encryption is skipped altogether. -/
theorem C24_fails_multi_row (c : Crypto) (db : Db) (fuel : Nat) (json json' : Dict String Json) (rows : Json) (table : Json) (s : Sel)
    (hv : Dict.get? json "values" = some rows) (h : rewriteQuery c db fuel json = .ok (json', table, s)) :
    Dict.get? json' "values" = some rows := by
  rw [((rewriteQuery_spec h).2 "values").1 (by decide)]
  exact hv

/-- **C24 fails for several rows.** Such a statement is accepted for every table the metadata knows. -/
theorem C24_fails_multi_row_accepted (c : Crypto) (db : Db) (fuel : Nat) (t : String) (tm : TableMeta ColMeta) (rows : Json)
    (htm : Dict.get? db t = some tm) :
    rewriteQuery c db fuel [("insert", .str t), ("values", rows)] =
      .ok ([("insert", .str tm.anonymous), ("values", rows)], .str t, {}) := by
  have : tableOf db t = .ok tm := getItem_ok.2 htm
  simp (decide := true) [rewriteQuery, findTable, tableKeys, Dict.get?_cons, clauseLoop, clauseKeys, stepKey, anonRw, tableOfJson, this, Except.map,
    Dict.set]

end EulerDB.Clause
