import Verif.Batch.Model
import Verif.Clause.RoundTripProps
import Verif.Ope.Props
import Verif.Codec.Props

/-! # C41: batch insert -/

namespace EulerDB.Batch

open EulerDB EulerDB.Delta EulerDB.Clause

/-! ### Chunks -/

theorem chunksGo_flatten {α : Type} (n : Nat) (hn : 0 < n) (f : Nat) (l : List α) (hf : l.length ≤ f) : (chunksGo n f l).flatten = l := by
  induction f generalizing l with
  | zero => cases l with | nil => rfl | cons => simp at hf
  | succ f ih =>
    cases l with
    | nil => rfl
    | cons a l =>
      rw [chunksGo, List.flatten_cons, ih _ (by simp only [List.length_drop, List.length_cons] at hf ⊢; omega), List.take_append_drop]

theorem chunksGo_size {α : Type} (n : Nat) (hn : 0 < n) (f : Nat) (l : List α) : ∀ c ∈ chunksGo n f l, c ≠ [] ∧ c.length ≤ n := by
  induction f generalizing l with
  | zero => simp [chunksGo]
  | succ f ih =>
    cases l with
    | nil => simp [chunksGo]
    | cons a l =>
      intro c hc
      rw [chunksGo, List.mem_cons] at hc
      rcases hc with rfl | hc
      · refine ⟨?_, by simp only [List.length_take]; omega⟩
        cases n with
        | zero => omega
        | succ n => simp
      · exact ih _ c hc

/-- The chunks are all rows of the file, each once and in order; none is empty or longer than 20000 rows. -/
theorem C41_chunks {α : Type} (l : List α) : (chunks chunkSize l).flatten = l ∧ ∀ c ∈ chunks chunkSize l, c ≠ [] ∧ c.length ≤ chunkSize :=
  ⟨chunksGo_flatten _ (by decide) _ l (Nat.le_refl _), chunksGo_size _ (by decide) _ l⟩

/-! ### Columns and rows -/

theorem mapE_ok {α β : Type} {f : α → Except PyErr β} {l : List α} {r : List β} : mapE f l = .ok r ↔ List.Forall₂ (fun a b => f a = .ok b) l r := by
  induction l generalizing r with
  | nil =>
    constructor
    · intro h; simp only [mapE] at h; injection h with h; subst h; exact .nil
    · intro h; cases h; rfl
  | cons a l ih =>
    constructor
    · intro h
      rw [mapE] at h
      cases h1 : f a with
      | error e => rw [h1] at h; cases h
      | ok b =>
        cases h2 : mapE f l with
        | error e => rw [h1, h2] at h; cases h
        | ok l' =>
          rw [h1, h2] at h
          injection h with h
          subst h
          exact .cons h1 (ih.1 h2)
    · intro h
      cases h with
      | cons h1 h2 => rw [mapE, h1, ih.2 h2]

theorem forall₂_get {α β : Type} {R : α → β → Prop} {l : List α} {r : List β} (h : List.Forall₂ R l r) (j : Nat) (a : α) (ha : l[j]? = some a) :
    ∃ b, r[j]? = some b ∧ R a b := by
  induction h generalizing j with
  | nil => simp at ha
  | cons h1 _ ih =>
    cases j with
    | zero => simp only [List.getElem?_cons_zero, Option.some.injEq] at ha ⊢; subst ha; exact ⟨_, rfl, h1⟩
    | succ j => simpa using ih j (by simpa using ha)

/-- The columns computed one after another, transposed, are the rows computed one after another. -/
theorem encColumns_rows (plan : Plan) (rows : List (List Cell)) (cols : List (List Cell)) (h : encColumns plan rows = .ok cols) (j : Nat) (row : List Cell) (hj : rows[j]? = some row) :
    mapE (cellAt row) plan = .ok (cols.filterMap fun c => c[j]?) := by
  rw [mapE_ok]
  have h := mapE_ok.1 h
  clear * - h hj
  induction h with
  | nil => exact .nil
  | cons h1 _ ih =>
    obtain ⟨b, hb, hr⟩ := forall₂_get (mapE_ok.1 h1) j row hj
    rw [List.filterMap_cons, hb]
    exact .cons hr ih

/-- To the database a number and its text are the same. -/
def Same (c : Crypto) (x y : Cell) : Prop := y = x ∨ y = .text (cellStr c x)

theorem forall₂_range {α β : Type} {R : α → β → Prop} (l : List α) (f : Nat → β) (h : ∀ j a, l[j]? = some a → R a (f j)) : List.Forall₂ R l ((List.range l.length).map f) := by
  induction l generalizing f with
  | nil => exact .nil
  | cons a l ih =>
    rw [List.length_cons, List.range_succ_eq_map, List.map_cons, List.map_map]
    exact .cons (h 0 a rfl) (ih _ fun j b hb => h (j + 1) b (by simpa using hb))

theorem mix_at (c : Crypto) (cols : List (List Cell)) (j : Nat) : List.Forall₂ (Same c) (cols.filterMap fun l => l[j]?) ((mix c cols).filterMap fun l => l[j]?) := by
  unfold mix
  split
  · rename_i h
    clear h
    induction cols with
    | nil => exact .nil
    | cons l cols ih =>
      simp only [List.map_cons, List.filterMap_cons, List.getElem?_map]
      cases l[j]? with
      | none => exact ih
      | some x => exact .cons (Or.inr rfl) ih
  · rename_i h
    clear h
    induction cols with
    | nil => exact .nil
    | cons l cols ih =>
      simp only [List.filterMap_cons]
      cases l[j]? with
      | none => exact ih
      | some x => exact .cons (Or.inl rfl) ih

/-- A stored row is the encryption of a row of the file, cell by cell. -/
def StoredRow (c : Crypto) (plan : Plan) (row out : List Cell) : Prop := ∃ cells, mapE (cellAt row) plan = .ok cells ∧ List.Forall₂ (Same c) cells out

theorem encChunk_rows {c : Crypto} {plan : Plan} {names : List String} {rows out : List (List Cell)} (h : encChunk c plan names rows = .ok out) :
    List.Forall₂ (StoredRow c plan) rows out := by
  unfold encChunk at h
  cases he : encColumns plan rows with
  | error e => rw [he] at h; cases h
  | ok cols =>
    rw [he] at h
    simp only at h
    split at h
    · injection h with h
      subst h
      exact forall₂_range rows _ fun j row hj => ⟨_, encColumns_rows plan rows cols he j row hj, mix_at c cols j⟩
    · cases h

theorem forall₂_append {α β : Type} {R : α → β → Prop} {a c : List α} {b d : List β} (h : List.Forall₂ R a b) (h' : List.Forall₂ R c d) : List.Forall₂ R (a ++ c) (b ++ d) := by
  induction h with
  | nil => exact h'
  | cons h1 _ ih => exact .cons h1 ih

theorem loadChunks_rows (c : Crypto) (plan : Plan) (names : List String) (chs : List (List (List Cell))) (acc : List (List Cell)) :
    ∃ k out, (loadChunks c plan names chs acc).stored = acc ++ out ∧ List.Forall₂ (StoredRow c plan) (chs.take k).flatten out ∧
      ((loadChunks c plan names chs acc).error = none → k = chs.length) := by
  induction chs generalizing acc with
  | nil => exact ⟨0, [], by simp [loadChunks], .nil, fun _ => rfl⟩
  | cons ch chs ih =>
    rw [loadChunks]
    cases he : encChunk c plan names ch with
    | error e => exact ⟨0, [], by simp, .nil, fun h => by cases h⟩
    | ok rows =>
      obtain ⟨k, out, h1, h2, h3⟩ := ih (acc ++ rows)
      refine ⟨k + 1, rows ++ out, by simp only [h1, List.append_assoc], ?_, fun h => by simp only [List.length_cons, h3 h]⟩
      rw [List.take_succ_cons, List.flatten_cons]
      exact forall₂_append (encChunk_rows he) h2

/-- A batch without exception stores every row exactly once, in order, across all chunks, each cell encrypted as the plan of its column says. -/
theorem C41_rows_partial (c : Crypto) (plan : Plan) (names : List String) (rows : List (List Cell)) (n : Nat) (hn : 0 < n)
    (h : (loadChunks c plan names (chunks n rows) []).error = none) : List.Forall₂ (StoredRow c plan) rows (loadChunks c plan names (chunks n rows) []).stored := by
  obtain ⟨k, out, h1, h2, h3⟩ := loadChunks_rows c plan names (chunks n rows) []
  rw [h3 h, List.take_length, chunks, chunksGo_flatten n hn _ rows (Nat.le_refl _)] at h2
  rw [h1]
  simpa using h2

/-- With an exception, the rows stored are those of the chunks before it. -/
theorem C41_stored_prefix (c : Crypto) (plan : Plan) (names : List String) (chs : List (List (List Cell))) :
    ∃ k, List.Forall₂ (StoredRow c plan) (chs.take k).flatten (loadChunks c plan names chs []).stored := by
  obtain ⟨k, out, h1, h2, _⟩ := loadChunks_rows c plan names chs []
  exact ⟨k, by rw [h1]; simpa using h2⟩

/-! ### Cells -/

/-- The cell as an INSERT statement has it. -/
def Cell.json : Cell → Json
  | .int z => .int z
  | .float q => .float q
  | .nan => .null
  | .text s => Json.lit s

/-- The ciphertext as an INSERT statement has it. -/
def Cell.out : Cell → Json
  | .text s => .dict [("value", Json.lit s)]
  | x => .dict [("value", x.json)]

/-- Integers and texts of columns that are neither FLOAT nor DOUBLE are encrypted as a single INSERT encrypts them. -/
theorem C41_cell_partial (c : Crypto) (cm : ColMeta) (enc : String) (f : Cell → Except PyErr Cell) (hf : encCell c cm enc = some f) (ht : cm.type ≠ "float" ∧ cm.type ≠ "double")
    (x : Cell) (hx : (∃ z, x = .int z) ∨ ∃ s, x = .text s) : encryptValue c cm x.json enc = (f x).map Cell.out := by
  unfold encCell at hf
  rcases hx with ⟨z, rfl⟩ | ⟨s, rfl⟩
  · simp only [encryptValue, Cell.json, encodeJson, if_neg ht.1, if_neg ht.2]
    split at hf
    · rename_i he
      injection hf with hf
      subst hf
      simp only [he, if_true, pyInt, cellInt]
      cases c.opeEnc cm.key z <;> rfl
    · rename_i he
      rw [if_neg he]
      split at hf
      · rename_i he
        injection hf with hf
        subst hf
        simp only [he, if_true, pyStr, cellStr]
        cases c.sym cm.key (intText z) <;> rfl
      · rename_i he
        rw [if_neg he]
        split at hf
        · rename_i he
          injection hf with hf
          subst hf
          simp only [he, if_true, pyStr, cellStr]
          cases c.fuzzy cm.key (intText z) <;> rfl
        · cases hf
  · simp only [encryptValue, Cell.json, Json.lit, Dict.getItem, Dict.get?, if_true, encodeJson, if_neg ht.1, if_neg ht.2]
    split at hf
    · rename_i he
      injection hf with hf
      subst hf
      simp only [he, if_true, pyInt, cellInt]
      cases Text.parseInt s.toList with
      | error e => rfl
      | ok z =>
        simp only
        cases c.opeEnc cm.key z <;> rfl
    · rename_i he
      rw [if_neg he]
      split at hf
      · rename_i he
        injection hf with hf
        subst hf
        simp only [he, if_true, pyStr, cellStr]
        cases c.sym cm.key s <;> rfl
      · rename_i he
        rw [if_neg he]
        split at hf
        · rename_i he
          injection hf with hf
          subst hf
          simp only [he, if_true, pyStr, cellStr]
          cases c.fuzzy cm.key s <;> rfl
        · cases hf

/-! ### Names -/

theorem planOf_lengths {c : Crypto} {cols : Dict String ColMeta} (columns : List String) (i : Nat) (plan : Plan) (names : List String)
    (h : planOf c cols columns i = .ok (plan, names)) : plan.length ≤ names.length ∧
      ((∀ col ∈ columns, ∀ cm, Dict.get? cols col = some cm → cm.plaintext = false → ∀ e ∈ cm.encCols, (encCell c cm e.1).isSome) → plan.length = names.length) ∧
      ((∃ col ∈ columns, ∃ cm, Dict.get? cols col = some cm ∧ cm.plaintext = false ∧ ∃ e ∈ cm.encCols, encCell c cm e.1 = none) → plan.length < names.length) := by
  induction columns generalizing i plan names with
  | nil =>
    simp only [planOf] at h
    injection h with h; injection h with h1 h2; subst h1; subst h2
    simp
  | cons col columns ih =>
    rw [planOf] at h
    cases hc : Dict.get? cols col with
    | none => simp [Dict.getItem, hc] at h
    | some cm =>
      simp only [Dict.getItem, hc] at h
      cases hp : planOf c cols columns (i + 1) with
      | error e => rw [hp] at h; cases h
      | ok pn =>
        obtain ⟨p, n⟩ := pn
        rw [hp] at h
        injection h with h; injection h with h1 h2; subst h1; subst h2
        obtain ⟨i1, i2, i3⟩ := ih _ _ _ hp
        have l1 : (colPlan c cm i).length ≤ (colNames cm col).length := by
          unfold colPlan colNames
          split
          · simp
          · rw [List.length_map]; exact List.length_filterMap_le _ _
        have l2 : (cm.plaintext = false → ∀ e ∈ cm.encCols, (encCell c cm e.1).isSome) → (colPlan c cm i).length = (colNames cm col).length := by
          unfold colPlan colNames
          intro he
          split
          · simp
          · rename_i hpl
            have he := he (by simpa using hpl)
            rw [List.length_map, List.length_filterMap_eq_countP, List.countP_eq_length]
            intro e hm
            simpa using he e hm
        have l3 : (cm.plaintext = false ∧ ∃ e ∈ cm.encCols, encCell c cm e.1 = none) → (colPlan c cm i).length < (colNames cm col).length := by
          rintro ⟨hpl, e, he, hn⟩
          unfold colPlan colNames
          rw [hpl]
          simp only [Bool.false_eq_true, if_false]
          rw [List.length_map, List.length_filterMap_eq_countP]
          refine Nat.lt_of_le_of_ne List.countP_le_length fun heq => ?_
          rw [List.countP_eq_length] at heq
          have := heq e he
          simp [hn] at this
        simp only [List.length_append]
        refine ⟨by omega, ?_, ?_⟩
        · intro ha
          have := i2 fun col hcol => ha col (by simp [hcol])
          have := l2 (ha col (by simp) cm hc)
          omega
        · rintro ⟨col', hcol, cm', hg, hpl, hx⟩
          rcases List.mem_cons.1 hcol with rfl | hm
          · rw [hc] at hg; injection hg with hg; subst hg
            have := l3 ⟨hpl, hx⟩
            omega
          · have := i3 ⟨col', hm, cm', hg, hpl, hx⟩
            omega

/-- If all ciphers are order-preserving, symmetric or fuzzy, there is one value for each backend column. -/
theorem C41_names_partial (c : Crypto) (cols : Dict String ColMeta) (columns : List String) (plan : Plan) (names : List String) (h : planOf c cols columns 0 = .ok (plan, names))
    (he : ∀ col ∈ columns, ∀ cm, Dict.get? cols col = some cm → cm.plaintext = false → ∀ e ∈ cm.encCols, (encCell c cm e.1).isSome) : plan.length = names.length :=
  (planOf_lengths columns 0 plan names h).2.1 he

/-- The property fails for every table with an arithmetic (or sm4) column among the listed ones: nothing is stored, and every file raises. -/
theorem C41_fails_arithmetic (c : Crypto) (p : Csv) (tm : TableMeta ColMeta) (columns : List String) (col : String) (hcol : col ∈ columns) (cm : ColMeta)
    (hg : Dict.get? tm.columns col = some cm) (hp : cm.plaintext = false) (b : String) (ha : ("arithmetic", b) ∈ cm.encCols) (file : List (List String)) (hf : file ≠ [])
    (names : List String) (o : Outcome) (h : batchInsert c p tm columns file = .ok (names, o)) : o.stored = [] ∧ o.error ≠ none := by
  unfold batchInsert at h
  cases hpl : planOf c tm.columns columns 0 with
  | error e => rw [hpl] at h; cases h
  | ok pn =>
    obtain ⟨plan, names'⟩ := pn
    rw [hpl] at h
    injection h with h; injection h with h1 h2; subst h1; subst h2
    have hlt := (planOf_lengths columns 0 plan names' hpl).2.2 ⟨col, hcol, cm, hg, hp, _, ha, by simp (decide := true) [encCell]⟩
    have hchunk : ∀ rows, ∃ e, encChunk c plan names' rows = .error e := by
      intro rows
      unfold encChunk
      cases he : encColumns plan rows with
      | error e => exact ⟨e, rfl⟩
      | ok cols =>
        have : cols.length = plan.length := (mapE_ok.1 he).length_eq.symm
        exact ⟨.generic, by simp only; rw [if_neg (by omega)]⟩
    cases hc : chunks chunkSize file with
    | nil =>
      have := (C41_chunks file).1
      rw [hc] at this
      exact absurd this.symm hf
    | cons ch r =>
      obtain ⟨e, he⟩ := hchunk (readChunk p ch)
      simp [loadChunks, he]

/-! ### Further failures -/

/-- It fails for every positive integer in a FLOAT column: the batch does not encode it, so that the order-preserving ciphertexts differ. -/
theorem C41_fails_float (c : Crypto) (cm : ColMeta) (ht : cm.type = "float") (z : Int) (hz : 0 < z) (f : Cell → Except PyErr Cell) (hf : encCell c cm "order-preserving" = some f)
    (x : Cell) (y : Json) (hx : f (.int z) = .ok x) (hy : encryptValue c cm (Cell.int z).json "order-preserving" = .ok y) : y ≠ x.out := by
  simp only [encCell, if_true, Option.some.injEq] at hf
  subst hf
  simp only [cellInt] at hx
  simp only [encryptValue, Cell.json, encodeJson, ht, if_true, pyInt] at hy
  cases h1 : c.opeEnc cm.key z with
  | error e => rw [h1] at hx; cases hx
  | ok a =>
    cases h2 : c.opeEnc cm.key (Codec.encodeFloat z) with
    | error e => rw [h2] at hy; cases hy
    | ok b =>
      rw [h1] at hx
      rw [h2] at hy
      simp only [Except.map] at hx hy
      injection hx with hx
      injection hy with hy
      subst hx; subst hy
      have hlt : z < Codec.encodeFloat z := by
        have : Codec.encodeFloat (z : ℚ) = z * 10 ^ 12 := by
          unfold Codec.encodeFloat
          rw [show ((z : ℚ) * 10 ^ 12) = ((z * 10 ^ 12 : Int) : ℚ) by push_cast; rfl, Codec.trunc_int]
        rw [this]; omega
      have := (Ope.C01_ope_order_preserving _ z _ a b h1 h2).1 hlt
      simp only [Cell.out, Cell.json, ne_eq, Json.dict.injEq, List.cons.injEq, Prod.mk.injEq, Json.int.injEq, true_and, and_true]
      omega

/-- It fails for missing fields: a symmetric column stores the encryption of the text "nan", an order-preserving one raises. -/
theorem C41_fails_missing (c : Crypto) (cm : ColMeta) (p : Csv) (f : String) (hna : p.isNa f = true) (hni : p.int? f = none) :
    inferCol p [f] = [.nan] ∧ (∀ g, encCell c cm "symmetric" = some g → g .nan = (c.sym cm.key "nan").map .text) ∧
      ∀ g, encCell c cm "order-preserving" = some g → g .nan = .error .valueError := by
  refine ⟨by simp [inferCol, hna, hni], ?_, ?_⟩
  · intro g hg
    simp (decide := true) only [encCell, if_false, if_true, Option.some.injEq] at hg
    subst hg; rfl
  · intro g hg
    simp only [encCell, if_true, Option.some.injEq] at hg
    subst hg; rfl

/-- The same in a column of texts: as soon as one field of a chunk is neither a number nor missing, the others are texts, but the missing ones are NaN. -/
theorem C41_fails_missing_text (c : Crypto) (cm : ColMeta) (p : Csv) (fields : List String) (g : String) (hg : g ∈ fields) (h1 : p.int? g = none) (h2 : p.float? g = none)
    (h3 : p.isNa g = false) : inferCol p fields = fields.map (fun f => if p.isNa f then .nan else .text f) ∧
      ∀ e, encCell c cm "symmetric" = some e → e .nan = (c.sym cm.key "nan").map .text := by
  constructor
  · unfold inferCol
    rw [if_neg, if_neg]
    · intro h
      rw [List.all_eq_true] at h
      have := h g hg
      simp [h2, h3] at this
    · intro h
      rw [List.all_eq_true] at h
      have := h g hg
      simp [h1] at this
  · intro e he
    simp (decide := true) only [encCell, if_false, if_true, Option.some.injEq] at he
    subst he; rfl

/-- It fails for texts that look like numbers, such as "007": in a chunk in which all fields of the column do, the number is stored. -/
theorem C41_fails_digits (c : Crypto) (cm : ColMeta) (p : Csv) (f : String) (z : Int) (hf : p.int? f = some z) (more : List String) (hm : ∀ g ∈ more, (p.int? g).isSome) :
    (inferCol p (f :: more)).head? = some (.int z) ∧ ∀ g, encCell c cm "symmetric" = some g → g (.int z) = (c.sym cm.key (intText z)).map .text := by
  constructor
  · unfold inferCol
    rw [if_pos (by simpa [hf] using hm)]
    simp [hf]
  · intro g hg
    simp (decide := true) only [encCell, if_false, if_true, Option.some.injEq] at hg
    subst hg; rfl

/-- The same field is stored as it is if one field of its chunk is no number: what is stored for a row depends on the other rows of its chunk. -/
theorem C41_fails_digits_chunk (p : Csv) (f g : String) (h1 : p.int? g = none) (h2 : p.float? g = none) (h3 : p.isNa g = false) (h4 : p.isNa f = false) :
    inferCol p [f, g] = [.text f, .text g] := by
  simp [inferCol, h1, h2, h3, h4]

/-- It fails for integers beside a FLOAT column: the array has floats only, and the text of the float ("1.0") is encrypted. -/
theorem C41_fails_upcast (c : Crypto) (cm : ColMeta) (p : Csv) (z : Int) (q : ℚ) :
    valuesOf p [[.int z], [.float q]] = [[.float (p.toFloat z)], [.float q]] ∧
      ∀ g, encCell c cm "symmetric" = some g → g (.float (p.toFloat z)) = (c.sym cm.key (c.floatRepr (p.toFloat z))).map .text := by
  constructor
  · simp [valuesOf, isText, isFloat, toFloatCell]
  · intro g hg
    simp (decide := true) only [encCell, if_false, if_true, Option.some.injEq] at hg
    subst hg; rfl

/-- It is not atomic: an exception in a later chunk leaves the earlier chunks stored. -/
theorem C41_fails_not_atomic (c : Crypto) (plan : Plan) (names : List String) (a b : List (List Cell)) (r : List (List (List Cell))) (rows : List (List Cell)) (e : PyErr)
    (ha : encChunk c plan names a = .ok rows) (hb : encChunk c plan names b = .error e) : loadChunks c plan names (a :: b :: r) [] = ⟨rows, some e⟩ := by
  simp [loadChunks, ha, hb]

/-! ### From the file to the stored rows -/

/-- The element a field becomes in a column of integers or of texts. -/
def cellOf (p : Csv) (isInt : Bool) (f : String) : Cell := if isInt then .int ((p.int? f).getD 0) else .text f

/-- The fields of one chunk in a column of integers: all are integers.  In a column of texts: none is missing, and one at least does not look like a number. -/
def ColIs (p : Csv) : Bool → List String → Prop
  | true, fields => ∀ f ∈ fields, (p.int? f).isSome
  | false, fields => (∀ f ∈ fields, p.isNa f = false) ∧ ∃ f ∈ fields, p.int? f = none ∧ p.float? f = none

theorem inferCol_is (p : Csv) (k : Bool) (fields : List String) (h : ColIs p k fields) : inferCol p fields = fields.map (cellOf p k) := by
  unfold inferCol
  cases k with
  | true =>
    rw [if_pos (List.all_eq_true.2 h)]
    apply List.map_congr_left
    intro f hf
    have := h f hf
    cases hi : p.int? f with
    | none => rw [hi] at this; cases this
    | some z => simp [cellOf, hi]
  | false =>
    obtain ⟨h1, f, hf, h2, h3⟩ := h
    rw [if_neg, if_neg]
    · apply List.map_congr_left
      intro g hg
      simp [cellOf, h1 g hg]
    · intro ha
      rw [List.all_eq_true] at ha
      have := ha f hf
      simp [h1 f hf, h3] at this
    · intro ha
      rw [List.all_eq_true] at ha
      have := ha f hf
      simp [h2] at this

/-- A chunk with the given kinds of columns. -/
def ChunkIs (p : Csv) (kinds : List Bool) (fields : List (List String)) : Prop :=
  (∀ r ∈ fields, r.length = kinds.length) ∧ ∀ (i : Nat) (k : Bool), kinds[i]? = some k → ColIs p k (fields.filterMap fun r => r[i]?)

/-- The row of elements. -/
def rowCells (p : Csv) (kinds : List Bool) (r : List String) : List Cell := (List.range kinds.length).map fun i => cellOf p (kinds.getD i false) (r.getD i "")

theorem column_at (fields : List (List String)) (i j : Nat) (h : ∀ r ∈ fields, i < r.length) : (fields.filterMap fun r => r[i]?)[j]? = (fields[j]?).map fun r => r.getD i "" := by
  induction fields generalizing j with
  | nil => simp
  | cons r fields ih =>
    have hr := h r (by simp)
    rw [List.filterMap_cons, List.getElem?_eq_getElem hr]
    cases j with
    | zero => simp [hr]
    | succ j => simpa using ih j fun r hr => h r (by simp [hr])

theorem valuesOf_same (p : Csv) (cols : List (List Cell)) (h : ∀ c ∈ cols, ∀ x ∈ c, isFloat x = false) : valuesOf p cols = cols := by
  unfold valuesOf
  split
  · rfl
  · rw [if_neg]
    intro ha
    rw [List.any_eq_true] at ha
    obtain ⟨c, hc, hx⟩ := ha
    rw [List.any_eq_true] at hx
    obtain ⟨x, hx, hf⟩ := hx
    rw [h c hc x hx] at hf
    cases hf

theorem readChunk_is (p : Csv) (kinds : List Bool) (fields : List (List String)) (h0 : fields ≠ []) (h : ChunkIs p kinds fields) : readChunk p fields = fields.map (rowCells p kinds) := by
  have hw : (fields.head?.map List.length).getD 0 = kinds.length := by
    cases fields with
    | nil => exact absurd rfl h0
    | cons r fields => simpa using h.1 r (by simp)
  have hcols : ((List.range kinds.length).map fun i => inferCol p (fields.filterMap fun r => r[i]?))
      = (List.range kinds.length).map fun i => (fields.filterMap fun r => r[i]?).map (cellOf p (kinds.getD i false)) := by
    apply List.map_congr_left
    intro i hi
    rw [List.mem_range] at hi
    refine inferCol_is p _ _ (h.2 i _ ?_)
    rw [List.getElem?_eq_getElem hi]
    simp [hi]
  unfold readChunk
  simp only [hw, hcols]
  rw [valuesOf_same]
  · unfold transposed
    apply List.ext_getElem?
    intro j
    rw [List.getElem?_map, List.getElem?_map]
    cases hj : fields[j]? with
    | none =>
      have : ¬ j < fields.length := fun hlt => by rw [List.getElem?_eq_getElem hlt] at hj; cases hj
      simp [this]
    | some r =>
      have hlt : j < fields.length := by
        by_contra hge
        rw [List.getElem?_eq_none (by omega)] at hj; cases hj
      rw [List.getElem?_range hlt]
      simp only [Option.map_some, Option.some.injEq]
      rw [List.filterMap_map]
      unfold rowCells
      rw [← List.filterMap_eq_map]
      apply List.filterMap_congr
      intro i hi
      rw [List.mem_range] at hi
      simp only [Function.comp_apply, List.getElem?_map]
      rw [column_at fields i j fun r hr => by rw [h.1 r hr]; exact hi, hj]
      simp
  · intro c hc x hx
    obtain ⟨i, _, rfl⟩ := List.mem_map.1 hc
    obtain ⟨f, _, rfl⟩ := List.mem_map.1 hx
    unfold cellOf
    split <;> rfl

/-- If in each chunk all columns are columns of integers or of texts and the batch ends without exception, the stored rows are the rows of the file, each once and in
order, each cell encrypted by its column's plan. -/
theorem C41_file_partial (c : Crypto) (p : Csv) (tm : TableMeta ColMeta) (columns : List String) (kinds : List Bool) (file : List (List String))
    (hk : ∀ ch ∈ chunks chunkSize file, ChunkIs p kinds ch) (names : List String) (o : Outcome) (h : batchInsert c p tm columns file = .ok (names, o)) (ho : o.error = none) :
    ∃ plan, planOf c tm.columns columns 0 = .ok (plan, names) ∧ List.Forall₂ (fun r out => StoredRow c plan (rowCells p kinds r) out) file o.stored := by
  unfold batchInsert at h
  cases hpl : planOf c tm.columns columns 0 with
  | error e => rw [hpl] at h; cases h
  | ok pn =>
    obtain ⟨plan, names'⟩ := pn
    rw [hpl] at h
    injection h with h; injection h with h1 h2; subst h1; subst h2
    refine ⟨plan, rfl, ?_⟩
    have hread : (chunks chunkSize file).map (readChunk p) = (chunks chunkSize file).map fun ch => ch.map (rowCells p kinds) := by
      apply List.map_congr_left
      intro ch hch
      exact readChunk_is p kinds ch ((C41_chunks file).2 ch hch).1 (hk ch hch)
    rw [hread] at ho ⊢
    obtain ⟨k, out, h1, h2, h3⟩ := loadChunks_rows c plan names' ((chunks chunkSize file).map fun ch => ch.map (rowCells p kinds)) []
    rw [h3 ho, List.take_length, ← List.map_flatten, (C41_chunks file).1, List.forall₂_map_left_iff] at h2
    rw [h1, List.nil_append]
    exact h2

/-! ### An example -/

/-- Fields that are integers, as far as the example needs them. -/
def demoCsv : Csv := ⟨fun s => match Text.parseInt s.toList with | .ok z => some z | .error _ => none, fun _ => none, fun s => s = "", fun z => z⟩

def demoTm : TableMeta ColMeta := ⟨"t", [("id", ⟨true, "int", "k", [], none, none, none⟩), ("age", ⟨false, "int", "k", [("order-preserving", "age_o")], none, none, none⟩)], none⟩

theorem demo_plan (c : Crypto) : planOf c demoTm.columns ["id", "age"] 0 = .ok ([(0, .ok), (1, fun x => match cellInt x with | .error e => .error e | .ok z => (c.opeEnc "k" z).map .int)], ["id", "age_o"]) := by
  simp [planOf, demoTm, Dict.getItem, Dict.get?, colPlan, colNames, encCell]
  funext x
  cases cellInt x <;> rfl

example : ∀ ch ∈ chunks chunkSize [["1", "40"], ["2", "30"]], ChunkIs demoCsv [true, true] ch := by
  have e : chunks chunkSize [["1", "40"], ["2", "30"]] = [[["1", "40"], ["2", "30"]]] := by
    simp [chunks, chunksGo, chunkSize]
  rw [e]
  intro ch hch
  rw [List.mem_singleton] at hch
  subst hch
  refine ⟨by simp, ?_⟩
  intro i k hk
  match i with
  | 0 => simp at hk; subst hk; simp (decide := true) [ColIs]
  | 1 => simp at hk; subst hk; simp (decide := true) [ColIs]
  | i + 2 => simp at hk

end EulerDB.Batch
