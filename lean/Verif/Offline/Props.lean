import Verif.Offline.Model

/-!
# C67: every way of decrypting an exported column gives the same plaintexts
-/

namespace EulerDB.Offline

open EulerDB

variable {C R V : Type}

/-- All values of the column decrypt and decode, to these plaintexts. -/
def Plain (dec : C → Except PyErr R) (decode : R → Except PyErr V) : List C → List V → Prop
  | [], [] => True
  | c :: cs, v :: vs => (∃ r, dec c = .ok r ∧ decode r = .ok v) ∧ Plain dec decode cs vs
  | _, _ => False

theorem mapE_append {α β : Type} (f : α → Except PyErr β) (a b : List α) {x y : List β} (ha : mapE f a = .ok x) (hb : mapE f b = .ok y) :
    mapE f (a ++ b) = .ok (x ++ y) := by
  induction a generalizing x with
  | nil => cases ha; simpa using hb
  | cons c r ih =>
    simp only [mapE, List.cons_append] at ha ⊢
    split at ha
    · cases ha
    split at ha
    · cases ha
    rename_i h
    cases ha
    rw [ih h]
    rfl

theorem mapE_append_inv {α β : Type} (f : α → Except PyErr β) (a b : List α) {z : List β} (h : mapE f (a ++ b) = .ok z) :
    ∃ x y, mapE f a = .ok x ∧ mapE f b = .ok y ∧ z = x ++ y := by
  induction a generalizing z with
  | nil => exact ⟨[], z, rfl, by simpa using h, rfl⟩
  | cons c r ih =>
    simp only [mapE, List.cons_append] at h ⊢
    split at h
    · cases h
    rename_i v hv
    split at h
    · cases h
    rename_i l hl
    cases h
    obtain ⟨x, y, hx, hy, rfl⟩ := ih hl
    exact ⟨v :: x, y, by rw [hx], hy, rfl⟩

theorem collect_ok (f : C → Except PyErr (Cell R V)) (ps : List (List C)) {z : List (Cell R V)} (h : mapE f ps.flatten = .ok z) :
    collect (mapE f) ps = .ok z := by
  induction ps generalizing z with
  | nil => simpa [mapE, collect] using h
  | cons p r ih =>
    rw [List.flatten_cons] at h
    obtain ⟨x, y, hx, hy, rfl⟩ := mapE_append_inv f _ _ h
    simp only [collect, hx, ih hy]

theorem plain_single {dec : C → Except PyErr R} {decode : R → Except PyErr V} {data : List C} {vs : List V} (h : Plain dec decode data vs) :
    mapE (decodeOne dec decode) data = .ok (vs.map .decoded) := by
  induction data generalizing vs with
  | nil => cases vs with
    | nil => rfl
    | cons _ _ => cases h
  | cons c r ih => cases vs with
    | nil => cases h
    | cons v vs =>
      obtain ⟨⟨x, hx, hv⟩, hr⟩ := h
      simp [mapE, decodeOne, hx, hv, ih hr]

theorem single_plain {dec : C → Except PyErr R} {decode : R → Except PyErr V} {data : List C} {z : List (Cell R V)}
    (h : mapE (decodeOne dec decode) data = .ok z) : ∃ vs, z = vs.map .decoded ∧ Plain dec decode data vs := by
  induction data generalizing z with
  | nil => cases h; exact ⟨[], rfl, trivial⟩
  | cons c r ih =>
    simp only [mapE, decodeOne] at h
    split at h
    · cases h
    rename_i b hb
    split at h
    · cases h
    rename_i l hl
    cases h
    obtain ⟨vs, rfl, hp⟩ := ih hl
    split at hb
    · cases hb
    rename_i x hx
    split at hb
    · cases hb
    rename_i v hv
    cases hb
    exact ⟨v :: vs, rfl, ⟨x, hx, hv⟩, hp⟩

theorem mapE_raw {dec : C → Except PyErr R} {data : List C} {z : List (Cell R V)} (h : mapE (rawOne dec) data = .ok z) :
    ∃ rs : List R, z = rs.map .raw ∧ rs.length = data.length := by
  induction data generalizing z with
  | nil => cases h; exact ⟨[], rfl, rfl⟩
  | cons c r ih =>
    simp only [mapE, rawOne] at h
    split at h
    · cases h
    rename_i b hb
    split at h
    · cases h
    rename_i l hl
    cases h
    obtain ⟨rs, rfl, hn⟩ := ih hl
    split at hb
    · cases hb
    rename_i x hx
    cases hb
    exact ⟨x :: rs, rfl, by simp [hn]⟩

/-! ## The modes -/

/-- **C67, single:** the plaintexts are returned in order, and nothing else is ever returned. -/
theorem C67_single_iff (dec : C → Except PyErr R) (decode : R → Except PyErr V) (data : List C) (z : List (Cell R V)) :
    single dec decode data = .ok z ↔ ∃ vs, z = vs.map .decoded ∧ Plain dec decode data vs := by
  constructor
  · exact single_plain
  · rintro ⟨vs, rfl, h⟩
    exact plain_single h

/-- **C67, distributed, while Spark works:** however the data is cut into partitions, the plaintexts are returned in order. -/
theorem C67_distributed_partial (cut : Nat → List C → List (List C)) (hcut : ∀ n l, (cut n l).flatten = l) (dec : C → Except PyErr R)
    (decode : R → Except PyErr V) (data : List C) (vs : List V) (h : Plain dec decode data vs) :
    distributed (.working cut) dec decode data = .ok (vs.map .decoded) := by
  have h1 := collect_ok (decodeOne dec decode) (cut (min 100 data.length) data) (z := vs.map .decoded) (by rw [hcut]; exact plain_single h)
  simp only [distributed, h1]

/-- **C67 fails without Spark:** nothing returned is decoded, so no column with a row in it is returned as its plaintexts. -/
theorem C67_fails_distributed_local (sp : Spark C) (hs : sp = .absent ∨ sp = .failing) (dec : C → Except PyErr R) (decode : R → Except PyErr V)
    (data : List C) (hd : data ≠ []) (vs : List V) : distributed sp dec decode data ≠ .ok (vs.map .decoded) := by
  intro h
  have h : mapE (rawOne dec) data = .ok (vs.map (Cell.decoded (R := R))) := by rcases hs with rfl | rfl <;> exact h
  obtain ⟨rs, he, hn⟩ := mapE_raw h
  cases rs with
  | nil => exact hd (List.length_eq_zero_iff.1 hn.symm)
  | cons r rs =>
    cases vs with
    | nil => simp at he
    | cons v vs => simp at he

/-- **C67 fails for a column with a value that decrypts but does not decode:** the working cluster reports the failure, and the values are then returned
undecoded without one. -/
theorem C67_fails_distributed_hides (cut : Nat → List C → List (List C)) (hcut : ∀ n l, (cut n l).flatten = l) (dec : C → Except PyErr R)
    (decode : R → Except PyErr V) (data : List C) (rs : List (Cell R V)) (hraw : mapE (rawOne dec) data = .ok rs)
    (hbad : ∀ vs, ¬ Plain dec decode data vs) :
    (∃ e, single dec decode data = .error e) ∧ distributed (.working cut) dec decode data = .ok rs := by
  have hs : ∃ e, single dec decode data = .error e := by
    cases h : single dec decode data with
    | error e => exact ⟨e, rfl⟩
    | ok z =>
      obtain ⟨vs, _, hp⟩ := single_plain h
      exact absurd hp (hbad vs)
  refine ⟨hs, ?_⟩
  have hc : ∀ ps : List (List C), (∀ z, mapE (decodeOne dec decode) ps.flatten ≠ .ok z) → ∃ e, collect (mapE (decodeOne dec decode)) ps = .error e := by
    intro ps
    induction ps with
    | nil => intro h; exact absurd rfl (h [])
    | cons p r ih =>
      intro h
      rw [List.flatten_cons] at h
      simp only [collect]
      cases hp : mapE (decodeOne dec decode) p with
      | error e => exact ⟨e, rfl⟩
      | ok a =>
        obtain ⟨e, he⟩ := ih (fun z hz => h _ (mapE_append _ _ _ hp hz))
        exact ⟨e, by rw [he]⟩
  obtain ⟨e, he⟩ := hc (cut (min 100 data.length) data) (by
    intro z hz
    rw [hcut] at hz
    obtain ⟨vs, _, hp⟩ := single_plain hz
    exact hbad vs hp)
  simp only [distributed, he, hraw]

/-- **C67 fails for the pool:** a column with at least one row raises. -/
theorem C67_fails_pool (dec : C → Except PyErr R) (decode : R → Except PyErr V) (data : List C) (hd : data ≠ []) :
    pool false dec decode data = .error .attributeError := by
  cases data with
  | nil => exact absurd rfl hd
  | cons _ _ => rfl

/-- A pool that could be given the function returns what the single process returns, and an empty column always. -/
theorem C67_pool_partial (sendable : Bool) (dec : C → Except PyErr R) (decode : R → Except PyErr V) (data : List C) (h : sendable = true ∨ data = []) :
    pool sendable dec decode data = single dec decode data := by
  rcases h with rfl | rfl
  · simp [pool, single]
  · simp [pool, single]

/-! ## The whole file -/

/-- **C67 fails for every file:** `decrypt_file` raises before it looks at the data, whatever the file, the metadata and the mode. -/
theorem C67_fails_file (w : World C R V) (hw : w.callable = false) (cols : Dict String Col) (file : List (String × List C)) (rows : Nat)
    (states : List String) (m : Mode) (num : Nat) : decryptFile w cols file rows states m num = .error .typeError := by
  simp [decryptFile, hw]

/-- The plaintexts of the columns of a file, each under the cipher named for it. -/
def Columns (w : World C R V) (cols : Dict String Col) : List ((String × List C) × String) → List (List V) → Prop
  | [], [] => True
  | x :: xs, vs :: out =>
    (∃ c d, Dict.get? cols x.1.1 = some c ∧ featureKey cols x.1.1 x.2 = .ok d ∧ Plain (w.dec d) (w.decode c.type) x.1.2 vs) ∧ Columns w cols xs out
  | _, _ => False

/-- The mode works in this world: the pool can be given the function, and Spark, when it is used, works. -/
def Works (w : World C R V) (m : Mode) (rows num : Nat) : Prop :=
  (m = .pool → w.sendable = true) ∧
    (m = .distributed → rows < num ∨ ∃ cut, w.spark = .working cut ∧ ∀ n l, (cut n l).flatten = l)

theorem column_plain {w : World C R V} {m : Mode} {rows num : Nat} (hm : Works w m rows num) {cols : Dict String Col} {name state : String} {data : List C}
    {vs : List V} {c : Col} {d : Decrypter} (hg : Dict.get? cols name = some c) (hf : featureKey cols name state = .ok d)
    (hp : Plain (w.dec d) (w.decode c.type) data vs) : column w (chosen rows num m) cols name state data = .ok (vs.map .decoded) := by
  have hs : single (w.dec d) (w.decode c.type) data = .ok (vs.map .decoded) := plain_single hp
  cases m with
  | single => simp [chosen, column, hg, hf, hs]
  | pool =>
    have : chosen rows num .pool = .pool := by simp [chosen]
    simp only [this, column, hg, hf]
    rw [C67_pool_partial _ _ _ _ (.inl (hm.1 rfl)), hs]
  | distributed =>
    rcases hm.2 rfl with h | ⟨cut, h1, h2⟩
    · simp [chosen, h, column, hg, hf, hs]
    · by_cases h : rows < num
      · simp [chosen, h, column, hg, hf, hs]
      · simp only [chosen, if_neg h, column, hg, hf, h1]
        exact C67_distributed_partial cut h2 _ _ data vs hp

/-- **C67 for files, if the columns could be listed:** in every mode that works a file is returned as the plaintexts of every column for which a cipher is
named. -/
theorem C67_file_partial (w : World C R V) (hw : w.callable = true) (cols : Dict String Col) (file : List (String × List C)) (rows num : Nat)
    (states : List String) (m : Mode) (hm : Works w m rows num) (out : List (List V)) (h : Columns w cols (file.zip states) out) :
    decryptFile w cols file rows states m num = .ok (out.map fun vs => vs.map .decoded) := by
  simp only [decryptFile, hw, if_true]
  generalize file.zip states = l at h
  induction l generalizing out with
  | nil => cases out with
    | nil => rfl
    | cons _ _ => cases h
  | cons x r ih => cases out with
    | nil => cases h
    | cons v o =>
      obtain ⟨⟨c, d, hg, hf, hp⟩, hrest⟩ := h
      simp only [mapE, column_plain hm hg hf hp, ih o hrest, List.map_cons]

/-- **C67 fails for the pool, also for small files:** the first column with a row in it raises, if it has metadata and a cipher. -/
theorem C67_fails_file_pool (w : World C R V) (hw : w.callable = true) (hs : w.sendable = false) (cols : Dict String Col) (name state : String)
    (data : List C) (hd : data ≠ []) {d : Decrypter} (hf : featureKey cols name state = .ok d) (file : List (String × List C)) (rows num : Nat)
    (states : List String) : decryptFile w cols ((name, data) :: file) rows (state :: states) .pool num = .error .attributeError := by
  obtain ⟨c, hc⟩ : ∃ c, Dict.get? cols name = some c := by
    unfold featureKey at hf
    cases h : Dict.get? cols name with
    | none => rw [h] at hf; cases hf
    | some c => exact ⟨c, rfl⟩
  have : chosen rows num .pool = .pool := by simp [chosen]
  simp only [decryptFile, hw, if_true, List.zip_cons_cons, mapE, this, column, hc, hf, hs, C67_fails_pool _ _ data hd]

/-- The decrypter of a column is the one its cipher needs, with the column's key. -/
theorem C67_decrypter {cols : Dict String Col} {name : String} {c : Col} (h : Dict.get? cols name = some c) :
    featureKey cols name "symmetric" = .ok (.aes c.key) ∧ featureKey cols name "order-preserving" = .ok (.ope c.key) ∧
      featureKey cols name "arithmetic" = .ok (.hom c.homKey) := by
  simp [featureKey, h]

/-- **C67 fails for columns without a named cipher:** a file with more columns than cipher names loses its last columns. -/
theorem C67_fails_columns_dropped (w : World C R V) (cols : Dict String Col) (file : List (String × List C)) (rows num : Nat) (states : List String)
    (m : Mode) (hs : states.length < file.length) (out : List (List (Cell R V)))
    (h : decryptFile w cols file rows states m num = .ok out) : out.length < file.length := by
  have hl : ∀ {α β : Type} (f : α → Except PyErr β) (l : List α) (z : List β), mapE f l = .ok z → z.length = l.length := by
    intro α β f l
    induction l with
    | nil => intro z hz; cases hz; rfl
    | cons a r ih =>
      intro z hz
      simp only [mapE] at hz
      split at hz
      · cases hz
      split at hz
      · cases hz
      rename_i hb
      cases hz
      simp [ih _ hb]
  unfold decryptFile at h
  split at h
  · have := hl _ _ _ h
    rw [List.length_zip] at this
    omega
  · cases h

/-- **C67 fails for the fuzzy and SM4 columns:** there is no decrypter for them. -/
theorem C67_fails_cipher (cols : Dict String Col) (name state : String) (hs : state = "fuzzy" ∨ state = "sm4") :
    featureKey cols name state = .error .keyError := by
  unfold featureKey
  cases Dict.get? cols name with
  | none => rfl
  | some c => rcases hs with rfl | rfl <;> simp

/-! ## Examples -/

/-- Decrypting subtracts one, decoding doubles and rejects zero. -/
def demoDec (n : Nat) : Except PyErr Nat := .ok (n - 1)
def demoDecode (n : Nat) : Except PyErr Nat := if n = 0 then .error .valueError else .ok (2 * n)

example : Plain demoDec demoDecode [2, 5] [2, 8] := ⟨⟨1, rfl, rfl⟩, ⟨4, rfl, rfl⟩, trivial⟩
example : single demoDec demoDecode [2, 5] = .ok [.decoded 2, .decoded 8] := by rfl
example : distributed (.absent) demoDec demoDecode [2, 5] = .ok [.raw 1, .raw 4] := by rfl
example : ∀ vs, ¬ Plain demoDec demoDecode [1] vs := by
  intro vs h
  cases vs with
  | nil => cases h
  | cons v vs =>
    obtain ⟨⟨r, hr, hv⟩, _⟩ := h
    cases hr
    cases hv

end EulerDB.Offline
