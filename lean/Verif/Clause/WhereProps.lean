import Verif.Clause.RoundTripProps

/-!
# WHERE (C26, C27)

Conditions are described by a syntax of their own, with the JSON the parser gives for them and their meaning on a row of plaintext values.  The rewritten
condition is given its meaning on the stored row.
-/

namespace EulerDB.Clause

open EulerDB EulerDB.Delta EulerDB.Table

/-! ## Conditions and their meaning -/

inductive Cmp where
  | gt | lt | gte | lte
  deriving DecidableEq, Repr

def Cmp.name : Cmp → String
  | .gt => "gt"
  | .lt => "lt"
  | .gte => "gte"
  | .lte => "lte"

def Cmp.eval : Cmp → Int → Int → Bool
  | .gt, a, b => decide (b < a)
  | .lt, a, b => decide (a < b)
  | .gte, a, b => decide (b ≤ a)
  | .lte, a, b => decide (a ≤ b)

/-- A condition: comparisons of columns with literals, AND and OR of any number of conditions. -/
inductive Cond where
  | eqInt (col : String) (z : Int)
  | eqText (col : String) (s : String)
  | cmp (op : Cmp) (col : String) (z : Int)
  | and (l : List Cond)
  | or (l : List Cond)

mutual
/-- What the parser returns. -/
def Cond.json : Cond → Json
  | .eqInt n z => .dict [("eq", .list [.str n, .int z])]
  | .eqText n s => .dict [("eq", .list [.str n, Json.lit s])]
  | .cmp op n z => .dict [(op.name, .list [.str n, .int z])]
  | .and l => .dict [("and", .list (Cond.jsons l))]
  | .or l => .dict [("or", .list (Cond.jsons l))]

def Cond.jsons : List Cond → List Json
  | [] => []
  | c :: r => c.json :: Cond.jsons r
end

mutual
/-- The meaning on a row of plaintext values (a column without a value satisfies no comparison). -/
def Cond.holds (vals : String → Option Val) : Cond → Bool
  | .eqInt n z => match vals n with | some (.int y) => y = z | _ => false
  | .eqText n s => match vals n with | some (.text y) => y = s | _ => false
  | .cmp op n z => match vals n with | some (.int y) => op.eval y z | _ => false
  | .and l => Cond.allHold vals l
  | .or l => Cond.someHolds vals l

def Cond.allHold (vals : String → Option Val) : List Cond → Bool
  | [] => true
  | c :: r => c.holds vals && Cond.allHold vals r

def Cond.someHolds (vals : String → Option Val) : List Cond → Bool
  | [] => false
  | c :: r => c.holds vals || Cond.someHolds vals r
end

/-! ## The backend -/

/-- The formatter leaves a string bare if it looks like an identifier and is no keyword; every other string is put in double quotes
(formatting.py 22, 29-63), which MySQL reads as a string literal. -/
def bare (s : String) : Bool :=
  match s.toList with
  | [] => false
  | ch :: r => (ch.isAlpha || ch = '_') && r.all fun ch => ch.isAlphanum || ch = '_'

/-- The right-hand side of a comparison. -/
def rhsVal (row : Dict String DbVal) : Json → Option DbVal
  | .int z => some (.int z)
  | .dict [("literal", .str s)] => some (.text s)
  | .str s => if bare s then Dict.get? row s else some (.text s)
  | _ => none

/-- Equality of two values of the same kind (MySQL's conversions between kinds are not modelled). -/
def dbEq : DbVal → DbVal → Option Bool
  | .int a, .int b => some (a = b)
  | .text a, .text b => some (a = b)
  | _, _ => none

def dbCmp (op : Cmp) : DbVal → DbVal → Option Bool
  | .int a, .int b => some (op.eval a b)
  | _, _ => none

/-- A comparison of a column with a right-hand side. -/
def evalLeaf (row : Dict String DbVal) (f : DbVal → DbVal → Option Bool) (a b : Json) : Option Bool :=
  match a with
  | .str n =>
    match Dict.get? row n, rhsVal row b with
    | some x, some y => f x y
    | _, _ => none
  | _ => none

mutual
/-- The meaning of a condition for the backend; `none` if the statement fails or is outside this model. -/
def evalCond (row : Dict String DbVal) : Json → Option Bool
  | .dict d => evalDict row d
  | _ => none

def evalDict (row : Dict String DbVal) : List (String × Json) → Option Bool
  | [(k, v)] => evalOp row k v
  | _ => none

def evalOp (row : Dict String DbVal) (k : String) : Json → Option Bool
  | .list l =>
    if k = "and" then evalAll row l
    else if k = "or" then evalSome row l
    else
      match l with
      | [a, b] =>
        if k = "eq" then evalLeaf row dbEq a b
        else if k = "gt" then evalLeaf row (dbCmp .gt) a b
        else if k = "lt" then evalLeaf row (dbCmp .lt) a b
        else if k = "gte" then evalLeaf row (dbCmp .gte) a b
        else if k = "lte" then evalLeaf row (dbCmp .lte) a b
        else none
      | _ => none
  | _ => none

def evalAll (row : Dict String DbVal) : List Json → Option Bool
  | [] => some true
  | j :: r =>
    match evalCond row j, evalAll row r with
    | some a, some b => some (a && b)
    | _, _ => none

def evalSome (row : Dict String DbVal) : List Json → Option Bool
  | [] => some false
  | j :: r =>
    match evalCond row j, evalSome row r with
    | some a, some b => some (a || b)
    | _, _ => none
end

/-- A user value as the backend keeps it. -/
def Val.db : Val → DbVal
  | .int z => .int z
  | .text s => .text s

/-- The stored row holds the plaintext values: a plaintext column as it is, a symmetric column the AES ciphertext of the text, an order-preserving column
the ciphertext of the integer, a fuzzy column the search tokens of the text. -/
structure Holds (c : Crypto) (cols : Dict String ColMeta) (vals : String → Option Val) (row : Dict String DbVal) : Prop where
  plain : ∀ n v cm, vals n = some v → Dict.get? cols n = some cm → cm.plaintext = true → Dict.get? row n = some v.db
  sym : ∀ n v cm b, vals n = some v → Dict.get? cols n = some cm → cm.plaintext = false → Dict.get? cm.encCols "symmetric" = some b →
    ∃ y, c.sym cm.key (String.ofList v.str) = .ok y ∧ Dict.get? row b = some (.text y)
  ope : ∀ n z cm b, vals n = some (.int z) → Dict.get? cols n = some cm → cm.plaintext = false → Dict.get? cm.encCols "order-preserving" = some b →
    ∃ y, c.opeEnc cm.key z = .ok y ∧ Dict.get? row b = some (.int y)
  fuzzy : ∀ n v cm b, vals n = some v → Dict.get? cols n = some cm → cm.plaintext = false → Dict.get? cm.encCols "fuzzy" = some b →
    ∃ y, c.fuzzy cm.key (String.ofList v.str) = .ok y ∧ Dict.get? row b = some (.text y)

/-- 64-bit integers. -/
def Int64 (z : Int) : Prop := -2 ^ 63 ≤ z ∧ z ≤ 2 ^ 63 - 1

mutual
/-- The condition fits the table and the row: literals of the type of the column, 64-bit integers, texts that do not end in NUL; the cipher column needed
exists. -/
def Cond.Fits (cols : Dict String ColMeta) (vals : String → Option Val) : Cond → Prop
  | .eqInt n z => ∃ cm y, Dict.get? cols n = some cm ∧ vals n = some (.int y) ∧
      (cm.plaintext = false → Int64 z ∧ ∃ b, Dict.get? cm.encCols "symmetric" = some b)
  | .eqText n s => ∃ cm y, Dict.get? cols n = some cm ∧ vals n = some (.text y) ∧
      (cm.plaintext = false → ¬ Aes.EndsInNul s.toList ∧ ¬ Aes.EndsInNul y.toList ∧ ∃ b, Dict.get? cm.encCols "symmetric" = some b)
  | .cmp _ n z => ∃ cm y, Dict.get? cols n = some cm ∧ vals n = some (.int y) ∧
      (cm.plaintext = false → cm.type = "int" ∧ Int64 z ∧ ∃ b, Dict.get? cm.encCols "order-preserving" = some b)
  | .and l => Cond.FitsAll cols vals l
  | .or l => Cond.FitsAll cols vals l

def Cond.FitsAll (cols : Dict String ColMeta) (vals : String → Option Val) : List Cond → Prop
  | [] => True
  | c :: r => c.Fits cols vals ∧ Cond.FitsAll cols vals r
end

/-! ## The rewritten condition -/

mutual
/-- What the rewritten condition must be: cipher columns for columns, ciphertexts for literals. -/
def Cond.sealed (c : Crypto) (cols : Dict String ColMeta) : Cond → Json
  | .eqInt n z =>
    match Dict.get? cols n with
    | some cm =>
      if cm.plaintext then .dict [("eq", .list [.str n, .int z])]
      else .dict [("eq", .list [.str ((Dict.get? cm.encCols "symmetric").getD ""), .str (String.ofList (Aes.ct (c.aes cm.key) (Text.intStr z)))])]
    | none => .null
  | .eqText n s =>
    match Dict.get? cols n with
    | some cm =>
      if cm.plaintext then .dict [("eq", .list [.str n, Json.lit s])]
      else .dict [("eq", .list [.str ((Dict.get? cm.encCols "symmetric").getD ""), Json.lit (String.ofList (Aes.ct (c.aes cm.key) s.toList))])]
    | none => .null
  | .cmp op n z =>
    match Dict.get? cols n with
    | some cm =>
      if cm.plaintext then .dict [(op.name, .list [.str n, .int z])]
      else
        match c.opeEnc cm.key z with
        | .ok y => .dict [(op.name, .list [.str ((Dict.get? cm.encCols "order-preserving").getD ""), .int y])]
        | .error _ => .null
    | none => .null
  | .and l => .dict [("and", .list (Cond.sealedAll c cols l))]
  | .or l => .dict [("or", .list (Cond.sealedAll c cols l))]

def Cond.sealedAll (c : Crypto) (cols : Dict String ColMeta) : List Cond → List Json
  | [] => []
  | x :: r => x.sealed c cols :: Cond.sealedAll c cols r
end

theorem whereCols_ok {db : Db} {t : String} {tm : TableMeta ColMeta} (ht : Dict.get? db t = some tm) : whereCols db (.str t) = some tm.columns := by
  have : tableOf db t = .ok tm := getItem_ok.2 ht
  simp [whereCols, tableOfJson, this]

theorem cols_cons {cols : Dict String ColMeta} {n : String} {cm : ColMeta} (h : Dict.get? cols n = some cm) : ∃ e r, cols = e :: r := by
  cases cols with
  | nil => simp at h
  | cons e r => exact ⟨e, r, rfl⟩

theorem eq_rewrite {c : Crypto} {db : Db} {t : String} {tm : TableMeta ColMeta} (ht : Dict.get? db t = some tm) {n : String} {cm : ColMeta}
    (hc : Dict.get? tm.columns n = some cm) (cipher key : String) (b : Json) :
    whereRw c db (.str t) cipher key (.dict [("eq", .list [.str n, b])]) =
      if cm.plaintext then .ok (.dict [("eq", .list [.str n, b])])
      else
        match Dict.getItem cm.encCols "symmetric" with
        | .error e => .error e
        | .ok m =>
          match whereRw c db (.str t) "symmetric" cm.key b with
          | .error e => .error e
          | .ok b' => .ok (.dict [("eq", .list [.str m, b'])]) := by
  obtain ⟨e, r, he⟩ := cols_cons hc
  have hw := whereCols_ok ht
  rw [he] at hw hc
  have hcj : colOfJson (e :: r) (.str n) = .ok cm := getItem_ok.2 hc
  simp only [whereRw, whereDict, if_true, hw, hcj]
  rfl

theorem cmp_rewrite {c : Crypto} {db : Db} {t : String} {tm : TableMeta ColMeta} (ht : Dict.get? db t = some tm) {n : String} {cm : ColMeta}
    (hc : Dict.get? tm.columns n = some cm) (cipher key : String) (op : Cmp) (b : Json) :
    whereRw c db (.str t) cipher key (.dict [(op.name, .list [.str n, b])]) =
      if cm.plaintext then .ok (.dict [(op.name, .list [.str n, b])])
      else if cm.type = "int" then
        match Dict.getItem cm.encCols "order-preserving" with
        | .error e => .error e
        | .ok m =>
          match whereRw c db (.str t) "order-preserving" cm.key b with
          | .error e => .error e
          | .ok b' => .ok (.dict [(op.name, .list [.str m, b'])])
      else .ok (.dict [(op.name, .list [.str n, b])]) := by
  have hw := whereCols_ok ht
  have hcj : colOfJson tm.columns (.str n) = .ok cm := getItem_ok.2 hc
  cases op <;> simp (decide := true) only [whereRw, whereDict, Cmp.name, if_true, if_false, hw, condCol, hcj] <;> rfl

mutual
theorem where_sealed {c : Crypto} {db : Db} {t : String} {tm : TableMeta ColMeta} (ht : Dict.get? db t = some tm) {vals : String → Option Val} (key : String) :
    ∀ (x : Cond), x.Fits tm.columns vals → whereRw c db (.str t) "symmetric" key x.json = .ok (x.sealed c tm.columns)
  | .eqInt n z, h => by
    obtain ⟨cm, y, hc, _, hp⟩ := h
    rw [Cond.json, eq_rewrite ht hc, Cond.sealed, hc]
    simp only
    by_cases h0 : cm.plaintext = true
    · simp [h0]
    · obtain ⟨_, b, hb⟩ := hp (by simpa using h0)
      rw [getItem_ok.2 hb]
      simp [h0, hb, whereRw, rewriteLeaf, sym_eq, Except.map, intText]
  | .eqText n s, h => by
    obtain ⟨cm, y, hc, _, hp⟩ := h
    rw [Cond.json, eq_rewrite ht hc, Cond.sealed, hc]
    simp only
    by_cases h0 : cm.plaintext = true
    · simp [h0]
    · obtain ⟨_, _, b, hb⟩ := hp (by simpa using h0)
      rw [getItem_ok.2 hb]
      simp (decide := true) [h0, hb, Json.lit, whereRw, whereDict, rewriteLeaf, sym_eq, Except.map]
  | .cmp op n z, h => by
    obtain ⟨cm, y, hc, _, hp⟩ := h
    rw [Cond.json, cmp_rewrite ht hc, Cond.sealed, hc]
    simp only
    by_cases h0 : cm.plaintext = true
    · simp [h0]
    · obtain ⟨hi, hz, b, hb⟩ := hp (by simpa using h0)
      rw [getItem_ok.2 hb]
      have : c.opeEnc cm.key z = .ok z := Ope.C04_fails_ope_is_identity (c.ope cm.key) z hz.1 hz.2
      simp (decide := true) [h0, hi, hb, whereRw, rewriteLeaf, this, Except.map]
  | .and l, h => by
    rw [Cond.json, Cond.sealed]
    simp (decide := true) only [whereRw, whereDict, if_true, if_false]
    rw [whereList_sealed ht l (by simpa [Cond.Fits] using h)]
  | .or l, h => by
    rw [Cond.json, Cond.sealed]
    simp (decide := true) only [whereRw, whereDict, if_true, if_false]
    rw [whereList_sealed ht l (by simpa [Cond.Fits] using h)]

theorem whereList_sealed {c : Crypto} {db : Db} {t : String} {tm : TableMeta ColMeta} (ht : Dict.get? db t = some tm) {vals : String → Option Val} :
    ∀ (l : List Cond), Cond.FitsAll tm.columns vals l → whereList c db (.str t) "symmetric" (Cond.jsons l) = .ok (Cond.sealedAll c tm.columns l)
  | [], _ => by rw [Cond.jsons, whereList, Cond.sealedAll]
  | x :: r, h => by
    rw [Cond.FitsAll] at h
    rw [Cond.jsons, whereList, where_sealed ht "" x h.1, whereList_sealed ht r h.2, Cond.sealedAll]
end

/-! ## C26 -/

/-- Base64 text whose length in bytes is not a multiple of three ends in padding. -/
theorem b64_pad : ∀ (bs : List UInt8), bs.length % 3 ≠ 0 → '=' ∈ Aes.b64encode bs
  | [], h => by simp at h
  | [a], _ => by simp [Aes.b64encode]
  | [a, b], _ => by simp [Aes.b64encode]
  | a :: b :: d :: r, h => by
    rw [Aes.b64encode]
    have := b64_pad r (by simp only [List.length_cons] at h; omega)
    simp [this]

theorem bare_no_eq {s : List Char} (h : '=' ∈ s) : bare (String.ofList s) = false := by
  unfold bare
  rw [String.toList_ofList]
  cases s with
  | nil => simp at h
  | cons a r =>
    simp only
    rcases List.mem_cons.1 h with h | h
    · subst h
      rfl
    · have : (r.all fun ch => ch.isAlphanum || decide (ch = '_')) = false := by
        rw [List.all_eq_false]
        exact ⟨'=', h, by decide⟩
      rw [this, Bool.and_false]

theorem intStr_length {z : Int} (h : Int64 z) : (Text.intStr z).length ≤ 20 := by
  have hn : (Text.natStr z.natAbs).length ≤ 19 := by
    unfold Text.natStr
    rw [Nat.length_toDigits_le_iff (by decide) (by decide)]
    unfold Int64 at h
    omega
  unfold Text.intStr
  split
  · simp only [List.length_cons]; omega
  · omega

theorem intStr_ascii (z : Int) : ∀ ch ∈ Text.intStr z, ch.toNat < 128 := by
  have hd : ∀ ch : Char, ch.isDigit = true → ch.toNat < 128 := by
    intro ch h
    simp only [Char.isDigit, Bool.and_eq_true, decide_eq_true_eq] at h
    have := UInt32.le_iff_toNat_le.1 h.2
    have h2 : ch.toNat ≤ 57 := this
    omega
  intro ch hm
  unfold Text.intStr at hm
  split at hm
  · rcases List.mem_cons.1 hm with rfl | hm
    · decide
    · exact hd _ (Text.natStr_digit hm)
  · exact hd _ (Text.natStr_digit hm)

theorem intStr_pos (z : Int) : 0 < (Text.intStr z).length := by
  unfold Text.intStr
  split
  · simp
  · exact List.length_pos_iff.2 (Text.natStr_ne_nil _)

/-- The ciphertext of a 64-bit integer is never taken for an identifier. -/
theorem ct_int_quoted (A : Aes.Block) {z : Int} (h : Int64 z) : bare (String.ofList (Aes.ct A (Text.intStr z))) = false := by
  apply bare_no_eq
  unfold Aes.ct
  apply b64_pad
  have h1 := Aes.utf8_ascii_length _ (intStr_ascii z)
  have h2 := intStr_length h
  have h3 := intStr_pos z
  rw [Aes.ecbBlocks_length A.E A.E_length]
  · unfold Aes.blocks
    rw [h1]
    omega
  · rw [Aes.zeroPad_length]
    rfl

theorem ct_inj {A : Aes.Block} {a b : List Char} (ha : ¬ Aes.EndsInNul a) (hb : ¬ Aes.EndsInNul b) : Aes.ct A a = Aes.ct A b ↔ a = b := by
  have := Aes.C06_equality_search_exact_partial A a b ha hb
  rw [Aes.encrypt_eq, Aes.encrypt_eq] at this
  rw [← this]
  constructor
  · intro h; rw [h]
  · intro h; injection h

theorem ofList_inj {a b : List Char} : String.ofList a = String.ofList b ↔ a = b := by
  constructor
  · intro h; have := congrArg String.toList h; simpa using this
  · intro h; rw [h]

/-- Order-preserving encryption keeps comparisons. -/
theorem cmp_ope {c : Crypto} {key : String} {a b ca cb : Int} (ha : c.opeEnc key a = .ok ca) (hb : c.opeEnc key b = .ok cb) (op : Cmp) :
    op.eval ca cb = op.eval a b := by
  have h1 := Ope.C01_ope_order_preserving _ _ _ _ _ ha hb
  have h2 := Ope.C01_ope_order_preserving _ _ _ _ _ hb ha
  cases op <;> simp only [Cmp.eval, decide_eq_decide] <;> omega

mutual
theorem sealed_eval {c : Crypto} {cols : Dict String ColMeta} {vals : String → Option Val} {row : Dict String DbVal} (hr : Holds c cols vals row) :
    ∀ (x : Cond), x.Fits cols vals → evalCond row (x.sealed c cols) = some (x.holds vals)
  | .eqInt n z, h => by
    obtain ⟨cm, y, hc, hv, hp⟩ := h
    rw [Cond.sealed, hc, Cond.holds, hv]
    simp only
    by_cases h0 : cm.plaintext = true
    · simp [h0, evalCond, evalDict, evalOp, evalLeaf, hr.plain n _ cm hv hc h0, rhsVal, dbEq, Val.db]
    · obtain ⟨hz, b, hb⟩ := hp (by simpa using h0)
      obtain ⟨e, he, hrow⟩ := hr.sym n _ cm b hv hc (by simpa using h0) hb
      rw [sym_eq] at he
      injection he with he
      subst he
      simp [h0, hb, evalCond, evalDict, evalOp, evalLeaf, hrow, rhsVal, ct_int_quoted _ hz, dbEq, Val.str, ofList_inj,
        ct_inj (intStr_not_nul y) (intStr_not_nul z)]
      exact ⟨fun h => Text.intStr_inj h, fun h => by rw [h]⟩
  | .eqText n s, h => by
    obtain ⟨cm, y, hc, hv, hp⟩ := h
    rw [Cond.sealed, hc, Cond.holds, hv]
    simp only
    by_cases h0 : cm.plaintext = true
    · simp [h0, evalCond, evalDict, evalOp, evalLeaf, hr.plain n _ cm hv hc h0, rhsVal, dbEq, Val.db, Json.lit]
    · obtain ⟨hs, hy, b, hb⟩ := hp (by simpa using h0)
      obtain ⟨e, he, hrow⟩ := hr.sym n _ cm b hv hc (by simpa using h0) hb
      rw [sym_eq] at he
      injection he with he
      subst he
      simp [h0, hb, evalCond, evalDict, evalOp, evalLeaf, hrow, rhsVal, dbEq, Val.str, ofList_inj, ct_inj hy hs, Json.lit, String.toList_inj]
  | .cmp op n z, h => by
    obtain ⟨cm, y, hc, hv, hp⟩ := h
    rw [Cond.sealed, hc, Cond.holds, hv]
    simp only
    by_cases h0 : cm.plaintext = true
    · cases op <;> simp (decide := true) [h0, evalCond, evalDict, evalOp, evalLeaf, hr.plain n _ cm hv hc h0, rhsVal, dbCmp, Val.db, Cmp.name]
    · obtain ⟨hi, hz, b, hb⟩ := hp (by simpa using h0)
      obtain ⟨e, he, hrow⟩ := hr.ope n _ cm b hv hc (by simpa using h0) hb
      have hz' : c.opeEnc cm.key z = .ok z := Ope.C04_fails_ope_is_identity (c.ope cm.key) z hz.1 hz.2
      have := cmp_ope he hz' op
      rw [hz']
      cases op <;> simp (decide := true) [h0, hb, evalCond, evalDict, evalOp, evalLeaf, hrow, rhsVal, dbCmp, Cmp.name, this]
  | .and l, h => by
    rw [Cond.sealed, Cond.holds]
    simp only [evalCond, evalDict, evalOp, if_true]
    exact sealed_all hr l (by simpa [Cond.Fits] using h)
  | .or l, h => by
    rw [Cond.sealed, Cond.holds]
    simp (decide := true) only [evalCond, evalDict, evalOp, if_true, if_false]
    exact sealed_some hr l (by simpa [Cond.Fits] using h)

theorem sealed_all {c : Crypto} {cols : Dict String ColMeta} {vals : String → Option Val} {row : Dict String DbVal} (hr : Holds c cols vals row) :
    ∀ (l : List Cond), Cond.FitsAll cols vals l → evalAll row (Cond.sealedAll c cols l) = some (Cond.allHold vals l)
  | [], _ => by rw [Cond.sealedAll, evalAll, Cond.allHold]
  | x :: r, h => by
    rw [Cond.FitsAll] at h
    rw [Cond.sealedAll, evalAll, sealed_eval hr x h.1, sealed_all hr r h.2, Cond.allHold]

theorem sealed_some {c : Crypto} {cols : Dict String ColMeta} {vals : String → Option Val} {row : Dict String DbVal} (hr : Holds c cols vals row) :
    ∀ (l : List Cond), Cond.FitsAll cols vals l → evalSome row (Cond.sealedAll c cols l) = some (Cond.someHolds vals l)
  | [], _ => by rw [Cond.sealedAll, evalSome, Cond.someHolds]
  | x :: r, h => by
    rw [Cond.FitsAll] at h
    rw [Cond.sealedAll, evalSome, sealed_eval hr x h.1, sealed_some hr r h.2, Cond.someHolds]
end

/-- **C26, partial.** For conditions of any nesting depth, the rewritten condition holds of the stored row exactly when the original holds of the plaintext
values, under all keys.  Missing: ranges over strings and floats (below), integers outside 64 bits, texts ending in NUL. -/
theorem C26_where_meaning_partial (c : Crypto) (db : Db) (t : String) (tm : TableMeta ColMeta) (vals : String → Option Val) (row : Dict String DbVal) (x : Cond)
    (ht : Dict.get? db t = some tm) (hr : Holds c tm.columns vals row) (hf : x.Fits tm.columns vals) :
    ∃ j, whereRw c db (.str t) "symmetric" "" x.json = .ok j ∧ evalCond row j = some (x.holds vals) :=
  ⟨_, where_sealed ht "" x hf, sealed_eval hr x hf⟩

/-- A row of an encrypted table has no column named like the encrypted column. -/
def NoPlainColumn (row : Dict String DbVal) (n : String) : Prop := Dict.get? row n = none

/-- **C26 fails** for ranges over encrypted columns that are not of type int (strings, floats): the condition is sent as it was written, names a column
the stored table does not have, and so has no meaning on any stored row. -/
theorem C26_fails_range_not_int (c : Crypto) (db : Db) (t n : String) (tm : TableMeta ColMeta) (cm : ColMeta) (op : Cmp) (b : Json) (row : Dict String DbVal)
    (ht : Dict.get? db t = some tm) (hc : Dict.get? tm.columns n = some cm) (hp : cm.plaintext = false) (hi : cm.type ≠ "int") (hr : NoPlainColumn row n) :
    ∃ j, whereRw c db (.str t) "symmetric" "" (.dict [(op.name, .list [.str n, b])]) = .ok j ∧ evalCond row j = none := by
  refine ⟨.dict [(op.name, .list [.str n, b])], ?_, ?_⟩
  · rw [cmp_rewrite ht hc]
    simp [hp, hi]
  · unfold NoPlainColumn at hr
    cases op <;> simp (decide := true) [evalCond, evalDict, evalOp, evalLeaf, Cmp.name, hr]

/-! ## C27 -/

mutual
/-- The strings of a value, keys of dicts excepted. -/
def Json.strings : Json → List String
  | .str s => [s]
  | .list l => Json.stringsL l
  | .dict d => Json.stringsD d
  | _ => []

def Json.stringsL : List Json → List String
  | [] => []
  | j :: r => Json.strings j ++ Json.stringsL r

def Json.stringsD : List (String × Json) → List String
  | [] => []
  | (_, j) :: r => Json.strings j ++ Json.stringsD r
end

mutual
/-- The numbers of a value. -/
def Json.ints : Json → List Int
  | .int z => [z]
  | .list l => Json.intsL l
  | .dict d => Json.intsD d
  | _ => []

def Json.intsL : List Json → List Int
  | [] => []
  | j :: r => Json.ints j ++ Json.intsL r

def Json.intsD : List (String × Json) → List Int
  | [] => []
  | (_, j) :: r => Json.ints j ++ Json.intsD r
end

mutual
/-- The comparisons of a condition: column and literal. -/
def Cond.leaves : Cond → List (String × Val)
  | .eqInt n z => [(n, .int z)]
  | .eqText n s => [(n, .text s)]
  | .cmp _ n z => [(n, .int z)]
  | .and l => Cond.leavesL l
  | .or l => Cond.leavesL l

def Cond.leavesL : List Cond → List (String × Val)
  | [] => []
  | x :: r => x.leaves ++ Cond.leavesL r
end

/-- What the backend may see as text: the name of a plaintext column and the text it is compared with, the name of a cipher column, the AES ciphertext of the
literal under the key of the column. -/
inductive MaySee (c : Crypto) (cols : Dict String ColMeta) (leaves : List (String × Val)) : String → Prop
  | plainName (n : String) (v : Val) (cm : ColMeta) : (n, v) ∈ leaves → Dict.get? cols n = some cm → cm.plaintext = true → MaySee c cols leaves n
  | plainText (n s : String) (cm : ColMeta) : (n, .text s) ∈ leaves → Dict.get? cols n = some cm → cm.plaintext = true → MaySee c cols leaves s
  | cipherName (n b e : String) (v : Val) (cm : ColMeta) : (n, v) ∈ leaves → Dict.get? cols n = some cm → cm.plaintext = false →
      Dict.get? cm.encCols e = some b → MaySee c cols leaves b
  | cipherText (n : String) (v : Val) (cm : ColMeta) : (n, v) ∈ leaves → Dict.get? cols n = some cm → cm.plaintext = false →
      MaySee c cols leaves (String.ofList (Aes.ct (c.aes cm.key) v.str))

/-- What the backend may see as a number: the number a plaintext column is compared with, or an order-preserving ciphertext. -/
inductive MaySeeInt (c : Crypto) (cols : Dict String ColMeta) (leaves : List (String × Val)) : Int → Prop
  | plain (n : String) (z : Int) (cm : ColMeta) : (n, .int z) ∈ leaves → Dict.get? cols n = some cm → cm.plaintext = true → MaySeeInt c cols leaves z
  | cipher (n : String) (z y : Int) (cm : ColMeta) : (n, .int z) ∈ leaves → Dict.get? cols n = some cm → cm.plaintext = false →
      c.opeEnc cm.key z = .ok y → MaySeeInt c cols leaves y

theorem MaySee.mono {c : Crypto} {cols : Dict String ColMeta} {l l' : List (String × Val)} (h : ∀ e ∈ l, e ∈ l') {s : String} (m : MaySee c cols l s) :
    MaySee c cols l' s := by
  cases m with
  | plainName n v cm h1 h2 h3 => exact .plainName s v cm (h _ h1) h2 h3
  | plainText n _ cm h1 h2 h3 => exact .plainText n s cm (h _ h1) h2 h3
  | cipherName n b e v cm h1 h2 h3 h4 => exact .cipherName n s e v cm (h _ h1) h2 h3 h4
  | cipherText n v cm h1 h2 h3 => exact .cipherText n v cm (h _ h1) h2 h3

theorem MaySeeInt.mono {c : Crypto} {cols : Dict String ColMeta} {l l' : List (String × Val)} (h : ∀ e ∈ l, e ∈ l') {z : Int} (m : MaySeeInt c cols l z) :
    MaySeeInt c cols l' z := by
  cases m with
  | plain n _ cm h1 h2 h3 => exact .plain n z cm (h _ h1) h2 h3
  | cipher n y _ cm h1 h2 h3 h4 => exact .cipher n y z cm (h _ h1) h2 h3 h4

mutual
theorem sealed_seen {c : Crypto} {cols : Dict String ColMeta} {vals : String → Option Val} :
    ∀ (x : Cond), x.Fits cols vals →
      (∀ s ∈ Json.strings (x.sealed c cols), MaySee c cols x.leaves s) ∧ (∀ z ∈ Json.ints (x.sealed c cols), MaySeeInt c cols x.leaves z)
  | .eqInt n z, h => by
    obtain ⟨cm, y, hc, _, hp⟩ := h
    rw [Cond.sealed, hc, Cond.leaves]
    simp only
    by_cases h0 : cm.plaintext = true
    · simp [h0, Json.strings, Json.stringsD, Json.stringsL, Json.ints, Json.intsD, Json.intsL]
      exact ⟨.plainName n (.int z) cm (by simp) hc h0, .plain n z cm (by simp) hc h0⟩
    · obtain ⟨_, b, hb⟩ := hp (by simpa using h0)
      simp [h0, hb, Json.strings, Json.stringsD, Json.stringsL, Json.ints, Json.intsD, Json.intsL]
      exact ⟨.cipherName n b "symmetric" (.int z) cm (by simp) hc (by simpa using h0) hb, .cipherText n (.int z) cm (by simp) hc (by simpa using h0)⟩
  | .eqText n s, h => by
    obtain ⟨cm, y, hc, _, hp⟩ := h
    rw [Cond.sealed, hc, Cond.leaves]
    simp only
    by_cases h0 : cm.plaintext = true
    · simp [h0, Json.lit, Json.strings, Json.stringsD, Json.stringsL, Json.ints, Json.intsD, Json.intsL]
      exact ⟨.plainName n (.text s) cm (by simp) hc h0, .plainText n s cm (by simp) hc h0⟩
    · obtain ⟨_, _, b, hb⟩ := hp (by simpa using h0)
      simp [h0, hb, Json.lit, Json.strings, Json.stringsD, Json.stringsL, Json.ints, Json.intsD, Json.intsL]
      exact ⟨.cipherName n b "symmetric" (.text s) cm (by simp) hc (by simpa using h0) hb, .cipherText n (.text s) cm (by simp) hc (by simpa using h0)⟩
  | .cmp op n z, h => by
    obtain ⟨cm, y, hc, _, hp⟩ := h
    rw [Cond.sealed, hc, Cond.leaves]
    simp only
    by_cases h0 : cm.plaintext = true
    · simp [h0, Json.strings, Json.stringsD, Json.stringsL, Json.ints, Json.intsD, Json.intsL]
      exact ⟨.plainName n (.int z) cm (by simp) hc h0, .plain n z cm (by simp) hc h0⟩
    · obtain ⟨_, hz, b, hb⟩ := hp (by simpa using h0)
      have hz' : c.opeEnc cm.key z = .ok z := Ope.C04_fails_ope_is_identity (c.ope cm.key) z hz.1 hz.2
      simp [h0, hb, hz', Json.strings, Json.stringsD, Json.stringsL, Json.ints, Json.intsD, Json.intsL]
      exact ⟨.cipherName n b "order-preserving" (.int z) cm (by simp) hc (by simpa using h0) hb, .cipher n z z cm (by simp) hc (by simpa using h0) hz'⟩
  | .and l, h => by
    have := sealed_seenL (c := c) l (by simpa [Cond.Fits] using h)
    simpa [Cond.sealed, Json.strings, Json.stringsD, Json.ints, Json.intsD, Cond.leaves] using this
  | .or l, h => by
    have := sealed_seenL (c := c) l (by simpa [Cond.Fits] using h)
    simpa [Cond.sealed, Json.strings, Json.stringsD, Json.ints, Json.intsD, Cond.leaves] using this

theorem sealed_seenL {c : Crypto} {cols : Dict String ColMeta} {vals : String → Option Val} :
    ∀ (l : List Cond), Cond.FitsAll cols vals l →
      (∀ s ∈ Json.stringsL (Cond.sealedAll c cols l), MaySee c cols (Cond.leavesL l) s) ∧
      (∀ z ∈ Json.intsL (Cond.sealedAll c cols l), MaySeeInt c cols (Cond.leavesL l) z)
  | [], _ => by simp [Cond.sealedAll, Json.stringsL, Json.intsL]
  | x :: r, h => by
    rw [Cond.FitsAll] at h
    have h1 := sealed_seen (c := c) x h.1
    have h2 := sealed_seenL (c := c) r h.2
    simp only [Cond.sealedAll, Json.stringsL, Json.intsL, Cond.leavesL, List.mem_append]
    refine ⟨?_, ?_⟩
    · rintro s (hs | hs)
      · exact (h1.1 s hs).mono fun e he => List.mem_append_left _ he
      · exact (h2.1 s hs).mono fun e he => List.mem_append_right _ he
    · rintro s (hs | hs)
      · exact (h1.2 s hs).mono fun e he => List.mem_append_left _ he
      · exact (h2.2 s hs).mono fun e he => List.mem_append_right _ he
end

/-- **C27, partial.** In a rewritten condition of any depth over `=` and, on integer columns, ranges, every text is the name of a plaintext column or a text
compared with one, the name of a cipher column, or the AES ciphertext of a literal under the key of its column, and every number is one compared with a plaintext
column or an order-preserving ciphertext.  (By C04 that ciphertext is the number itself.) -/
theorem C27_only_ciphertexts_partial (c : Crypto) (db : Db) (t : String) (tm : TableMeta ColMeta) (vals : String → Option Val) (x : Cond) (j : Json)
    (ht : Dict.get? db t = some tm) (hf : x.Fits tm.columns vals) (hj : whereRw c db (.str t) "symmetric" "" x.json = .ok j) :
    (∀ s ∈ Json.strings j, MaySee c tm.columns x.leaves s) ∧ (∀ z ∈ Json.ints j, MaySeeInt c tm.columns x.leaves z) := by
  rw [where_sealed ht "" x hf] at hj
  injection hj with hj
  subst hj
  exact sealed_seen x hf

/-- **C27, partial: LIKE.** A LIKE over an encrypted column is sent with the fuzzy column and the rewritten pattern (C08, C09), or refused. -/
theorem C27_like_partial (c : Crypto) (db : Db) (t n p : String) (tm : TableMeta ColMeta) (cm : ColMeta) (j : Json)
    (ht : Dict.get? db t = some tm) (hc : Dict.get? tm.columns n = some cm) (hp : cm.plaintext = false)
    (hj : whereRw c db (.str t) "symmetric" "" (.dict [("like", .list [.str n, Json.lit p])]) = .ok j) :
    ∃ b q, Dict.get? cm.encCols "fuzzy" = some b ∧ c.like cm.key p = .ok q ∧ j = .dict [("like", .list [.str b, Json.lit q])] := by
  have hw := whereCols_ok ht
  have hcj : colOfJson tm.columns (.str n) = .ok cm := getItem_ok.2 hc
  simp (decide := true) only [whereRw, whereDict, if_true, if_false, hw, condCol, hcj, hp, Json.lit] at hj
  cases hb : Dict.getItem cm.encCols "fuzzy" with
  | error e => simp [hb] at hj
  | ok b =>
    cases hq : c.like cm.key p with
    | error e => simp [hb, hq, rewriteLeaf, Except.map] at hj
    | ok q =>
      simp [hb, hq, rewriteLeaf, Except.map] at hj
      exact ⟨b, q, getItem_ok.1 hb, rfl, hj.symm⟩

/-- The operators `SQLWhere.rewrite` knows. -/
def knownOps : List String := ["eq", "gt", "lt", "gte", "lte", "like", "and", "or", "literal"]

/-- **C27 fails**: a condition with any other operator (`<>`, IN, BETWEEN, NOT, NOT LIKE, IS NULL, REGEXP, ...) is sent as it was written, with the names of
encrypted columns and the literals compared with them. -/
theorem C27_fails_other_operators (c : Crypto) (db : Db) (table : Json) (cipher key op : String) (v : Json) (h : op ∉ knownOps) :
    whereRw c db table cipher key (.dict [(op, v)]) = .ok (.dict [(op, v)]) := by
  simp only [knownOps, List.mem_cons, List.not_mem_nil, or_false, not_or] at h
  obtain ⟨h1, h2, h3, h4, h5, h6, h7, h8, h9⟩ := h
  rw [whereRw]
  unfold whereDict
  rw [if_neg h1, if_neg (by simp [h2, h3, h4, h5]), if_neg h6, if_neg (by simp [h7, h8]), if_neg h9, whereDict]

/-- **C27 fails**: so are ranges over encrypted columns that are not of type int. -/
theorem C27_fails_range_not_int (c : Crypto) (db : Db) (t n : String) (tm : TableMeta ColMeta) (cm : ColMeta) (op : Cmp) (b : Json)
    (ht : Dict.get? db t = some tm) (hc : Dict.get? tm.columns n = some cm) (hp : cm.plaintext = false) (hi : cm.type ≠ "int") :
    whereRw c db (.str t) "symmetric" "" (.dict [(op.name, .list [.str n, b])]) = .ok (.dict [(op.name, .list [.str n, b])]) := by
  rw [cmp_rewrite ht hc]
  simp [hp, hi]

/-- **C27 fails**: a number in quotes compared by a range with an encrypted integer column is sent in clear. -/
theorem C27_fails_quoted_number (c : Crypto) (db : Db) (t n b s : String) (tm : TableMeta ColMeta) (cm : ColMeta) (op : Cmp)
    (ht : Dict.get? db t = some tm) (hc : Dict.get? tm.columns n = some cm) (hp : cm.plaintext = false) (hi : cm.type = "int")
    (hb : Dict.get? cm.encCols "order-preserving" = some b) :
    whereRw c db (.str t) "symmetric" "" (.dict [(op.name, .list [.str n, Json.lit s])]) = .ok (.dict [(op.name, .list [.str b, Json.lit s])]) := by
  rw [cmp_rewrite ht hc, getItem_ok.2 hb]
  simp (decide := true) [hp, hi, Json.lit, whereRw, whereDict, rewriteLeaf]

end EulerDB.Clause
