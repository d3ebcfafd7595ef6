import Verif.Clause.WhereProps
import Verif.Fuzzy.Props

/-!
# UPDATE ... SET (C28)
-/

namespace EulerDB.Clause

open EulerDB EulerDB.Delta EulerDB.Table

/-- The literal as the parser gives it on the right of an assignment or a comparison. -/
def Val.rhs : Val → Json
  | .int z => .int z
  | .text s => Json.lit s

/-- The backend columns an assignment writes. -/
def targets (cols : Dict String ColMeta) (k : String) : List String :=
  match Dict.get? cols k with
  | none => []
  | some cm => if cm.plaintext then [k] else cm.encCols.map Prod.snd

theorem setCols_spec {c : Crypto} {db : Db} {t key : String} {v : Json} : ∀ (l : Dict String String) (acc acc' : Dict String Json),
    setCols c db t key v l acc = .ok acc' →
    (∀ b, b ∉ l.map Prod.snd → Dict.get? acc' b = Dict.get? acc b) ∧
    ((l.map Prod.snd).Nodup → ∀ enc b, (enc, b) ∈ l → ∃ v', whereRw c db (.str t) enc key v = .ok v' ∧ Dict.get? acc' b = some v')
  | [], acc, acc', h => by
    simp only [setCols] at h
    injection h with h; subst h
    simp
  | (enc, b) :: r, acc, acc', h => by
    simp only [setCols] at h
    cases hv : whereRw c db (.str t) enc key v with
    | error e => simp [hv] at h
    | ok v' =>
      simp only [hv] at h
      obtain ⟨h1, h2⟩ := setCols_spec r _ _ h
      refine ⟨?_, ?_⟩
      · intro b' hb'
        simp only [List.map_cons, List.mem_cons, not_or] at hb'
        rw [h1 b' hb'.2, Dict.get?_set_ne _ hb'.1]
      · intro hn enc' b' hm
        rw [List.map_cons, List.nodup_cons] at hn
        rcases List.mem_cons.1 hm with hm | hm
        · injection hm with e1 e2
          subst e1; subst e2
          exact ⟨v', hv, by rw [h1 _ hn.1, Dict.get?_set_self]⟩
        · exact h2 hn.2 enc' b' hm

theorem setLoop_spec {c : Crypto} {db : Db} {t : String} {cols : Dict String ColMeta} : ∀ (sets acc out : Dict String Json),
    setLoop c db t cols sets acc = .ok out →
    (∀ b, b ∉ sets.flatMap (fun e => targets cols e.1) → Dict.get? out b = Dict.get? acc b) ∧
    ((sets.flatMap (fun e => targets cols e.1)).Nodup → ∀ n v cm, (n, v) ∈ sets → Dict.get? cols n = some cm →
      (cm.plaintext = true → Dict.get? out n = some v) ∧
      (cm.plaintext = false → ∀ enc b, (enc, b) ∈ cm.encCols → ∃ v', whereRw c db (.str t) enc cm.key v = .ok v' ∧ Dict.get? out b = some v'))
  | [], acc, out, h => by
    simp only [setLoop] at h
    injection h with h; subst h
    simp
  | (k, v) :: r, acc, out, h => by
    simp only [setLoop] at h
    cases hk : Dict.getItem cols k with
    | error e => simp [hk] at h
    | ok cm =>
      have hk' := getItem_ok.1 hk
      simp only [hk] at h
      have ht : targets cols k = if cm.plaintext then [k] else cm.encCols.map Prod.snd := by simp [targets, hk']
      by_cases hp : cm.plaintext = true
      · rw [if_pos hp] at h ht
        obtain ⟨h1, h2⟩ := setLoop_spec r _ _ h
        refine ⟨?_, ?_⟩
        · intro b hb
          simp only [List.flatMap_cons, List.mem_append, not_or, ht, List.mem_singleton] at hb
          rw [h1 b hb.2, Dict.get?_set_ne _ hb.1]
        · intro hn n v' cm' hm hc
          simp only [List.flatMap_cons, ht] at hn
          rw [List.singleton_append, List.nodup_cons] at hn
          rcases List.mem_cons.1 hm with hm | hm
          · injection hm with e1 e2
            subst e1; subst e2
            rw [hc] at hk'
            injection hk' with hk'
            subst hk'
            refine ⟨fun _ => by rw [h1 _ hn.1, Dict.get?_set_self], fun h0 => ?_⟩
            rw [hp] at h0; cases h0
          · exact h2 hn.2 n v' cm' hm hc
      · rw [if_neg hp] at h ht
        cases hs : setCols c db t cm.key v cm.encCols acc with
        | error e => simp [hs] at h
        | ok acc' =>
          simp only [hs] at h
          obtain ⟨h1, h2⟩ := setLoop_spec r _ _ h
          obtain ⟨g1, g2⟩ := setCols_spec _ _ _ hs
          refine ⟨?_, ?_⟩
          · intro b hb
            simp only [List.flatMap_cons, List.mem_append, not_or, ht] at hb
            rw [h1 b hb.2, g1 b hb.1]
          · intro hn n v' cm' hm hc
            simp only [List.flatMap_cons, ht] at hn
            rw [List.nodup_append] at hn
            rcases List.mem_cons.1 hm with hm | hm
            · injection hm with e1 e2
              subst e1; subst e2
              rw [hc] at hk'
              injection hk' with hk'
              subst hk'
              refine ⟨fun h0 => absurd h0 hp, fun _ enc b hb => ?_⟩
              obtain ⟨v'', hv, hg⟩ := g2 hn.1 enc b hb
              refine ⟨v'', hv, ?_⟩
              rw [h1, hg]
              intro hb'
              exact hn.2.2 b (List.mem_map.2 ⟨(enc, b), hb, rfl⟩) b hb' rfl
            · exact h2 hn.2.1 n v' cm' hm hc

/-- A word without `%` is rewritten like a stored value. -/
theorem like_word {c : Crypto} {key s q : String} (h0 : '%' ∉ s.toList) (h : c.like key s = .ok q) :
    c.fuzzy key s = .ok q ∧ (s.toList = [] ∨ 3 ≤ s.toList.length) := by
  unfold Crypto.like at h
  unfold Crypto.fuzzy
  cases hl : Fuzzy.likeRewrite c.alnum (c.aes key) s.toList with
  | error e => simp [hl, Except.map] at h
  | ok r =>
    simp only [hl, Except.map] at h
    injection h with h; subst h
    unfold Fuzzy.likeRewrite at hl
    rw [Fuzzy.splitPct_word _ (fun ch hch he => h0 (he ▸ hch))] at hl
    cases hw : Fuzzy.encWords c.alnum (c.aes key) [s.toList] with
    | error e => simp [hw] at hl
    | ok ws =>
      simp only [hw] at hl
      injection hl with hl; subst hl
      obtain ⟨h1, rfl⟩ := Fuzzy.encWords_eq _ _ _ _ hw
      refine ⟨?_, h1 _ (by simp)⟩
      rw [Fuzzy.fuzzyEncrypt_eq]
      rfl

theorem intStr_no_pct (z : Int) : '%' ∉ Text.intStr z := by
  intro h
  unfold Text.intStr at h
  split at h
  · rcases List.mem_cons.1 h with h | h
    · cases h
    · exact Text.not_mem_natStr (by decide) _ h
  · exact Text.not_mem_natStr (by decide) _ h

/-- A fuzzy ciphertext of at least three characters contains padding. -/
theorem fuzzy_quoted {c : Crypto} {key : String} {s : List Char} {q : String} (h3 : 3 ≤ s.length) (h : c.fuzzy key (String.ofList s) = .ok q) :
    bare q = false := by
  unfold Crypto.fuzzy at h
  rw [String.toList_ofList, Fuzzy.fuzzyEncrypt_eq] at h
  simp only [Except.map] at h
  injection h with h; subst h
  apply bare_no_eq
  rw [Fuzzy.toks_word s (Or.inr h3)]
  cases s with
  | nil => simp at h3
  | cons a r =>
    have hg : Fuzzy.gramSize c.alnum (a :: r) = 3 ∨ Fuzzy.gramSize c.alnum (a :: r) = 2 := by unfold Fuzzy.gramSize; split <;> simp
    rw [Fuzzy.grams_cons _ _ _ (by simp only [List.length_cons] at h3; omega), Fuzzy.flat_cons]
    apply List.mem_append_left
    have hlen : ((a :: r).take (Fuzzy.gramSize c.alnum (a :: r))).length ≤ 4 := by rw [List.length_take]; omega
    have hne : (a :: r).take (Fuzzy.gramSize c.alnum (a :: r)) ≠ [] := by
      intro h0
      have := congrArg List.length h0
      rw [List.length_take, List.length_cons, List.length_nil] at this
      omega
    unfold Aes.ct
    apply b64_pad
    rw [Aes.ecbBlocks_length _ (c.aes key).E_length, Fuzzy.blocks_small _ hne hlen]
    · decide
    · rw [Aes.zeroPad_length]; rfl

/-- The literal suits an assignment to the column: integers of 64 bits in int columns, texts without `%` and without a trailing NUL in columns without a numeric type. -/
def SuitsSet (cm : ColMeta) : Val → Prop
  | .int z => cm.type = "int" ∧ Int64 z
  | .text s => cm.type ≠ "int" ∧ cm.type ≠ "float" ∧ cm.type ≠ "double" ∧ '%' ∉ s.toList

/-- The ciphers UPDATE handles for a literal. -/
def SetCipher : Val → String → Prop
  | .int _, enc => enc = "symmetric" ∨ enc = "fuzzy" ∨ enc = "order-preserving"
  | .text _, enc => enc = "symmetric" ∨ enc = "fuzzy"

/-- One cipher column. -/
theorem set_value {c : Crypto} {db : Db} {t enc : String} {cm : ColMeta} {v : Val} {j : Json} (hs : SuitsSet cm v) (he : SetCipher v enc)
    (hj : whereRw c db (.str t) enc cm.key v.rhs = .ok j) :
    ∃ x y, encryptValue c cm v.rhs enc = .ok x ∧ dbLit x = some y ∧ ∀ row, rhsVal row j = some y := by
  cases v with
  | int z =>
    obtain ⟨hi, hz⟩ := hs
    simp only [Val.rhs, whereRw, rewriteLeaf] at hj
    simp only [Val.rhs, encryptValue, encodeJson, hi]
    rcases he with rfl | rfl | rfl
    · simp (decide := true) only [if_true, if_false, sym_eq, Except.map] at hj
      injection hj with hj
      subst hj
      simp (decide := true) only [if_true, if_false, pyStr, sym_eq, Except.map]
      refine ⟨_, _, rfl, rfl, fun row => ?_⟩
      simp [rhsVal, intText, ct_int_quoted _ hz]
    · simp (decide := true) only [if_true] at hj
      cases hq : c.like cm.key (intText z) with
      | error e => simp [hq, Except.map] at hj
      | ok q =>
        simp only [hq, Except.map] at hj
        injection hj with hj
        subst hj
        obtain ⟨h1, h2⟩ := like_word (by simpa [intText] using intStr_no_pct z) hq
        simp (decide := true) only [if_true, if_false, pyStr, h1, Except.map]
        refine ⟨_, _, rfl, rfl, fun row => ?_⟩
        have h3 : 3 ≤ (Text.intStr z).length := by
          rcases h2 with h2 | h2
          · exfalso
            have := intStr_pos z
            simp only [intText, String.toList_ofList] at h2
            rw [h2] at this; simp at this
          · simpa [intText] using h2
        simp [rhsVal, fuzzy_quoted h3 h1]
    · simp (decide := true) only [if_true, if_false] at hj
      cases hy : c.opeEnc cm.key z with
      | error e => simp [hy, Except.map] at hj
      | ok y =>
        simp only [hy, Except.map] at hj
        injection hj with hj
        subst hj
        simp (decide := true) only [if_true, if_false, pyInt, hy, Except.map]
        exact ⟨_, _, rfl, rfl, fun row => rfl⟩
  | text s =>
    obtain ⟨hi, hf, hd, hpc⟩ := hs
    have hrw : whereRw c db (.str t) enc cm.key (Json.lit s) =
        match rewriteLeaf c enc cm.key (.str s) with
        | .error e => .error e
        | .ok v' => .ok (.dict [("literal", v')]) := by
      simp (decide := true) only [Json.lit, whereRw, whereDict, if_false, if_true]
      rfl
    simp only [Val.rhs] at hj ⊢
    rw [hrw] at hj
    have hlit : Dict.getItem [("literal", Json.str s)] "literal" = .ok (.str s) := rfl
    simp only [Json.lit, encryptValue, encodeJson, hf, hd, if_false, hlit]
    rcases he with rfl | rfl
    · simp (decide := true) only [rewriteLeaf, if_true, if_false, sym_eq, Except.map] at hj
      injection hj with hj
      subst hj
      simp (decide := true) only [if_true, if_false, pyStr, sym_eq, Except.map]
      exact ⟨_, _, rfl, rfl, fun row => rfl⟩
    · simp (decide := true) only [rewriteLeaf, if_true] at hj
      cases hq : c.like cm.key s with
      | error e => simp [hq, Except.map] at hj
      | ok q =>
        simp only [hq, Except.map] at hj
        injection hj with hj
        subst hj
        obtain ⟨h1, _⟩ := like_word hpc hq
        simp (decide := true) only [if_true, if_false, pyStr, h1, Except.map]
        exact ⟨_, _, rfl, rfl, fun row => rfl⟩

/-- **C28, partial.** For UPDATE with any number of assignments, an assignment of an integer or a text writes to each cipher column of the assigned column the
value that an INSERT of the same literal writes there.  Missing: float and double columns, arithmetic and sm4 columns (below), texts with `%`; the hypothesis that
the backend columns are distinct is C21. -/
theorem C28_update_like_insert_partial (c : Crypto) (db : Db) (t : String) (tm : TableMeta ColMeta) (sets out : Dict String Json) (n : String) (cm : ColMeta) (v : Val)
    (enc b : String) (ht : Dict.get? db t = some tm) (hrw : setRw c db t sets = .ok out) (hd : (sets.flatMap fun e => targets tm.columns e.1).Nodup)
    (hn : (n, v.rhs) ∈ sets) (hc : Dict.get? tm.columns n = some cm) (hp : cm.plaintext = false) (hs : SuitsSet cm v) (hb : (enc, b) ∈ cm.encCols)
    (he : SetCipher v enc) :
    ∃ x y j, encryptValue c cm v.rhs enc = .ok x ∧ dbLit x = some y ∧ Dict.get? out b = some j ∧ ∀ row, rhsVal row j = some y := by
  have h1 : tableOf db t = .ok tm := getItem_ok.2 ht
  rw [setRw, h1] at hrw
  obtain ⟨j, hj, hg⟩ := ((setLoop_spec _ _ _ hrw).2 hd n _ cm hn hc).2 hp enc b hb
  obtain ⟨x, y, hx, hy, hr⟩ := set_value hs he hj
  exact ⟨x, y, j, hx, hy, hg, hr⟩

/-- **C28, partial: nothing else is written.** -/
theorem C28_no_other_column_partial (c : Crypto) (db : Db) (t : String) (tm : TableMeta ColMeta) (sets out : Dict String Json) (b : String)
    (ht : Dict.get? db t = some tm) (hrw : setRw c db t sets = .ok out) (hb : b ∉ sets.flatMap fun e => targets tm.columns e.1) : Dict.get? out b = none := by
  have h1 : tableOf db t = .ok tm := getItem_ok.2 ht
  rw [setRw, h1] at hrw
  rw [(setLoop_spec _ _ _ hrw).1 b hb]
  rfl

/-- **C28 fails** for the cipher columns of any other cipher (arithmetic, sm4): the number or text is written to them in clear. -/
theorem C28_fails_other_ciphers (c : Crypto) (db : Db) (t enc key : String) (v : Val) (h1 : enc ≠ "symmetric") (h2 : enc ≠ "fuzzy") (h3 : enc ≠ "order-preserving") :
    whereRw c db (.str t) enc key v.rhs = .ok v.rhs := by
  cases v <;> simp (decide := true) [Val.rhs, Json.lit, whereRw, whereDict, rewriteLeaf, h1, h2, h3]

/-- **C28 fails** for float literals: they are written in clear to every cipher column. -/
theorem C28_fails_float_literal (c : Crypto) (db : Db) (t enc key : String) (q : ℚ) : whereRw c db (.str t) enc key (.float q) = .ok (.float q) := by
  simp [whereRw, rewriteLeaf]

/-- **C28 fails** for a text in an order-preserving column: it is written in clear. -/
theorem C28_fails_quoted_number (c : Crypto) (db : Db) (t key s : String) :
    whereRw c db (.str t) "order-preserving" key (Json.lit s) = .ok (Json.lit s) := by
  simp (decide := true) [Json.lit, whereRw, whereDict, rewriteLeaf]

/-- **C28 fails** for texts containing `%`: the fuzzy column receives a pattern with `%` in it, not the value an INSERT stores. -/
theorem C28_fails_percent (c : Crypto) (key : String) : c.like key "%" = .ok "%" ∧ c.fuzzy key "%" ≠ .ok "%" := by
  refine ⟨rfl, fun h => ?_⟩
  have : c.fuzzy key "%" = .ok (String.ofList (Aes.ct (c.aes key) ['%'])) := by
    unfold Crypto.fuzzy Fuzzy.fuzzyEncrypt
    have : "%".toList = ['%'] := rfl
    rw [this]
    simp only [List.length_singleton]
    rw [Aes.encrypt_eq]
    by_cases h : Fuzzy.strAlnum c.alnum ['%'] = true <;> simp [h, Except.map]
  rw [this] at h
  injection h with h
  have h := congrArg String.toList h
  rw [String.toList_ofList] at h
  have hl : (Aes.ct (c.aes key) ['%']).length = 1 := by rw [h]; rfl
  unfold Aes.ct at hl
  obtain ⟨u, hu, hul, _⟩ := Fuzzy.b64_16 (Aes.ecbBlocks (c.aes key).E (Aes.blocks ['%']) (Aes.zeroPad (Aes.utf8 ['%']))) (by
    rw [Aes.ecbBlocks_length _ (c.aes key).E_length]
    · rfl
    · rfl)
  rw [hu, List.length_append, hul] at hl
  simp at hl

/-- **C28 fails** for integers in float columns: UPDATE does not scale the number, INSERT does. -/
theorem C28_fails_float_column (c : Crypto) (db : Db) (t : String) (cm : ColMeta) (h : cm.type = "float") :
    ∃ x y, encryptValue c cm (.int 1) "order-preserving" = .ok (.dict [("value", .int x)]) ∧
      whereRw c db (.str t) "order-preserving" cm.key (.int 1) = .ok (.int y) ∧ x ≠ y := by
  have e1 : ∀ z : Int, Int64 z → c.opeEnc cm.key z = .ok z := fun z hz => Ope.C04_fails_ope_is_identity (c.ope cm.key) z hz.1 hz.2
  have he : Codec.encodeFloat ((1 : Int) : ℚ) = 1000000000000 := by
    unfold Codec.encodeFloat Codec.trunc
    norm_num
  refine ⟨1000000000000, 1, ?_, ?_, by decide⟩
  · simp (decide := true) only [encryptValue, encodeJson, h, if_true, he, pyInt]
    rw [e1 _ (by unfold Int64; decide)]
    rfl
  · simp (decide := true) only [whereRw, rewriteLeaf, if_true, if_false]
    rw [e1 _ (by unfold Int64; decide)]
    rfl

end EulerDB.Clause
