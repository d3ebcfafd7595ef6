/-
The conditions of a client, as they are sent and read.
-/
import Verif.Whole.Send

namespace EulerDB.Whole

open EulerDB EulerDB.Clause EulerDB.Delta

/-! ### Ciphertexts as texts -/

theorem b64_plain : ∀ n : Fin 64, Aes.b64Char n.1 ≠ '.' ∧ Aes.b64Char n.1 ≠ Format.markB ∧ Aes.b64Char n.1 ≠ '*' ∧ Aes.b64Char n.1 ≠ '\n' := by
  decide +kernel

theorem b64_chars {bs : List UInt8} {x : Char} (h : x ∈ Aes.b64encode bs) : x ≠ '.' ∧ x ≠ Format.markB ∧ x ≠ '\n' ∧ x ≠ '\\' := by
  rcases Aes.b64encode_mem bs _ h with rfl | ⟨n, hn, rfl⟩
  · decide
  · obtain ⟨h1, h2, _, h4⟩ := b64_plain ⟨n, hn⟩
    exact ⟨h1, h2, h4, (Aes.b64Char_facts ⟨n, hn⟩).2.2.2.2.2.1⟩

theorem ct_chars {A : Aes.Block} {s : List Char} {x : Char} (h : x ∈ Aes.ct A s) : x ≠ '.' ∧ x ≠ Format.markB ∧ x ≠ '\n' ∧ x ≠ '\\' := b64_chars h

/-- Base64 text with padding is put in double quotes and read back. -/
theorem opaque_of {P : Writer} {s : List Char} (h : ∀ x ∈ s, x ≠ '.' ∧ x ≠ Format.markB ∧ x ≠ '\n' ∧ x ≠ '\\') (he : '=' ∈ s) : Opaque P (String.ofList s) := by
  refine ⟨?_, ?_, ?_, ?_, ?_⟩ <;> rw [String.toList_ofList]
  · exact fun hm => (h _ hm).1 rfl
  · exact fun hm => (h _ hm).2.1 rfl
  · rintro rfl; revert he; decide
  · cases s with
    | nil => rfl
    | cons c t =>
      have hw : Format.word P.uni '=' = false := by simp [Format.word]
      rcases List.mem_cons.1 he with rfl | he
      · simp (decide := true) [Format.valid, Format.letter]
      · have h1 : t.all (Format.word P.uni) = false := List.all_eq_false.2 ⟨'=', he, by simp [hw]⟩
        have h2 : (t.getLast? == some '\n') = false := by
          cases hl : t.getLast? with
          | none => rfl
          | some x =>
            have := (h x (by simp [List.mem_of_getLast? hl])).2.2.1
            simpa using this
        simp [Format.valid, h1, h2]
  · exact fun hm => (h _ hm).2.2.2 rfl

theorem ct_eq_mem (A : Aes.Block) {z : Int} (h : Int64 z) : '=' ∈ Aes.ct A (Text.intStr z) := by
  unfold Aes.ct
  apply b64_pad
  have h1 := Aes.utf8_ascii_length _ (intStr_ascii z)
  have h2 := intStr_length h
  have h3 := intStr_pos z
  rw [Aes.ecbBlocks_length A.E A.E_length]
  · unfold Aes.blocks
    rw [h1]
    omega
  · rw [Aes.zeroPad_length]
    rfl

theorem ct_kept (A : Aes.Block) (s : List Char) : Format.kept (Aes.ct A s) = true := Statement.kept_of fun h => (ct_chars h).2.2.2 rfl

/-! ### Names -/

/-- The names of the table in the backend are plain words: written as they are and read as names. -/
structure Named (P : Writer) (res : List Char → Bool) (tm : TableMeta ColMeta) : Prop where
  table : Bare P res tm.anonymous
  plain : ∀ n cm, Dict.get? tm.columns n = some cm → cm.plaintext = true → Bare P res n
  enc : ∀ n cm, Dict.get? tm.columns n = some cm → cm.plaintext = false → ∀ e b, (e, b) ∈ cm.encCols → Bare P res b

/-! ### Conditions that fit a table -/

mutual
/-- Integers (of 64 bits, if the column is encrypted) are compared with int columns, texts with columns without a numeric type; encrypted columns have the cipher
column needed and their literals do not end in NUL; the backslashes of texts compared with plaintext columns are harmless; no AND or OR is empty. -/
def Typed (cols : Dict String ColMeta) : Cond → Prop
  | .eqInt n z => ∃ cm, Dict.get? cols n = some cm ∧ cm.type = "int" ∧ (cm.plaintext = false → Int64 z ∧ ∃ b, Dict.get? cm.encCols "symmetric" = some b)
  | .eqText n s => ∃ cm, Dict.get? cols n = some cm ∧ (cm.type ≠ "int" ∧ cm.type ≠ "float" ∧ cm.type ≠ "double") ∧
      (cm.plaintext = true → Format.kept s.toList = true) ∧
      (cm.plaintext = false → ¬ Aes.EndsInNul s.toList ∧ ∃ b, Dict.get? cm.encCols "symmetric" = some b)
  | .cmp _ n z => ∃ cm, Dict.get? cols n = some cm ∧ cm.type = "int" ∧
      (cm.plaintext = false → Int64 z ∧ ∃ b, Dict.get? cm.encCols "order-preserving" = some b)
  | .and l => l ≠ [] ∧ TypedAll cols l
  | .or l => l ≠ [] ∧ TypedAll cols l

def TypedAll (cols : Dict String ColMeta) : List Cond → Prop
  | [] => True
  | x :: r => Typed cols x ∧ TypedAll cols r
end

/-- The row has a value of the right kind in every column a condition can mention. -/
structure Kinds (cols : Dict String ColMeta) (vals : String → Option Val) : Prop where
  int : ∀ n cm, Dict.get? cols n = some cm → cm.type = "int" → ∃ y, vals n = some (.int y)
  text : ∀ n cm, Dict.get? cols n = some cm → cm.type ≠ "int" ∧ cm.type ≠ "float" ∧ cm.type ≠ "double" →
    ∃ y, vals n = some (.text y) ∧ ¬ Aes.EndsInNul y.toList

mutual
theorem typed_fits {cols : Dict String ColMeta} {vals : String → Option Val} (hv : Kinds cols vals) : ∀ (x : Cond), Typed cols x → x.Fits cols vals
  | .eqInt n z, h => by
    rw [Typed] at h
    obtain ⟨cm, hc, ht, hp⟩ := h
    obtain ⟨y, hy⟩ := hv.int n cm hc ht
    rw [Cond.Fits]
    exact ⟨cm, y, hc, hy, hp⟩
  | .eqText n s, h => by
    rw [Typed] at h
    obtain ⟨cm, hc, ht, _, hp⟩ := h
    obtain ⟨y, hy, hn⟩ := hv.text n cm hc ht
    rw [Cond.Fits]
    exact ⟨cm, y, hc, hy, fun h0 => ⟨(hp h0).1, hn, (hp h0).2⟩⟩
  | .cmp op n z, h => by
    rw [Typed] at h
    obtain ⟨cm, hc, ht, hp⟩ := h
    obtain ⟨y, hy⟩ := hv.int n cm hc ht
    rw [Cond.Fits]
    exact ⟨cm, y, hc, hy, fun h0 => ⟨ht, (hp h0).1, (hp h0).2⟩⟩
  | .and l, h => by rw [Typed] at h; rw [Cond.Fits]; exact typed_fits_all hv l h.2
  | .or l, h => by rw [Typed] at h; rw [Cond.Fits]; exact typed_fits_all hv l h.2

theorem typed_fits_all {cols : Dict String ColMeta} {vals : String → Option Val} (hv : Kinds cols vals) : ∀ (l : List Cond), TypedAll cols l → Cond.FitsAll cols vals l
  | [], _ => by rw [Cond.FitsAll]; trivial
  | x :: r, h => by
    rw [TypedAll] at h
    rw [Cond.FitsAll]
    exact ⟨typed_fits hv x h.1, typed_fits_all hv r h.2⟩
end

/-- A row for a table without rows. -/
def someVals (cols : Dict String ColMeta) (n : String) : Option Val :=
  match Dict.get? cols n with
  | some cm => if cm.type = "int" then some (.int 0) else some (.text "")
  | none => none

theorem someVals_kinds (cols : Dict String ColMeta) : Kinds cols (someVals cols) := by
  refine ⟨fun n cm hc ht => ⟨0, by simp [someVals, hc, ht]⟩, fun n cm hc ht => ⟨"", by simp [someVals, hc, ht.1], ?_⟩⟩
  simp [Aes.EndsInNul]

/-! ### As they are sent -/

mutual
def sent (c : Crypto) (cols : Dict String ColMeta) : Cond → W
  | .eqInt n z =>
    match Dict.get? cols n with
    | some cm =>
      if cm.plaintext then .leaf .eq n (.int z)
      else .leaf .eq ((Dict.get? cm.encCols "symmetric").getD "") (.quoted (String.ofList (Aes.ct (c.aes cm.key) (Text.intStr z))))
    | none => .and []
  | .eqText n s =>
    match Dict.get? cols n with
    | some cm =>
      if cm.plaintext then .leaf .eq n (.lit s)
      else .leaf .eq ((Dict.get? cm.encCols "symmetric").getD "") (.lit (String.ofList (Aes.ct (c.aes cm.key) s.toList)))
    | none => .and []
  | .cmp op n z =>
    match Dict.get? cols n with
    | some cm =>
      if cm.plaintext then .leaf (.cmp op) n (.int z)
      else
        match c.opeEnc cm.key z with
        | .ok y => .leaf (.cmp op) ((Dict.get? cm.encCols "order-preserving").getD "") (.int y)
        | .error _ => .and []
    | none => .and []
  | .and l => .and (sentAll c cols l)
  | .or l => .or (sentAll c cols l)

def sentAll (c : Crypto) (cols : Dict String ColMeta) : List Cond → List W
  | [] => []
  | x :: r => sent c cols x :: sentAll c cols r
end

theorem sentAll_ne {c : Crypto} {cols : Dict String ColMeta} {l : List Cond} (h : l ≠ []) : sentAll c cols l ≠ [] := by
  cases l with
  | nil => exact absurd rfl h
  | cons x r => simp [sentAll]

mutual
theorem sent_json {c : Crypto} {cols : Dict String ColMeta} : ∀ (x : Cond), Typed cols x → (sent c cols x).json = x.sealed c cols
  | .eqInt n z, h => by
    rw [Typed] at h
    obtain ⟨cm, hc, ht, hp⟩ := h
    rw [sent, Cond.sealed, hc]
    simp only
    by_cases h0 : cm.plaintext = true
    · simp [h0, W.json, WOp.key, Rhs.json]
    · simp [h0, W.json, WOp.key, Rhs.json]
  | .eqText n s, h => by
    rw [Typed] at h
    obtain ⟨cm, hc, ht, _, hp⟩ := h
    rw [sent, Cond.sealed, hc]
    simp only
    by_cases h0 : cm.plaintext = true
    · simp [h0, W.json, WOp.key, Rhs.json]
    · simp [h0, W.json, WOp.key, Rhs.json]
  | .cmp op n z, h => by
    rw [Typed] at h
    obtain ⟨cm, hc, ht, hp⟩ := h
    rw [sent, Cond.sealed, hc]
    simp only
    by_cases h0 : cm.plaintext = true
    · simp [h0, W.json, WOp.key, Rhs.json]
    · obtain ⟨hz, b, hb⟩ := hp (by simpa using h0)
      have hz' : c.opeEnc cm.key z = .ok z := Ope.C04_fails_ope_is_identity (c.ope cm.key) z hz.1 hz.2
      simp [h0, W.json, WOp.key, Rhs.json, hz']
  | .and l, h => by rw [Typed] at h; rw [sent, Cond.sealed, W.json, sent_jsons l h.2]
  | .or l, h => by rw [Typed] at h; rw [sent, Cond.sealed, W.json, sent_jsons l h.2]

theorem sent_jsons {c : Crypto} {cols : Dict String ColMeta} : ∀ (l : List Cond), TypedAll cols l → W.jsons (sentAll c cols l) = Cond.sealedAll c cols l
  | [], _ => by rw [sentAll, W.jsons, Cond.sealedAll]
  | x :: r, h => by
    rw [TypedAll] at h
    rw [sentAll, W.jsons, Cond.sealedAll, sent_json x h.1, sent_jsons r h.2]
end

mutual
theorem sent_ok {P : Writer} {res : List Char → Bool} {c : Crypto} {tm : TableMeta ColMeta} (hn : Named P res tm) :
    ∀ (x : Cond), Typed tm.columns x → (sent c tm.columns x).Ok P res
  | .eqInt n z, h => by
    rw [Typed] at h
    obtain ⟨cm, hc, ht, hp⟩ := h
    rw [sent, hc]
    simp only
    by_cases h0 : cm.plaintext = true
    · rw [if_pos h0, W.Ok]
      exact ⟨hn.plain n cm hc h0, trivial⟩
    · obtain ⟨hz, b, hb⟩ := hp (by simpa using h0)
      rw [if_neg h0, hb, W.Ok]
      exact ⟨hn.enc n cm hc (by simpa using h0) _ b (Dict.mem_of_get? hb), opaque_of (fun x hx => ct_chars hx) (ct_eq_mem _ hz)⟩
  | .eqText n s, h => by
    rw [Typed] at h
    obtain ⟨cm, hc, ht, hk, hp⟩ := h
    rw [sent, hc]
    simp only
    by_cases h0 : cm.plaintext = true
    · rw [if_pos h0, W.Ok]
      exact ⟨hn.plain n cm hc h0, hk h0⟩
    · obtain ⟨hz, b, hb⟩ := hp (by simpa using h0)
      rw [if_neg h0, hb, W.Ok]
      exact ⟨hn.enc n cm hc (by simpa using h0) _ b (Dict.mem_of_get? hb), by rw [Rhs.Ok, String.toList_ofList]; exact ct_kept _ _⟩
  | .cmp op n z, h => by
    rw [Typed] at h
    obtain ⟨cm, hc, ht, hp⟩ := h
    rw [sent, hc]
    simp only
    by_cases h0 : cm.plaintext = true
    · rw [if_pos h0, W.Ok]
      exact ⟨hn.plain n cm hc h0, trivial⟩
    · obtain ⟨hz, b, hb⟩ := hp (by simpa using h0)
      have hz' : c.opeEnc cm.key z = .ok z := Ope.C04_fails_ope_is_identity (c.ope cm.key) z hz.1 hz.2
      rw [if_neg h0, hz', hb]
      simp only
      rw [W.Ok]
      exact ⟨hn.enc n cm hc (by simpa using h0) _ b (Dict.mem_of_get? hb), trivial⟩
  | .and l, h => by
    rw [Typed] at h
    rw [sent, W.Ok]
    exact ⟨sentAll_ne h.1, sent_okAll hn l h.2⟩
  | .or l, h => by
    rw [Typed] at h
    rw [sent, W.Ok]
    exact ⟨sentAll_ne h.1, sent_okAll hn l h.2⟩

theorem sent_okAll {P : Writer} {res : List Char → Bool} {c : Crypto} {tm : TableMeta ColMeta} (hn : Named P res tm) :
    ∀ (l : List Cond), TypedAll tm.columns l → W.OkAll P res (sentAll c tm.columns l)
  | [], _ => by rw [sentAll, W.OkAll]; trivial
  | x :: r, h => by
    rw [TypedAll] at h
    rw [sentAll, W.OkAll]
    exact ⟨sent_ok hn x h.1, sent_okAll hn r h.2⟩
end

/-- WHERE is rewritten to the condition sent. -/
theorem where_sent {c : Crypto} {db : Db} {t : String} {tm : TableMeta ColMeta} (ht : Dict.get? db t = some tm) {x : Cond} (h : Typed tm.columns x) :
    whereRw c db (.str t) "symmetric" "" x.json = .ok (sent c tm.columns x).json := by
  rw [sent_json x h]
  exact where_sealed ht "" x (typed_fits (someVals_kinds _) x h)

/-- It has the meaning of the client's condition on every stored row. -/
theorem sent_truth {P : Writer} {res : List Char → Bool} {c : Crypto} {tm : TableMeta ColMeta} (hn : Named P res tm) {vals : String → Option Val} {row : Row}
    (hv : Kinds tm.columns vals) (hr : Holds c tm.columns vals row) {x : Cond} (h : Typed tm.columns x) :
    truth row (sent c tm.columns x).ex = some (x.holds vals) := by
  rw [W.truth_ex row _ (sent_ok hn x h), sent_json x h]
  exact sealed_eval hr x (typed_fits hv x h)

/-- It is a leaf for the formatter. -/
theorem sent_good {P : Proxy} {res : List Char → Bool} {c : Crypto} {tm : TableMeta ColMeta} (hn : Named P.w res tm) {x : Cond} (h : Typed tm.columns x) (n p : Nat) :
    Statement.dispatch P.leaves (n + 1) (sent c tm.columns x).json p = .ok [.leaf (String.ofList (sent c tm.columns x).text)] := by
  have hw := W.written (P := P.w) (sent c tm.columns x) (sent_ok hn x h) 400
  have hp : (sent c tm.columns x).prec ≤ 400 := by
    rcases sent c tm.columns x with ⟨_ | (_ | _ | _ | _), _, _⟩ | _ | _ <;> simp [W.prec, WOp.prec]
  rw [isolate, if_pos hp] at hw
  refine Statement.dispatch_good (tx := fun _ => String.ofList (sent c tm.columns x).text) ⟨?_, ?_⟩ n p
  · rcases sent c tm.columns x with ⟨_ | (_ | _ | _ | _), _, _⟩ | _ | _ <;>
      simp (decide := true) [W.json, WOp.key, Cmp.name, Statement.Plain, Statement.hasAny, Statement.hasKey, Statement.stmtKeys, Statement.orderedClauses,
        Statement.unorderedClauses, Dict.get?_cons]
  · simp [Proxy.leaves, hw, Except.map]

end EulerDB.Whole
