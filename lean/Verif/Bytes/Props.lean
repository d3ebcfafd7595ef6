import Verif.Bytes.Model
import Verif.Aes.Lemmas

/-!
# C66: the byte ciphers give back what they were given
-/

namespace EulerDB.Bytes

open EulerDB EulerDB.Aes

/-! ## AESCrypto -/

theorem xor_length {a b : List UInt8} (h : a.length = b.length) : (xor a b).length = a.length := by
  simp [xor, h]

theorem xor_xor {a b : List UInt8} (h : a.length = b.length) : xor a (xor a b) = b := by
  induction a generalizing b with
  | nil => cases b with
    | nil => rfl
    | cons _ _ => simp at h
  | cons x r ih => cases b with
    | nil => simp at h
    | cons y s =>
      have := ih (b := s) (by simpa using h)
      simp only [xor, List.zipWith_cons_cons] at this ⊢
      rw [this, ← UInt8.xor_assoc, UInt8.xor_self, UInt8.zero_xor]

theorem pkcs7_length (b : List UInt8) : (pkcs7 b).length = 16 * (b.length / 16 + 1) := by
  simp only [pkcs7, List.length_append, List.length_replicate]
  omega

theorem cbcEnc_length (A : Block) : ∀ (n : Nat) (iv b : List UInt8), iv.length = 16 → b.length = 16 * n → (cbcEnc A.E n iv b).length = 16 * n
  | 0, _, _, _, _ => rfl
  | n + 1, iv, b, hi, hb => by
    have ht : (b.take 16).length = 16 := by simp; omega
    have hx := xor_length (a := iv) (b := b.take 16) (by omega)
    have hc := A.E_length (xor iv (b.take 16)) (by omega)
    have hr := cbcEnc_length A n (A.E (xor iv (b.take 16))) (b.drop 16) hc (by simp; omega)
    simp only [cbcEnc, List.length_append, hc, hr]
    omega

theorem cbcDec_cbcEnc (A : Block) : ∀ (n : Nat) (iv b t : List UInt8), iv.length = 16 → b.length = 16 * n →
    cbcDec A.D n iv (cbcEnc A.E n iv b ++ t) = b
  | 0, _, b, _, _, hb => by
    have : b = [] := List.length_eq_zero_iff.1 (by omega)
    simp [cbcDec, this]
  | n + 1, iv, b, t, hi, hb => by
    have ht : (b.take 16).length = 16 := by simp; omega
    have hx := xor_length (a := iv) (b := b.take 16) (by omega)
    have hc := A.E_length (xor iv (b.take 16)) (by omega)
    have h1 : (cbcEnc A.E (n + 1) iv b ++ t).take 16 = A.E (xor iv (b.take 16)) := by
      simp only [cbcEnc, List.append_assoc]
      exact List.take_left' hc
    have h2 : (cbcEnc A.E (n + 1) iv b ++ t).drop 16 = cbcEnc A.E n (A.E (xor iv (b.take 16))) (b.drop 16) ++ t := by
      simp only [cbcEnc, List.append_assoc]
      exact List.drop_left' hc
    rw [cbcDec, h1, h2, A.D_E _ (by omega), xor_xor (by omega), cbcDec_cbcEnc A n _ _ _ hc (by simp; omega), List.take_append_drop]

theorem unpkcs7_pkcs7 (b : List UInt8) : unpkcs7 (pkcs7 b) = .ok b := by
  have hk : (UInt8.ofNat (16 - b.length % 16)).toNat = 16 - b.length % 16 := by
    rw [UInt8.toNat_ofNat']; omega
  have hl := pkcs7_length b
  have hg : (pkcs7 b).getLast? = some (UInt8.ofNat (16 - b.length % 16)) := by
    have h0 : 16 - b.length % 16 ≠ 0 := by omega
    simp only [pkcs7, List.getLast?_append, List.getLast?_replicate, h0, if_false, Option.some_or]
  have hs : (pkcs7 b).length - (16 - b.length % 16) = b.length := by rw [hl]; omega
  simp only [unpkcs7, hg, hk, hs]
  rw [if_pos]
  · simp [pkcs7]
  · refine ⟨by omega, by omega, by omega, ?_⟩
    simp [pkcs7]

theorem cbc_roundtrip (A : Block) (iv : List UInt8) (hi : iv.length = 16) (d : Data) (t : List UInt8) (ht : t.length < 16) :
    cbcDecrypt A iv (.bytes (cbcEncrypt A iv d ++ t)) = utf8Decode d.raw := by
  have hp := pkcs7_length d.raw
  have hn : (pkcs7 d.raw).length / 16 = d.raw.length / 16 + 1 := by omega
  have hl : (cbcEncrypt A iv d).length = 16 * (d.raw.length / 16 + 1) := by
    rw [cbcEncrypt, hn]
    exact cbcEnc_length A _ _ _ hi hp
  have hq : (cbcEncrypt A iv d ++ t).length / 16 = d.raw.length / 16 + 1 := by
    rw [List.length_append]; omega
  have h0 : ∀ x, Data.raw (.bytes x) = x := fun _ => rfl
  simp only [cbcDecrypt, h0]
  rw [hq, cbcEncrypt, hn, cbcDec_cbcEnc A _ _ _ _ hi hp, unpkcs7_pkcs7]

/-- **C66, AESCrypto on text:** every text comes back, under any key and any IV. -/
theorem C66_cbc_text (A : Block) (iv : List UInt8) (hi : iv.length = 16) (s : List Char) :
    cbcDecrypt A iv (.bytes (cbcEncrypt A iv (.str s))) = .ok s := by
  have := cbc_roundtrip A iv hi (.str s) [] (by simp)
  rw [List.append_nil] at this
  rw [this]
  exact utf8Decode_utf8 s

theorem utf8Decode_ok {b : List UInt8} {s : List Char} (h : utf8Decode b = .ok s) : b = utf8 s := by
  unfold utf8Decode at h
  split at h
  · rename_i a ha
    cases h
    have h1 := ByteArray.utf8Encode_get_utf8Decode? (b := b.toByteArray) (h := by simp [ha])
    simp only [ha, Option.get_some] at h1
    have h2 : (utf8 a.toList).toByteArray = b.toByteArray := h1
    have h3 := congrArg (fun x => x.data.toList) h2
    simpa using h3.symm
  · cases h

/-- **C66, AESCrypto on bytes:** bytes come back exactly if they are the UTF-8 form of a text, and then as that text. -/
theorem C66_cbc_bytes_iff (A : Block) (iv : List UInt8) (hi : iv.length = 16) (b : List UInt8) (s : List Char) :
    cbcDecrypt A iv (.bytes (cbcEncrypt A iv (.bytes b))) = .ok s ↔ b = utf8 s := by
  have := cbc_roundtrip A iv hi (.bytes b) [] (by simp)
  rw [List.append_nil] at this
  rw [this]
  exact ⟨utf8Decode_ok, fun h => by rw [Data.raw, h]; exact utf8Decode_utf8 s⟩

/-- **C66 fails for bytes that are no UTF-8:** they are encrypted, but decrypting raises. -/
theorem C66_fails_cbc_bytes (A : Block) (iv : List UInt8) (hi : iv.length = 16) (b : List UInt8) (hb : ∀ s, b ≠ utf8 s) :
    ∃ e, cbcDecrypt A iv (.bytes (cbcEncrypt A iv (.bytes b))) = .error e := by
  cases h : cbcDecrypt A iv (.bytes (cbcEncrypt A iv (.bytes b))) with
  | error e => exact ⟨e, rfl⟩
  | ok s => exact absurd ((C66_cbc_bytes_iff A iv hi b s).1 h) (hb s)

/-- **C66: a damaged ciphertext is accepted.** Up to 15 bytes appended to a ciphertext change nothing, because the decryptor is never finalised. -/
theorem C66_fails_cbc_trailing (A : Block) (iv : List UInt8) (hi : iv.length = 16) (s : List Char) (t : List UInt8) (ht : t.length < 16) :
    cbcDecrypt A iv (.bytes (cbcEncrypt A iv (.str s) ++ t)) = .ok s := by
  rw [cbc_roundtrip A iv hi (.str s) t ht]
  exact utf8Decode_utf8 s

/-- Distinct texts have distinct ciphertexts. -/
theorem C66_cbc_injective (A : Block) (iv : List UInt8) (hi : iv.length = 16) (s t : List Char)
    (h : cbcEncrypt A iv (.str s) = cbcEncrypt A iv (.str t)) : s = t := by
  have h1 := C66_cbc_text A iv hi s
  rw [h, C66_cbc_text A iv hi t] at h1
  exact (Except.ok.inj h1).symm

/-! ## AESCipherBytes -/

theorem utf8_small : ∀ k : Fin 17, utf8 [Char.ofNat k.1] = [UInt8.ofNat k.1] := by decide +kernel

theorem utf8_replicate (k n : Nat) (hk : k ≤ 16) : utf8 (List.replicate n (Char.ofNat k)) = List.replicate n (UInt8.ofNat k) := by
  induction n with
  | zero => rfl
  | succ n ih =>
    rw [List.replicate_succ, List.replicate_succ, ← List.singleton_append, utf8_append, ih, utf8_small ⟨k, by omega⟩]
    rfl

theorem utf8_padText (s : List Char) :
    utf8 (padText s) = utf8 s ++ List.replicate (16 - s.length % 16) (UInt8.ofNat (16 - s.length % 16)) := by
  rw [padText, utf8_append, utf8_replicate _ _ (by omega)]

theorem unpadBytes_pad (s : List Char) : unpadBytes (utf8 (padText s)) = .ok (utf8 s) := by
  have h0 : 16 - s.length % 16 ≠ 0 := by omega
  have hk : (UInt8.ofNat (16 - s.length % 16)).toNat = 16 - s.length % 16 := by
    rw [UInt8.toNat_ofNat']; omega
  rw [utf8_padText]
  simp only [unpadBytes, List.getLast?_append, List.getLast?_replicate, h0, if_false, Option.some_or, hk]
  simp

/-- The text that `AESCipherBytes.encrypt` pads. -/
def inner : Data → List Char
  | .str s => s
  | .bytes b => b64encode b

/-- The bytes it encrypts are whole blocks. -/
def Whole (s : List Char) : Prop := (utf8 (padText s)).length % 16 = 0

theorem bytes_roundtrip (A : Block) (d : Data) (h : Whole (inner d)) :
    ∃ c, bytesEncrypt A d = .ok c ∧ bytesDecrypt A c = (b64decodeBytes (utf8 (inner d))).map .bytes := by
  have hi : bytesEncrypt A d = ecb A.E (utf8 (padText (inner d))) := by cases d <;> rfl
  have hl : (utf8 (padText (inner d))).length = 16 * ((utf8 (padText (inner d))).length / 16) := by
    unfold Whole at h; omega
  refine ⟨ecbBlocks A.E ((utf8 (padText (inner d))).length / 16) (utf8 (padText (inner d))), by rw [hi, ecb, if_neg (by unfold Whole at h; omega)], ?_⟩
  have hlen := ecbBlocks_length A.E A.E_length _ _ hl
  have he : ecb A.D (ecbBlocks A.E ((utf8 (padText (inner d))).length / 16) (utf8 (padText (inner d)))) = .ok (utf8 (padText (inner d))) := by
    rw [ecb, if_neg (by omega), hlen, Nat.mul_div_cancel_left _ (by omega), ecbBlocks_inv A _ _ hl]
  simp only [bytesDecrypt, he, unpadBytes_pad]
  cases b64decodeBytes (utf8 (inner d)) <;> rfl

theorem utf8_ascii (c : Char) (h : c.toNat < 128) : utf8 [c] = [UInt8.ofNat c.toNat] := by
  simp only [utf8, List.flatMap_cons, List.flatMap_nil, List.append_nil, String.utf8EncodeChar]
  simp
  omega

theorem utf8_ascii_map (s : List Char) (h : ∀ c ∈ s, c.toNat < 128) : (utf8 s).map (fun x => Char.ofNat x.toNat) = s := by
  induction s with
  | nil => rfl
  | cons c r ih =>
    rw [← List.singleton_append, utf8_append, List.map_append, ih (fun d hd => h d (by simp [hd])), utf8_ascii c (h c (by simp))]
    have hc := h c (by simp)
    have : (UInt8.ofNat c.toNat).toNat = c.toNat := by rw [UInt8.toNat_ofNat']; omega
    simp [this]

theorem utf8_ascii_len (s : List Char) (h : ∀ c ∈ s, c.toNat < 128) : (utf8 s).length = s.length := by
  simpa using congrArg List.length (utf8_ascii_map s h)

theorem whole_iff (s : List Char) : Whole s ↔ ((utf8 s).length + (16 - s.length % 16)) % 16 = 0 := by
  rw [Whole, utf8_padText, List.length_append, List.length_replicate]

/-- **C66, AESCipherBytes on bytes:** all bytes come back. -/
theorem C66_bytes (A : Block) (b : List UInt8) : ∃ c, bytesEncrypt A (.bytes b) = .ok c ∧ bytesDecrypt A c = .ok (.bytes b) := by
  have ha := b64encode_ascii b
  obtain ⟨c, h1, h2⟩ := bytes_roundtrip A (.bytes b) ((whole_iff _).2 (by
    rw [show inner (.bytes b) = b64encode b from rfl, utf8_ascii_len _ ha]; omega))
  refine ⟨c, h1, ?_⟩
  rw [h2, b64decodeBytes, show inner (.bytes b) = b64encode b from rfl, utf8_ascii_map _ ha, b64loop_encode]
  rfl

/-- **C66 fails for AESCipherBytes on text with wide characters:** encrypting raises exactly if the bytes exceed the characters by no multiple of 16. -/
theorem C66_fails_bytes_text (A : Block) (s : List Char) :
    bytesEncrypt A (.str s) = .error .valueError ↔ (utf8 s).length % 16 ≠ s.length % 16 := by
  have hw := whole_iff s
  unfold Whole at hw
  have hi : bytesEncrypt A (.str s) = ecb A.E (utf8 (padText s)) := rfl
  rw [hi, ecb]
  split
  · rename_i h
    refine ⟨fun _ => ?_, fun _ => rfl⟩
    intro he
    apply h
    rw [hw]
    omega
  · rename_i h
    refine ⟨fun h' => (by cases h'), fun he => absurd (hw.1 (by omega)) ?_⟩
    omega

theorem b64loop_le {s : List Char} {q left pads : Nat} {b : List UInt8} (h : b64loop s q left pads = .ok b) : b.length ≤ s.length := by
  induction s generalizing q left pads b with
  | nil =>
    simp only [b64loop] at h
    split at h
    · cases h; simp
    · cases h
  | cons c r ih =>
    simp only [b64loop] at h
    split at h
    · split at h
      · cases h; simp
      · exact Nat.le_succ_of_le (ih h)
    · split at h
      · exact Nat.le_succ_of_le (ih h)
      · split at h
        · exact Nat.le_succ_of_le (ih h)
        all_goals
          split at h
          · cases h
          · rename_i hb
            cases h
            exact Nat.succ_le_succ (ih hb)

theorem b64loop_lt {s : List Char} {left pads : Nat} {b : List UInt8} (hs : s ≠ []) (h : b64loop s 0 left pads = .ok b) : b.length < s.length := by
  cases s with
  | nil => exact absurd rfl hs
  | cons c r =>
    simp only [b64loop] at h
    split at h
    · simp only [show ¬(2 ≤ 0 ∧ 4 ≤ 0 + (pads + 1)) by omega, if_false] at h
      exact Nat.lt_succ_of_le (b64loop_le h)
    · split at h
      · exact Nat.lt_succ_of_le (b64loop_le h)
      · exact Nat.lt_succ_of_le (b64loop_le h)

/-- **C66 fails for AESCipherBytes on text:** no text but the empty one comes back, neither as text nor as its bytes; decrypting gives the Base64 decoding of
the text, or raises. -/
theorem C66_fails_bytes_text_back (A : Block) (s : List Char) (hs : s ≠ []) (c : List UInt8) (h : bytesEncrypt A (.str s) = .ok c) :
    bytesDecrypt A c = (b64decodeBytes (utf8 s)).map .bytes ∧ bytesDecrypt A c ≠ .ok (.str s) ∧ bytesDecrypt A c ≠ .ok (.bytes (utf8 s)) := by
  have hw : Whole s := by
    by_contra hn
    have hi : bytesEncrypt A (.str s) = .error .valueError := by
      show ecb A.E (utf8 (padText s)) = _
      exact if_pos hn
    rw [hi] at h
    cases h
  obtain ⟨c', h1, h2⟩ := bytes_roundtrip A (.str s) hw
  rw [h1] at h
  cases h
  refine ⟨h2, ?_, ?_⟩
  · rw [h2]
    cases b64decodeBytes (utf8 (inner (.str s))) <;> simp [Except.map]
  · rw [h2]
    cases hb : b64decodeBytes (utf8 (inner (.str s))) with
    | error e => simp [Except.map]
    | ok b =>
      have hne : (utf8 s).map (fun x => Char.ofNat x.toNat) ≠ [] := by
        intro h0
        have h0 : utf8 s = utf8 [] := List.map_eq_nil_iff.1 h0
        exact hs (utf8_inj h0)
      have := b64loop_lt hne hb
      simp only [List.length_map] at this
      intro heq
      simp only [Except.map, Except.ok.injEq, Data.bytes.injEq] at heq
      rw [heq] at this
      omega

/-! ## SM4CipherBytes -/

theorem hex_facts : ∀ n : Fin 16, hexVal (hexDigit n.1) = some n.1 ∧ isSpace (hexDigit n.1) = false := by decide +kernel

theorem fromhex_hex (b : List UInt8) : fromhex (hex b) = .ok b := by
  induction b with
  | nil => rfl
  | cons x r ih =>
    have hx := x.toNat_lt
    have h1 := hex_facts ⟨x.toNat / 16, by omega⟩
    have h2 := hex_facts ⟨x.toNat % 16, by omega⟩
    simp only at h1 h2
    have hh : hex (x :: r) = hexDigit (x.toNat / 16) :: hexDigit (x.toNat % 16) :: hex r := rfl
    rw [hh, fromhex, h1.2, h1.1, h2.1, ih]
    have : UInt8.ofNat (16 * (x.toNat / 16) + x.toNat % 16) = x := by
      rw [Nat.div_add_mod]; exact UInt8.ofNat_toNat
    simp [this]

/-- **C66, SM4CipherBytes:** a text comes back. -/
theorem C66_sm4_text (S : Sm4) (s : List Char) : sm4Decrypt S (.str (sm4Encrypt S (.str s))) = .ok s := by
  simp only [sm4Decrypt, sm4Encrypt, fromhex_hex, S.dec_enc]
  exact utf8Decode_utf8 s

/-- **C66, SM4CipherBytes on bytes:** they come back exactly if they are the UTF-8 form of a text, and then as that text. -/
theorem C66_sm4_bytes_iff (S : Sm4) (b : List UInt8) (s : List Char) : sm4Decrypt S (.str (sm4Encrypt S (.bytes b))) = .ok s ↔ b = utf8 s := by
  simp only [sm4Decrypt, sm4Encrypt, fromhex_hex, S.dec_enc]
  exact ⟨utf8Decode_ok, fun h => by rw [Data.raw, h]; exact utf8Decode_utf8 s⟩

/-- **C66, SM4CipherBytes on the bytes of the cipher:** they are decrypted without hexadecimal digits. -/
theorem C66_sm4_raw (S : Sm4) (s : List Char) : sm4Decrypt S (.bytes (S.enc (utf8 s))) = .ok s := by
  simp only [sm4Decrypt, S.dec_enc]
  exact utf8Decode_utf8 s

/-- `str.upper` of a hexadecimal digit. -/
theorem hexVal_upper : ∀ n < 16, hexVal (hexDigit n).toUpper = some n := by decide

theorem space_upper : ∀ n < 16, isSpace (hexDigit n).toUpper = false := by decide

theorem fromhex_upper (b : List UInt8) : fromhex ((hex b).map Char.toUpper) = .ok b := by
  induction b with
  | nil => rfl
  | cons x b ih =>
    have h1 : x.toNat / 16 < 16 := by have := x.toNat_lt; omega
    have h2 : x.toNat % 16 < 16 := Nat.mod_lt _ (by decide)
    show fromhex ((hexDigit (x.toNat / 16)).toUpper :: (hexDigit (x.toNat % 16)).toUpper :: (hex b).map Char.toUpper) = _
    rw [fromhex, space_upper _ h1]
    simp only [Bool.false_eq_true, if_false, hexVal_upper _ h1, hexVal_upper _ h2, ih]
    have : 16 * (x.toNat / 16) + x.toNat % 16 = x.toNat := by omega
    rw [this]
    simp

/-- **C66, SM4CipherBytes:** the letters of a ciphertext may be upper case. -/
theorem C66_sm4_upper (S : Sm4) (s : List Char) : sm4Decrypt S (.str ((sm4Encrypt S (.str s)).map Char.toUpper)) = .ok s := by
  simp only [sm4Decrypt, sm4Encrypt, fromhex_upper, S.dec_enc]
  exact utf8Decode_utf8 s

/-- **C66: blanks before a ciphertext, as before any two digits, are skipped.** -/
theorem C66_sm4_blank (S : Sm4) (c : Char) (hc : isSpace c = true) (l : List Char) : sm4Decrypt S (.str (c :: l)) = sm4Decrypt S (.str l) := by
  have : fromhex (c :: l) = fromhex l := by
    cases l with
    | nil => simp [fromhex, hc]
    | cons d l => rw [fromhex, if_pos hc]
  simp only [sm4Decrypt, this]

/-- **C66: a damaged ciphertext is accepted.** Whenever the decrypted bytes end with a zero byte, AESCipherBytes returns the empty plaintext. -/
theorem C66_fails_bytes_zero (A : Block) (c m : List UInt8) (h : ecb A.D c = .ok m) (hz : m.getLast? = some 0) : bytesDecrypt A c = .ok (.bytes []) := by
  simp only [bytesDecrypt, h, unpadBytes, hz]
  rfl

/-! ## Examples -/

example : ∀ s, ([0xff] : List UInt8) ≠ utf8 s := by
  intro s h
  have h1 := utf8Decode_utf8 s
  rw [← h] at h1
  have h2 : utf8Decode [0xff] = .error .unicodeError := by decide +kernel
  rw [h2] at h1
  cases h1

/-- A text of one wide character cannot be encrypted by AESCipherBytes. -/
example (A : Block) : bytesEncrypt A (.str ['é']) = .error .valueError := (C66_fails_bytes_text A _).2 (by decide +kernel)

end EulerDB.Bytes
