import Verif.Aes.Lemmas

/-!
# Properties C05-C07: the AES string cipher

`encrypt A` and `decrypt A` are `AESCipher.encrypt` and `AESCipher.decrypt`; `A` is AES under any key.
-/

namespace EulerDB.Aes

open EulerDB

/-- Encrypting then decrypting, as a user does it. -/
def roundTrip (A : Block) (s : List Char) : Except PyErr (List Char) :=
  match encrypt A s with
  | .error e => .error e
  | .ok c => decrypt A c

/-- A string ends in NUL. -/
def EndsInNul (s : List Char) : Prop := s.getLast? = some '\x00'

instance (s) : Decidable (EndsInNul s) := inferInstanceAs (Decidable (_ = _))

/-! ## C05 -/

/-- **C05, exact form.** For every key and every string, encrypting and decrypting succeeds and returns the string without its trailing
NUL characters. -/
theorem C05_aes_roundtrip_exact (A : Block) (s : List Char) : roundTrip A s = .ok (rstripNul s) := by
  unfold roundTrip
  rw [encrypt_eq]
  exact decrypt_ct A s

/-- **C05, partial.** The round trip is the identity for every string that does not end in NUL, for every key. Missing: strings that end in NUL. -/
theorem C05_aes_roundtrip_partial (A : Block) (s : List Char) (h : ¬ EndsInNul s) : roundTrip A s = .ok s := by
  rw [C05_aes_roundtrip_exact, (rstripNul_eq_self_iff s).2 h]

/-- **C05 fails** for every string that ends in NUL, under every key: it comes back shortened. -/
theorem C05_fails_trailing_nul (A : Block) (s : List Char) (h : EndsInNul s) : roundTrip A s ≠ .ok s := by
  rw [C05_aes_roundtrip_exact]
  intro h'
  injection h' with h'
  exact (rstripNul_eq_self_iff s).1 h' h

/-! ## C06 -/

/-- **C06, exact form.** Two strings have the same ciphertext exactly when they agree up to trailing NULs and fill the
same number of 16-byte blocks. -/
theorem C06_equal_ciphertexts_iff (A : Block) (a b : List Char) :
    encrypt A a = encrypt A b ↔
      rstripNul a = rstripNul b ∧ ((utf8 a).length + 15) / 16 = ((utf8 b).length + 15) / 16 := by
  rw [encrypt_eq, encrypt_eq]
  constructor
  · intro h
    injection h with h
    constructor
    · have h1 := decrypt_ct A a
      rw [h, decrypt_ct A b] at h1
      injection h1 with h1
      exact h1.symm
    · have h1 := ct_length A a
      rw [h, ct_length A b] at h1
      change blocks a = blocks b
      omega
  · rintro ⟨h1, h2⟩
    rw [ct_congr A a b h1 h2]

/-- **C06, partial.** Among strings that do not end in NUL, equality of ciphertexts is equality of strings, under every key. Missing:
strings that end in NUL. -/
theorem C06_equality_search_exact_partial (A : Block) (a b : List Char) (ha : ¬ EndsInNul a) (hb : ¬ EndsInNul b) :
    encrypt A a = encrypt A b ↔ a = b := by
  rw [C06_equal_ciphertexts_iff]
  constructor
  · rintro ⟨h, _⟩
    rwa [(rstripNul_eq_self_iff a).2 ha, (rstripNul_eq_self_iff b).2 hb] at h
  · rintro rfl
    exact ⟨rfl, rfl⟩

/-- **C06 fails.** Under every key "x" and "x\\0" have the same ciphertext, so a search for one finds the other. -/
theorem C06_fails_collision (A : Block) :
    encrypt A ['x'] = encrypt A ['x', '\x00'] ∧ (['x'] : List Char) ≠ ['x', '\x00'] := by
  refine ⟨(C06_equal_ciphertexts_iff A _ _).2 ?_, by decide⟩
  decide

/-- The empty string has the empty ciphertext under every key: it is not hidden. -/
theorem C06_empty_string (A : Block) : encrypt A [] = .ok [] := by
  rw [encrypt_eq]; rfl

/-! ## C07 -/

/-- The ciphertext of `s` fits in the symmetric column generated for a column of declared length `t`. -/
def Fits (A : Block) (isChar : Bool) (t : Nat) (s : List Char) : Prop :=
  ∃ c, encrypt A s = .ok c ∧ c.length ≤ (typeAndLen isChar t).2

/-- **C07, partial.** Every string of at most `t` UTF-8 *bytes* fits, whatever the key. Missing: strings of at most `t` characters
with more than `t` bytes. -/
theorem C07_width_sufficient_bytes_partial (A : Block) (isChar : Bool) (t : Nat) (s : List Char)
    (h : (utf8 s).length ≤ t) : Fits A isChar t s := by
  refine ⟨_, encrypt_eq A s, ?_⟩
  rw [ct_length]
  unfold blocks typeAndLen
  dsimp only
  have hb : ((utf8 s).length + 15) / 16 ≤ t / 16 + 1 := by omega
  generalize ((utf8 s).length + 15) / 16 = x at *
  generalize t / 16 + 1 = y at *
  split <;> omega

theorem utf8_ascii_length (s : List Char) (h : ∀ c ∈ s, c.toNat < 128) : (utf8 s).length = s.length := by
  induction s with
  | nil => rfl
  | cons c s ih =>
    have hc : c.utf8Size = 1 := by
      have h1 := h c (by simp)
      unfold Char.utf8Size
      have : c.val ≤ 0x7f := by
        rw [UInt32.le_iff_toNat_le]
        exact Nat.le_of_lt_succ h1
      simp [this]
    rw [← List.singleton_append, utf8_append, List.length_append, ih (fun d hd => h d (by simp [hd]))]
    have : (utf8 [c]).length = 1 := by
      simp [utf8, String.length_utf8EncodeChar, hc]
    rw [this, List.length_append, List.length_singleton]

/-- **C07, partial.** In particular every ASCII string of at most `t` characters fits. -/
theorem C07_width_sufficient_ascii_partial (A : Block) (isChar : Bool) (t : Nat) (s : List Char)
    (hs : s.length ≤ t) (ha : ∀ c ∈ s, c.toNat < 128) : Fits A isChar t s :=
  C07_width_sufficient_bytes_partial A isChar t s (by rw [utf8_ascii_length s ha]; exact hs)

/-- The generated type stays CHAR only when its width is allowed for CHAR (at most 255). -/
theorem C07_char_width_legal (isChar : Bool) (t : Nat) (h : (typeAndLen isChar t).1 = true) :
    (typeAndLen isChar t).2 ≤ 255 := by
  unfold typeAndLen at *
  dsimp only at *
  generalize (((t / 16 + 1) * 16) / 3 + (if (t / 16 + 1) % 3 = 0 then 0 else 1)) * 4 = n at *
  by_cases hn : n > 254
  · rw [if_pos hn] at h; cases h
  · omega

/-- **C07 fails** for every declared length of at least 5, under every key: some string of at most `t` characters does not fit. -/
theorem C07_fails_multibyte (A : Block) (isChar : Bool) (t : Nat) (ht : 5 ≤ t) :
    ∃ s : List Char, s.length ≤ t ∧ ¬ Fits A isChar t s := by
  refine ⟨List.replicate t '😀', by simp, ?_⟩
  rintro ⟨c, hc, hle⟩
  rw [encrypt_eq] at hc
  injection hc with hc
  subst hc
  rw [ct_length] at hle
  have hlen : (utf8 (List.replicate t '😀')).length = 4 * t := by
    clear hle ht
    induction t with
    | zero => rfl
    | succ n ih =>
      rw [List.replicate_succ, ← List.singleton_append, utf8_append, List.length_append, ih]
      have : (utf8 ['😀']).length = 4 := by decide
      omega
  unfold blocks typeAndLen at hle
  rw [hlen] at hle
  dsimp only at hle
  split at hle <;> omega

/-! ## The hypotheses are met -/

/-- A block cipher for the examples: reverses the block. -/
def demoBlock : Block := ⟨List.reverse, List.reverse, by simp, by simp⟩

/-- C05, C06: a 20-byte string with a multi-byte character does not end in NUL. -/
example : ¬ EndsInNul "SELECT é FROM tables".toList ∧ roundTrip demoBlock ['a', 'é'] = .ok ['a', 'é'] :=
  ⟨by decide, C05_aes_roundtrip_partial _ _ (by decide)⟩

/-- C05 fails: a string of length 3. -/
example : EndsInNul ['a', 'b', '\x00'] ∧ roundTrip demoBlock ['a', 'b', '\x00'] = .ok ['a', 'b'] :=
  ⟨by decide, C05_aes_roundtrip_exact _ _⟩

/-- C07: VARCHAR(20) gets width 44; a 20-character ASCII string needs exactly 44. -/
example : typeAndLen false 20 = (false, 44) ∧ (ct demoBlock (List.replicate 20 'a')).length = 44 := by
  constructor
  · decide
  · rw [ct_length]; decide

end EulerDB.Aes
