import Verif.Aes.Model

namespace EulerDB.Aes

open EulerDB

theorem utf8_append (a b : List Char) : utf8 (a ++ b) = utf8 a ++ utf8 b := by
  simp [utf8]

theorem utf8_nuls (k : Nat) : utf8 (List.replicate k '\x00') = List.replicate k 0 := by
  induction k with
  | zero => rfl
  | succ n ih =>
    rw [List.replicate_succ, List.replicate_succ, ← List.singleton_append, utf8_append, ih]
    have : utf8 ['\x00'] = [0] := by decide
    rw [this]; rfl

theorem utf8Decode_utf8 (s : List Char) : utf8Decode (utf8 s) = .ok s := by
  unfold utf8Decode utf8
  have : (s.flatMap String.utf8EncodeChar).toByteArray = s.utf8Encode := rfl
  rw [this, List.utf8Decode?_utf8Encode]

theorem utf8_inj {a b : List Char} (h : utf8 a = utf8 b) : a = b := by
  have ha := utf8Decode_utf8 a
  rw [h, utf8Decode_utf8 b] at ha
  injection ha with ha
  exact ha.symm

/-- The number of AES blocks of a string. -/
def blocks (s : List Char) : Nat := ((utf8 s).length + 15) / 16

theorem zeroPad_eq (bs : List UInt8) :
    ∃ k, zeroPad bs = bs ++ List.replicate k 0 ∧ (bs.length + k) = 16 * ((bs.length + 15) / 16) := by
  unfold zeroPad
  split
  · exact ⟨_, rfl, by omega⟩
  · exact ⟨0, rfl, by omega⟩

theorem zeroPad_length (bs : List UInt8) : (zeroPad bs).length = 16 * ((bs.length + 15) / 16) := by
  obtain ⟨k, hk, hl⟩ := zeroPad_eq bs
  rw [hk, List.length_append, List.length_replicate, hl]

theorem ecbBlocks_length (f : List UInt8 → List UInt8) (hf : ∀ b, b.length = 16 → (f b).length = 16) :
    ∀ (n : Nat) (bs : List UInt8), bs.length = 16 * n → (ecbBlocks f n bs).length = 16 * n := by
  intro n
  induction n with
  | zero => intro bs _; rfl
  | succ n ih =>
    intro bs h
    unfold ecbBlocks
    rw [List.length_append, hf _ (by rw [List.length_take]; omega), ih _ (by rw [List.length_drop]; omega)]
    omega

theorem ecbBlocks_inv (A : Block) : ∀ (n : Nat) (bs : List UInt8), bs.length = 16 * n →
    ecbBlocks A.D n (ecbBlocks A.E n bs) = bs := by
  intro n
  induction n with
  | zero => intro bs h; have : bs = [] := List.length_eq_zero_iff.1 (by omega); subst this; rfl
  | succ n ih =>
    intro bs h
    have hl : (bs.take 16).length = 16 := by rw [List.length_take]; omega
    have hE := A.E_length _ hl
    simp only [ecbBlocks]
    rw [List.take_append_of_le_length (by omega), List.drop_append_of_le_length (by omega),
      List.take_of_length_le (by omega), List.drop_of_length_le (by omega), List.nil_append,
      A.D_E _ hl, ih _ (by rw [List.length_drop]; omega), List.take_append_drop]

/-- The ciphertext as a total function. -/
def ct (A : Block) (s : List Char) : List Char := b64encode (ecbBlocks A.E (blocks s) (zeroPad (utf8 s)))

theorem encrypt_eq (A : Block) (s : List Char) : encrypt A s = .ok (ct A s) := by
  unfold encrypt ecb
  have h := zeroPad_length (utf8 s)
  rw [if_neg (by omega)]
  have : (zeroPad (utf8 s)).length / 16 = blocks s := by unfold blocks; omega
  rw [this]; rfl

theorem ct_length (A : Block) (s : List Char) : (ct A s).length = 4 * ((16 * blocks s + 2) / 3) := by
  unfold ct
  rw [b64encode_length, ecbBlocks_length A.E A.E_length (blocks s) _ (zeroPad_length (utf8 s))]

theorem rstripNul_append_nuls (s : List Char) (k : Nat) :
    rstripNul (s ++ List.replicate k '\x00') = rstripNul s := by
  unfold rstripNul
  rw [List.reverse_append, List.reverse_replicate]
  congr 1
  induction k with
  | zero => rfl
  | succ n ih => rw [List.replicate_succ, List.cons_append, List.dropWhile_cons_of_pos (by simp), ih]

theorem takeWhile_nul (l : List Char) : l.takeWhile (· = '\x00') = List.replicate (l.takeWhile (· = '\x00')).length '\x00' := by
  rw [List.eq_replicate_iff]
  refine ⟨rfl, ?_⟩
  intro b hb
  induction l with
  | nil => simp at hb
  | cons c l ih =>
    by_cases hc : c = '\x00'
    · rw [List.takeWhile_cons_of_pos (by simpa using hc)] at hb
      rcases List.mem_cons.1 hb with h | h
      · rw [h, hc]
      · exact ih h
    · rw [List.takeWhile_cons_of_neg (by simpa using hc)] at hb
      simp at hb

theorem rstripNul_spec (s : List Char) : ∃ k, s = rstripNul s ++ List.replicate k '\x00' := by
  refine ⟨(s.reverse.takeWhile (· = '\x00')).length, ?_⟩
  unfold rstripNul
  rw [← List.reverse_replicate, ← takeWhile_nul, ← List.reverse_append, List.takeWhile_append_dropWhile,
    List.reverse_reverse]

theorem rstripNul_eq_self_iff (s : List Char) : rstripNul s = s ↔ s.getLast? ≠ some '\x00' := by
  unfold rstripNul
  rw [List.getLast?_eq_head?_reverse]
  generalize hr : s.reverse = r
  have : s = r.reverse := by rw [← hr, List.reverse_reverse]
  subst this
  rw [List.reverse_inj]
  cases r with
  | nil => simp
  | cons c r =>
    by_cases hc : c = '\x00'
    · subst hc
      simp only [List.head?_cons, ne_eq, not_true_eq_false, iff_false]
      intro h
      have := congrArg List.length h
      rw [List.dropWhile_cons_of_pos (by simp)] at this
      have h2 := (List.dropWhile_sublist (p := fun x => decide (x = '\x00')) (l := r)).length_le
      simp only [List.length_cons] at this
      omega
    · rw [List.dropWhile_cons_of_neg (by simpa using hc)]
      simp [hc]

theorem unpad_zeroPad (s : List Char) : unpad (zeroPad (utf8 s)) = .ok (rstripNul s) := by
  obtain ⟨k, hk, _⟩ := zeroPad_eq (utf8 s)
  unfold unpad
  rw [hk, ← utf8_nuls, ← utf8_append, utf8Decode_utf8]
  simp only
  rw [rstripNul_append_nuls]

theorem decrypt_ct (A : Block) (s : List Char) : decrypt A (ct A s) = .ok (rstripNul s) := by
  unfold decrypt ct
  rw [b64decode_encode]
  simp only
  have hl := zeroPad_length (utf8 s)
  have hlen := ecbBlocks_length A.E A.E_length (blocks s) _ hl
  unfold ecb
  rw [if_neg (by omega)]
  simp only
  have : (ecbBlocks A.E (blocks s) (zeroPad (utf8 s))).length / 16 = blocks s := by omega
  rw [this, ecbBlocks_inv A (blocks s) _ hl, unpad_zeroPad]

theorem ct_congr (A : Block) (a b : List Char) (h : rstripNul a = rstripNul b) (hb : blocks a = blocks b) :
    ct A a = ct A b := by
  unfold ct
  rw [hb]
  congr 2
  obtain ⟨ka, hka, hla⟩ := zeroPad_eq (utf8 a)
  obtain ⟨kb, hkb, hlb⟩ := zeroPad_eq (utf8 b)
  obtain ⟨na, hna⟩ := rstripNul_spec a
  obtain ⟨nb, hnb⟩ := rstripNul_spec b
  have ea : utf8 a = utf8 (rstripNul b) ++ List.replicate na 0 := by
    conv_lhs => rw [hna]
    rw [utf8_append, utf8_nuls, h]
  have eb : utf8 b = utf8 (rstripNul b) ++ List.replicate nb 0 := by
    conv_lhs => rw [hnb]
    rw [utf8_append, utf8_nuls]
  unfold blocks at hb
  have l1 : (utf8 a).length = (utf8 (rstripNul b)).length + na := by rw [ea]; simp
  have l2 : (utf8 b).length = (utf8 (rstripNul b)).length + nb := by rw [eb]; simp
  rw [hka, hkb, ea, eb, List.append_assoc, List.append_assoc, List.replicate_append_replicate,
    List.replicate_append_replicate]
  congr 2
  omega

end EulerDB.Aes
