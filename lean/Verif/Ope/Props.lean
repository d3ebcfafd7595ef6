import Verif.Ope.Lemmas

/-!
# Properties C01-C04: order-preserving encryption

The statements speak about `Obj.encrypt` and `Obj.decrypt` (the API of `OPE`), for every key.  A key is an arbitrary
bit tape per label and an arbitrary sampler; `codeKey` is the sampler of the code on such a tape.
-/

namespace EulerDB.Ope

open EulerDB

theorem encrypt_unfold {o : Obj} {m c : Int} (h : o.encrypt m = .ok c) :
    o.inRange.start ≤ m ∧ m ≤ o.inRange.end_ ∧
      encRec o.key m o.outRange.size.toNat o.inRange o.outRange = .ok c := by
  unfold Obj.encrypt at h
  split at h
  · cases h
  · rename_i hc
    simp only [Range.contains, decide_eq_true_eq, not_not] at hc
    exact ⟨hc.1, hc.2, h⟩

theorem encrypt_of_contains {o : Obj} {m : Int} (h1 : o.inRange.start ≤ m) (h2 : m ≤ o.inRange.end_) :
    o.encrypt m = encRec o.key m o.outRange.size.toNat o.inRange o.outRange := by
  unfold Obj.encrypt
  rw [if_neg]
  simp [Range.contains, h1, h2]

theorem decrypt_of_contains {o : Obj} {c : Int} (h1 : o.outRange.start ≤ c) (h2 : c ≤ o.outRange.end_) :
    o.decrypt c = decRec o.key c o.outRange.size.toNat o.inRange o.outRange := by
  unfold Obj.decrypt
  rw [if_neg]
  simp [Range.contains, h1, h2]

/-! ## C01 -/

/-- **C01.** For one key and one pair of ranges, among the integers that `encrypt` accepts the order of the ciphertexts is
the order of the plaintexts, for every key (any tape, any sampler) and all ranges. -/
theorem C01_ope_order_preserving (o : Obj) (a b ca cb : Int)
    (ha : o.encrypt a = .ok ca) (hb : o.encrypt b = .ok cb) : a < b ↔ ca < cb := by
  obtain ⟨a1, a2, ha'⟩ := encrypt_unfold ha
  obtain ⟨b1, b2, hb'⟩ := encrypt_unfold hb
  constructor
  · intro hab
    exact encRec_strictMono hab a1 b2 ha' hb'
  · intro hc
    rcases lt_trichotomy a b with h | h | h
    · exact h
    · subst h; rw [ha] at hb; injection hb with e; omega
    · have := encRec_strictMono h b1 a2 hb' ha'; omega

/-- The same for `<=` and `=`: all six comparison operators agree. -/
theorem C01_ope_le_eq (o : Obj) (a b ca cb : Int)
    (ha : o.encrypt a = .ok ca) (hb : o.encrypt b = .ok cb) : (a ≤ b ↔ ca ≤ cb) ∧ (a = b ↔ ca = cb) := by
  have h1 := C01_ope_order_preserving o a b ca cb ha hb
  have h2 := C01_ope_order_preserving o b a cb ca hb ha
  omega

/-- Ciphertexts lie in the declared output range. -/
theorem C01_ope_in_range (o : Obj) (m c : Int) (h : o.encrypt m = .ok c) :
    o.outRange.start ≤ c ∧ c ≤ o.outRange.end_ := by
  obtain ⟨h1, h2, h'⟩ := encrypt_unfold h
  have := encRec_dec h1 h2 h'
  exact ⟨this.1, this.2.1⟩

/-! ## C02 -/

/-- **C02.** `decrypt c` returns `m` exactly when `encrypt m` returns `c`: decryption inverts encryption, and a number
that is not a ciphertext is never given a plaintext. -/
theorem C02_ope_decrypt_iff_encrypt (o : Obj) (m c : Int) :
    o.decrypt c = .ok m ↔ o.encrypt m = .ok c := by
  constructor
  · intro h
    unfold Obj.decrypt at h
    split at h
    · cases h
    · obtain ⟨h1, h2, h3⟩ := decRec_enc h
      rw [encrypt_of_contains h1 h2]; exact h3
  · intro h
    obtain ⟨h1, h2, h'⟩ := encrypt_unfold h
    obtain ⟨g1, g2, g3⟩ := encRec_dec h1 h2 h'
    rw [decrypt_of_contains g1 g2]; exact g3

/-- **C02.** A number that is no ciphertext is answered with one of the documented exceptions (out of range, invalid
ciphertext, invalid range limits) or with an exception of the sampler's own float arithmetic; no internal assertion fires. -/
theorem C02_ope_decrypt_rejects (o : Obj) (hv : o.valid) (hk : SamplerSound o.key)
    (hs : 2 * o.outRange.size.toNat < floatLimit) (c : Int) (hno : ∀ m, o.encrypt m ≠ .ok c) :
    ∃ e, o.decrypt c = .error e ∧
      (e = .outOfRange ∨ e = .invalidCiphertext ∨ e = .invalidRange ∨ SamplerError o.key e) := by
  by_cases hc : o.outRange.start ≤ c ∧ c ≤ o.outRange.end_
  · rw [decrypt_of_contains hc.1 hc.2]
    rcases decRec_total hk (c := c) hv.1 hc.1 hc.2 hv.2.2 hs (le_refl _) with ⟨p, hp⟩ | ⟨e, he, h⟩
    · exfalso
      rw [← decrypt_of_contains hc.1 hc.2] at hp
      exact hno p ((C02_ope_decrypt_iff_encrypt o p c).1 hp)
    · exact ⟨e, he, Or.inr h⟩
  · refine ⟨.outOfRange, ?_, Or.inl rfl⟩
    unfold Obj.decrypt
    rw [if_pos]
    simp only [Range.contains, decide_eq_true_eq]
    exact hc

/-! ## C03 -/

/-- **C03.** With the sampler of the code on any tape and any float arithmetic, `encrypt` of an integer of the input range returns
a value of the output range; the only other outcome is an exception raised by the float arithmetic of the sampler (a zero
draw, or a rejected logarithm) or a rejection loop that has not finished.  So none of the assertions and range checks of the
OPE code can fire, and the recursion ends. -/
theorem C03_ope_total (coin : Int → Nat → Bool) (h : Int → Int → Int → Int → Hrua) (loops : Nat)
    (inR outR : Range) (hv : Obj.valid ⟨codeKey coin h loops, inR, outR⟩)
    (hs : 2 * outR.size.toNat < floatLimit) (m : Int) (h1 : inR.start ≤ m) (h2 : m ≤ inR.end_) :
    (∃ c, Obj.encrypt ⟨codeKey coin h loops, inR, outR⟩ m = .ok c ∧ outR.start ≤ c ∧ c ≤ outR.end_) ∨
    ∃ e, Obj.encrypt ⟨codeKey coin h loops, inR, outR⟩ m = .error e ∧ SamplerError (codeKey coin h loops) e := by
  rw [encrypt_of_contains (o := ⟨codeKey coin h loops, inR, outR⟩) h1 h2]
  rcases encRec_total (codeKey_sound coin h loops) (p := m) h1 h2 hv.2.2 hs (le_refl _) with ⟨c, hc⟩ | ⟨e, he, hse⟩
  · left
    have := encRec_dec h1 h2 hc
    exact ⟨c, hc, this.1, this.2.1⟩
  · exact Or.inr ⟨e, he, hse⟩

/-- The exceptions of the sampler are the three of its float loop, and only for more than ten draws. -/
theorem C03_sampler_errors (coin : Int → Nat → Bool) (h : Int → Int → Int → Int → Hrua) (loops : Nat) (e : PyErr)
    (he : SamplerError (codeKey coin h loops) e) : e = .zeroDivision ∨ e = .mathDomain ∨ e = .nonterm := by
  obtain ⟨label, kk, nn1, nn2, he⟩ := he
  dsimp only [codeKey] at he
  unfold rhyper at he
  split at he
  · unfold hrua at he
    dsimp only at he
    split at he
    · rename_i e' he'
      injection he with he
      subst he
      revert he'
      generalize min kk (nn1 + nn2 - kk) = m
      generalize min nn1 nn2 = mn
      generalize max nn1 nn2 = mx
      suffices H : ∀ (fuel i : Nat), hruaLoop (coin label) (h label kk nn1 nn2) m mn mx fuel i = .error e' →
          e' = .zeroDivision ∨ e' = .mathDomain ∨ e' = .nonterm from H loops 0
      intro fuel
      induction fuel with
      | zero => intro i he; simp only [hruaLoop] at he; injection he with he; simp [← he]
      | succ n ih =>
        intro i he
        unfold hruaLoop at he
        split at he
        · injection he with he; simp [← he]
        dsimp only at he
        split at he
        · exact ih _ he
        split at he
        · injection he with he; simp [← he]
        split at he
        · cases he
        split at he
        · exact ih _ he
        split at he
        · cases he
        · exact ih _ he
    · cases he
  · cases he

/-- Integers outside the input range are rejected with OutOfRangeError. -/
theorem C03_ope_rejects_outside (o : Obj) (m : Int) (h : m < o.inRange.start ∨ o.inRange.end_ < m) :
    o.encrypt m = .error .outOfRange := by
  unfold Obj.encrypt
  rw [if_pos]
  simp only [Range.contains, decide_eq_true_eq]
  omega

/-- The float exception is real: a tape whose first 32 bits are zero makes the sampler divide by zero. -/
theorem C03_zero_draw_raises (coin : Nat → Bool) (hz : ∀ i < 32, coin i = false) (h : Hrua) (loops : Nat)
    (kk nn1 nn2 : Int) (hkk : kk > 10) : rhyper coin h (loops + 1) kk nn1 nn2 = .error .zeroDivision := by
  have hd : draw coin (2 * 0) = 0 := by
    unfold draw
    have : ((List.range 32).map fun j => coin (32 * (2 * 0) + j)) = List.replicate 32 false := by
      rw [List.eq_replicate_iff]
      refine ⟨by simp, ?_⟩
      intro b hb
      simp only [List.mem_map, List.mem_range] at hb
      obtain ⟨j, hj, rfl⟩ := hb
      simpa using hz j hj
    rw [this]
    simp [List.replicate]
  unfold rhyper
  rw [if_pos hkk]
  unfold hrua hruaLoop
  simp only [hd, if_true]

/-! ## C04 -/

theorem default_small : 2 * defaultRange.size.toNat < floatLimit := by
  unfold floatLimit
  calc 2 * defaultRange.size.toNat = 2 ^ 65 := by decide
    _ < 2 ^ 1024 := Nat.pow_lt_pow_right (by norm_num) (by norm_num)

/-- **C04 fails.** With the ranges `OPECipher` uses, encryption is the identity, for every key and every 64-bit integer: the
order-preserving column holds the plaintext. -/
theorem C04_fails_ope_is_identity (k : Key) (m : Int) (h1 : -2 ^ 63 ≤ m) (h2 : m ≤ 2 ^ 63 - 1) :
    (opeCipher k).encrypt m = .ok m := by
  rw [encrypt_of_contains (o := opeCipher k) h1 h2]
  have := encRec_equal (k := k) (p := m) (inR := defaultRange) (outR := defaultRange) h1 h2 rfl default_small
    (le_refl _)
  rw [show m - defaultRange.start + defaultRange.start = m by omega] at this
  exact this

/-- **C04 fails.** No key changes any stored value. -/
theorem C04_fails_key_irrelevant :
    ¬ ∃ (k₁ k₂ : Key) (m : Int), (opeCipher k₁).encrypt m ≠ (opeCipher k₂).encrypt m := by
  rintro ⟨k₁, k₂, m, h⟩
  apply h
  by_cases hm : -2 ^ 63 ≤ m ∧ m ≤ 2 ^ 63 - 1
  · rw [C04_fails_ope_is_identity k₁ m hm.1 hm.2, C04_fails_ope_is_identity k₂ m hm.1 hm.2]
  · rw [C03_ope_rejects_outside (opeCipher k₁) m (by simp only [opeCipher, defaultRange]; omega),
      C03_ope_rejects_outside (opeCipher k₂) m (by simp only [opeCipher, defaultRange]; omega)]

/-- A sampler that always leaves the slack in the left half (it stays in the support). -/
def greedyKey (b : Bool) : Key := ⟨fun _ _ => b, fun _ kk _ nn2 => .ok (max 0 (kk - nn2))⟩

theorem uniformLoop_false : ∀ (fuel i : Nat) (s e c : Int),
    uniformLoop (fun _ => false) fuel i s e = .ok c → c = s := by
  intro fuel
  induction fuel with
  | zero =>
    intro i s e c h
    unfold uniformLoop at h
    split at h
    · cases h
    · split at h
      · injection h with h; omega
      · cases h
  | succ n ih =>
    intro i s e c h
    unfold uniformLoop at h
    split at h
    · dsimp only at h
      simp only [Bool.false_eq_true, if_false] at h
      exact ih _ _ _ _ h
    · split at h
      · injection h with h; omega
      · cases h

theorem greedy_sound (b : Bool) : SamplerSound (greedyKey b) := by
  intro label kk nn1 nn2 n h1 h2 hh hr
  have hb : 1 ≤ kk ∧ kk ≤ nn1 + nn2 := by
    have hb := toFloat_bounds (nn1 + nn2).toNat
    unfold halfCeil at hh
    split at hh
    · cases hh
    · injection hh with hh
      have := hb.2.2 (by omega)
      omega
  dsimp only [greedyKey] at hr
  injection hr with hr
  unfold InSupport
  omega

theorem greedy_low {b : Bool} : ∀ {fuel : Nat} {inR outR : Range} {c : Int},
    inR.size < outR.size → encRec (greedyKey b) inR.start fuel inR outR = .ok c →
    (b = false → c = outR.start) ∧ (b = true → outR.start < c) := by
  intro fuel
  induction fuel with
  | zero => intro inR outR c _ h; simp [encRec] at h
  | succ n ih =>
    intro inR outR c hlt h
    obtain ⟨hc, hhc, hle, h⟩ := encRec_ok h
    rcases h with ⟨h1, h⟩ | ⟨hne, x, hx, h⟩
    · unfold sampleUniform at h
      split at h
      · cases h
      constructor
      · rintro rfl
        exact uniformLoop_false _ _ _ _ _ h
      · rintro rfl
        obtain ⟨k, hk⟩ : ∃ k, outR.size.toNat = k + 1 := ⟨outR.size.toNat - 1, by omega⟩
        rw [hk] at h
        unfold uniformLoop at h
        rw [if_pos (by unfold Range.size at *; omega)] at h
        simp only [greedyKey, if_true] at h
        have := (uniformLoop_bounds _ _ _ _ _ _ h).1
        unfold Range.size at *
        omega
    · have hmid := sampleHgd_mid hx
      have hxb := sampleHgd_bounds hx
      rcases h with ⟨a, b', d, h⟩ | ⟨a, b', d, h⟩
      · have hslack : x - inR.start + 1 < hc := by
          unfold sampleHgd at hx
          dsimp only at hx
          split at hx
          · cases hx
          split at hx
          · cases hx
          split at hx
          · omega
          simp only [greedyKey] at hx
          have hidx : outR.start - 1 + hc - outR.start + 1 = hc := by omega
          rw [hidx] at hx
          have hhb : 2 ≤ outR.size → hc ≤ outR.size - 1 ∧ (3 ≤ outR.size → 2 ≤ hc) := by
            intro h2
            have hb := toFloat_bounds outR.size.toNat
            unfold halfCeil at hhc
            split at hhc
            · cases hhc
            · injection hhc with hhc
              have h3 := hb.2.2 (by omega)
              refine ⟨by omega, ?_⟩
              intro h3'
              by_cases hsm : outR.size.toNat < 2 ^ 53
              · rw [toFloat_small _ hsm] at hhc; omega
              · norm_num at hsm; omega
          have hin1 : 1 ≤ inR.size := by unfold Range.size; omega
          have hhb := hhb (by omega)
          have hhb2 := hhb.2 (by omega)
          split at hx
          · injection hx with hx; omega
          · split at hx
            · injection hx with hx; omega
            · cases hx
        have := ih (inR := ⟨inR.start, x⟩) (outR := ⟨outR.start, outR.start - 1 + hc⟩)
          (by unfold Range.size; dsimp only; omega) h
        exact this
      · omega

/-- **C04, what is missing in the configuration.** Had the output range been larger than the input range, the ciphertexts would depend
on the key: for any such ranges there are two keys and a plaintext with different ciphertexts. -/
theorem C04_larger_range_depends_on_key_partial (inR outR : Range) (h1 : inR.start ≤ inR.end_)
    (h2 : inR.size < outR.size) (hs : 2 * outR.size.toNat < floatLimit) :
    ∃ (k₁ k₂ : Key) (m c₁ c₂ : Int), Obj.encrypt ⟨k₁, inR, outR⟩ m = .ok c₁ ∧
      Obj.encrypt ⟨k₂, inR, outR⟩ m = .ok c₂ ∧ c₁ ≠ c₂ := by
  have tot : ∀ b, ∃ c, encRec (greedyKey b) inR.start outR.size.toNat inR outR = .ok c := by
    intro b
    rcases encRec_total (greedy_sound b) (p := inR.start) (le_refl _) h1 (le_of_lt h2) hs (le_refl _) with h | ⟨e, _, he⟩
    · exact h
    · obtain ⟨_, _, _, _, he⟩ := he
      cases he
  obtain ⟨c₁, hc₁⟩ := tot false
  obtain ⟨c₂, hc₂⟩ := tot true
  refine ⟨greedyKey false, greedyKey true, inR.start, c₁, c₂, ?_, ?_, ?_⟩
  · rw [encrypt_of_contains (o := ⟨greedyKey false, inR, outR⟩) (le_refl _) h1]; exact hc₁
  · rw [encrypt_of_contains (o := ⟨greedyKey true, inR, outR⟩) (le_refl _) h1]; exact hc₂
  · have a1 := (greedy_low h2 hc₁).1 rfl
    have a2 := (greedy_low h2 hc₂).2 rfl
    omega

/-! ## The hypotheses are met -/

/-- The object used in the examples: 3 plaintexts in 8 ciphertexts. -/
def demo : Obj := ⟨greedyKey true, ⟨-1, 1⟩, ⟨10, 17⟩⟩

/-- C01, C02: plaintexts are encrypted, in order, and not all to the lowest values. -/
example : demo.encrypt (-1) = .ok 13 ∧ demo.encrypt 0 = .ok 15 ∧ demo.encrypt 1 = .ok 17 ∧
    demo.decrypt 15 = .ok 0 := by decide +kernel

/-- C02: some numbers of the output range are no ciphertexts, and the object meets the hypotheses. -/
example : demo.decrypt 12 = .error .invalidCiphertext ∧ demo.valid ∧ SamplerSound demo.key ∧
    2 * demo.outRange.size.toNat < floatLimit := by
  refine ⟨by decide +kernel, by unfold Obj.valid; decide, greedy_sound _, ?_⟩
  unfold floatLimit
  decide +kernel

/-- C03: the ranges 0..15 and 0..31 (OPE documentation) meet the hypotheses, with any tape. -/
example (coin h loops) : Obj.valid ⟨codeKey coin h loops, ⟨0, 2 ^ 15 - 1⟩, ⟨0, 2 ^ 31 - 1⟩⟩ ∧
    2 * (Range.size ⟨0, 2 ^ 31 - 1⟩).toNat < floatLimit := by
  refine ⟨⟨by norm_num, by norm_num, by norm_num [Range.size]⟩, ?_⟩
  unfold floatLimit
  decide +kernel

/-- C04: the plaintext 42 is stored as 42. -/
example (k : Key) : (opeCipher k).encrypt 42 = .ok 42 :=
  C04_fails_ope_is_identity k 42 (by norm_num) (by norm_num)

end EulerDB.Ope
