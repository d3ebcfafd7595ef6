import Verif.Paillier.Model
import Mathlib.Tactic.Ring
import Mathlib.Tactic.LinearCombination

namespace EulerDB.Paillier

open EulerDB EulerDB.Text

/-- `c` is a Paillier ciphertext of the residue `m`. -/
def IsEnc (n m c : Nat) : Prop := ∃ r, Nat.Coprime r n ∧ c ≡ (1 + n) ^ m * r ^ n [MOD n ^ 2]

theorem one_add_pow_modEq (n k : Nat) : (1 + n) ^ k ≡ 1 + k * n [MOD n ^ 2] := by
  induction k with
  | zero => simp; rfl
  | succ k ih =>
    rw [pow_succ]
    have h1 := ih.mul_right (1 + n)
    have h2 : (1 + k * n) * (1 + n) = 1 + (k + 1) * n + n ^ 2 * k := by ring
    rw [h2] at h1
    refine h1.trans ?_
    show _ ≡ _ [MOD _]
    conv_rhs => rw [← Nat.add_zero (1 + (k + 1) * n)]
    exact Nat.ModEq.add_left _ (Nat.modEq_zero_iff_dvd.2 (Dvd.intro _ rfl))

theorem one_add_pow_n (n : Nat) : (1 + n) ^ n ≡ 1 [MOD n ^ 2] := by
  refine (one_add_pow_modEq n n).trans ?_
  conv_rhs => rw [← Nat.add_zero 1]
  exact Nat.ModEq.add_left _ (Nat.modEq_zero_iff_dvd.2 ⟨1, by ring⟩)

theorem one_add_pow_mod (n m : Nat) : (1 + n) ^ m ≡ (1 + n) ^ (m % n) [MOD n ^ 2] := by
  conv_lhs => rw [← Nat.mod_add_div m n, pow_add, pow_mul]
  have := ((one_add_pow_n n).pow (m / n)).mul_left ((1 + n) ^ (m % n))
  simpa using this

theorem IsEnc.mod {n m c : Nat} (h : IsEnc n m c) : IsEnc n (m % n) c := by
  obtain ⟨r, hr, hc⟩ := h
  exact ⟨r, hr, hc.trans ((one_add_pow_mod n m).mul_right _)⟩

theorem IsEnc.mul {n m₁ m₂ c₁ c₂ : Nat} (h₁ : IsEnc n m₁ c₁) (h₂ : IsEnc n m₂ c₂) :
    IsEnc n (m₁ + m₂) (c₁ * c₂ % n ^ 2) := by
  obtain ⟨r₁, hr₁, hc₁⟩ := h₁
  obtain ⟨r₂, hr₂, hc₂⟩ := h₂
  refine ⟨r₁ * r₂, Nat.Coprime.mul_left hr₁ hr₂, ?_⟩
  refine (Nat.mod_modEq _ _).trans ((hc₁.mul hc₂).trans ?_)
  rw [pow_add, mul_pow]
  have : (1 + n) ^ m₁ * r₁ ^ n * ((1 + n) ^ m₂ * r₂ ^ n) = (1 + n) ^ m₁ * (1 + n) ^ m₂ * (r₁ ^ n * r₂ ^ n) := by ring
  rw [this]

theorem isEnc_one (n : Nat) : IsEnc n 0 1 := ⟨1, Nat.coprime_one_left n, by simp; rfl⟩

theorem rawEncrypt_isEnc {n m r : Nat} (hr : Nat.Coprime r n) : IsEnc n m (rawEncrypt n m r) := by
  refine ⟨r, hr, ?_⟩
  unfold rawEncrypt
  refine (Nat.mod_modEq _ _).trans (Nat.ModEq.mul ?_ (Nat.mod_modEq _ _))
  refine (Nat.mod_modEq _ _).trans ?_
  rw [show n * m + 1 = 1 + m * n by ring]
  exact (one_add_pow_modEq n m).symm

/-- One half of decryption. -/
theorem pow_residue {p q c m : Nat} (hp : p.Prime) (h : IsEnc (p * q) m c) :
    c ^ (p - 1) % p ^ 2 = 1 + p * ((m * (p - 1) * q) % p) := by
  obtain ⟨r, hr, hc⟩ := h
  have hdvd : p ^ 2 ∣ (p * q) ^ 2 := ⟨q ^ 2, by ring⟩
  have hc' : c ≡ (1 + p * q) ^ m * r ^ (p * q) [MOD p ^ 2] := hc.of_dvd hdvd
  have h1 : c ^ (p - 1) ≡ (1 + p * q) ^ (m * (p - 1)) * (r ^ (p * (p - 1))) ^ q [MOD p ^ 2] := by
    refine (hc'.pow (p - 1)).trans ?_
    rw [mul_pow, ← pow_mul, ← pow_mul, ← pow_mul]
    rw [show p * q * (p - 1) = p * (p - 1) * q by ring]
  have hrp : Nat.Coprime r (p ^ 2) := by
    apply Nat.Coprime.pow_right
    exact Nat.Coprime.coprime_mul_right_right hr
  have h2 : r ^ (p * (p - 1)) ≡ 1 [MOD p ^ 2] := by
    have := Nat.ModEq.pow_totient hrp
    rwa [Nat.totient_prime_pow hp (by norm_num), show p ^ (2 - 1) = p by simp] at this
  have h3 : c ^ (p - 1) ≡ 1 + m * (p - 1) * (p * q) [MOD p ^ 2] := by
    refine h1.trans ?_
    have h4 : (1 + p * q) ^ (m * (p - 1)) ≡ 1 + m * (p - 1) * (p * q) [MOD p ^ 2] :=
      (one_add_pow_modEq (p * q) _).of_dvd hdvd
    have := h4.mul (h2.pow q)
    simpa using this
  have h5 : 1 + m * (p - 1) * (p * q) ≡ 1 + p * ((m * (p - 1) * q) % p) [MOD p ^ 2] := by
    apply Nat.ModEq.add_left
    rw [show m * (p - 1) * (p * q) = p * (m * (p - 1) * q) by ring, pow_two]
    exact (Nat.mod_modEq (m * (p - 1) * q) p).symm.mul_left' p
  have h6 := h3.trans h5
  unfold Nat.ModEq at h6
  rw [h6]
  apply Nat.mod_eq_of_lt
  have hlt : (m * (p - 1) * q) % p < p := Nat.mod_lt _ hp.pos
  have h2p := hp.two_le
  nlinarith

theorem lFun_pow {p q c m : Nat} (hp : p.Prime) (h : IsEnc (p * q) m c) :
    lFun (c ^ (p - 1) % p ^ 2) p = (m * (p - 1) * q) % p := by
  unfold lFun
  rw [pow_residue hp h, Nat.add_sub_cancel_left, Nat.mul_div_cancel_left _ hp.pos]

theorem hFun_eq {p q : Nat} (hp : p.Prime) :
    hFun p (p * q) = invert (((p - 1) * q) % p) p := by
  unfold hFun
  have h : IsEnc (p * q) 1 (p * q + 1) := ⟨1, Nat.coprime_one_left _, by
    rw [one_pow, pow_one, mul_one, Nat.add_comm]⟩
  have := lFun_pow hp h
  rw [this, one_mul]

theorem rawDecryptMod_eq {p q c m : Nat} (hp : p.Prime) (hq : q.Prime) (hne : p ≠ q) (h : IsEnc (p * q) m c) :
    rawDecryptMod p (p * q) c = m % p := by
  unfold rawDecryptMod
  rw [lFun_pow hp h, hFun_eq hp]
  have : Fact p.Prime := ⟨hp⟩
  have hu : (((p - 1) * q % p : ℕ) : ZMod p) ≠ 0 := by
    rw [Ne, ZMod.natCast_eq_zero_iff, Nat.dvd_iff_mod_eq_zero, Nat.mod_mod, ← Nat.dvd_iff_mod_eq_zero]
    intro hd
    rcases (Nat.Prime.dvd_mul hp).1 hd with h1 | h1
    · have := Nat.le_of_dvd (by have := hp.two_le; omega) h1
      have := hp.two_le
      omega
    · exact hne ((Nat.prime_dvd_prime_iff_eq hp hq).1 h1)
  have key : ((m * (p - 1) * q % p * invert ((p - 1) * q % p) p : ℕ) : ZMod p) = (m : ZMod p) := by
    unfold invert
    rw [Nat.cast_mul, ZMod.natCast_val, ZMod.cast_id', id, ZMod.natCast_mod]
    rw [ZMod.natCast_mod] at hu ⊢
    rw [mul_assoc m, Nat.cast_mul m, mul_assoc, mul_inv_cancel₀ hu, mul_one]
  rw [ZMod.natCast_eq_natCast_iff] at key
  exact key

theorem rawDecryptMod_eq' {p q c m : Nat} (hp : p.Prime) (hq : q.Prime) (hne : p ≠ q) (h : IsEnc (p * q) m c) :
    rawDecryptMod q (p * q) c = m % q := by
  have h' : IsEnc (q * p) m c := by rw [Nat.mul_comm]; exact h
  have := rawDecryptMod_eq hq hp (Ne.symm hne) h'
  rwa [Nat.mul_comm] at this

/-- Decryption of a ciphertext of the residue `m < n` is `m`. -/
theorem rawDecrypt_eq {p q c m : Nat} (hp : p.Prime) (hq : q.Prime) (hne : p ≠ q) (h : IsEnc (p * q) m c)
    (hm : m < p * q) : rawDecrypt p q c = m := by
  unfold rawDecrypt
  simp only
  rw [rawDecryptMod_eq hp hq hne h, rawDecryptMod_eq' hp hq hne h]
  have : Fact q.Prime := ⟨hq⟩
  have hq0 : (0 : ℤ) < q := by exact_mod_cast hq.pos
  have hp0 : (0 : ℤ) < p := by exact_mod_cast hp.pos
  set u : ℤ := (((m % q : ℕ) : ℤ) - ((m % p : ℕ) : ℤ)) * (invert p q : ℤ) % (q : ℤ) with hu
  have hu0 : 0 ≤ u := Int.emod_nonneg _ (by omega)
  have hu1 : u < q := Int.emod_lt_of_pos _ hq0
  have hmp : ((m % p : ℕ) : ℤ) < p := by exact_mod_cast Nat.mod_lt _ hp.pos
  have hmp0 : (0 : ℤ) ≤ ((m % p : ℕ) : ℤ) := by positivity
  have hpu : ((p : ℕ) : ZMod q) ≠ 0 := by
    rw [Ne, ZMod.natCast_eq_zero_iff]
    intro hd
    exact hne ((Nat.prime_dvd_prime_iff_eq hq hp).1 hd).symm
  -- congruences
  have c1 : ((m % p : ℕ) : ℤ) + u * p ≡ m [ZMOD p] := by
    have : ((m % p : ℕ) : ℤ) ≡ m [ZMOD p] := by
      push_cast; exact Int.mod_modEq _ _
    calc ((m % p : ℕ) : ℤ) + u * p ≡ m + 0 [ZMOD p] :=
          Int.ModEq.add this (Int.modEq_zero_iff_dvd.2 ⟨u, by ring⟩)
      _ = m := by ring
  have c2 : ((m % p : ℕ) : ℤ) + u * p ≡ m [ZMOD q] := by
    rw [← ZMod.intCast_eq_intCast_iff]
    have hui : (u : ZMod q) = (((m % q : ℕ) : ℤ) - ((m % p : ℕ) : ℤ) : ℤ) * ((p : ℕ) : ZMod q)⁻¹ := by
      rw [hu]
      rw [ZMod.intCast_mod]
      push_cast
      unfold invert
      rw [ZMod.natCast_val, ZMod.cast_id', id]
    push_cast at hui ⊢
    rw [hui, mul_assoc, inv_mul_cancel₀ hpu, mul_one]
    rw [add_sub_cancel]
  have hcop : IsCoprime (p : ℤ) (q : ℤ) := by
    rw [Nat.isCoprime_iff_coprime]
    exact (Nat.coprime_primes hp hq).2 hne
  have c3 : ((m % p : ℕ) : ℤ) + u * p ≡ m [ZMOD (p * q)] := by
    rw [Int.modEq_iff_dvd] at c1 c2 ⊢
    exact IsCoprime.mul_dvd hcop c1 c2
  have hb1 : 0 ≤ ((m % p : ℕ) : ℤ) + u * p := by positivity
  have hb2 : ((m % p : ℕ) : ℤ) + u * p < p * q := by nlinarith
  have hm' : (m : ℤ) < p * q := by exact_mod_cast hm
  have := Int.emod_emod_of_dvd (((m % p : ℕ) : ℤ) + u * p) (dvd_refl ((p : ℤ) * q))
  unfold Int.ModEq at c3
  rwa [Int.emod_eq_of_lt hb1 hb2, Int.emod_eq_of_lt (by positivity) hm'] at c3

/-! ### Signed integers -/

/-- `c` is a ciphertext of the integer `z`. -/
def IsEncInt (n : Nat) (z : Int) (c : Nat) : Prop := IsEnc n (z % (n : Int)).toNat c

theorem emod_toNat_lt {n : Nat} (hn : 0 < n) (z : Int) : (z % (n : Int)).toNat < n := by
  have h1 := Int.emod_nonneg z (show (n : Int) ≠ 0 by omega)
  have h2 := Int.emod_lt_of_pos z (show (0 : Int) < n by omega)
  omega

theorem IsEncInt.mul {n : Nat} (hn : 0 < n) {z₁ z₂ : Int} {c₁ c₂ : Nat} (h₁ : IsEncInt n z₁ c₁) (h₂ : IsEncInt n z₂ c₂) :
    IsEncInt n (z₁ + z₂) (c₁ * c₂ % n ^ 2) := by
  have h := (IsEnc.mul h₁ h₂).mod
  unfold IsEncInt
  have e : ((z₁ % (n : Int)).toNat + (z₂ % (n : Int)).toNat) % n = ((z₁ + z₂) % (n : Int)).toNat := by
    have a1 := Int.emod_nonneg z₁ (show (n : Int) ≠ 0 by omega)
    have a2 := Int.emod_nonneg z₂ (show (n : Int) ≠ 0 by omega)
    apply Int.ofNat_inj.1
    rw [Int.toNat_of_nonneg (Int.emod_nonneg _ (show (n : Int) ≠ 0 by omega))]
    push_cast
    rw [Int.toNat_of_nonneg a1, Int.toNat_of_nonneg a2, ← Int.add_emod]
  rwa [e] at h

theorem isEncInt_one (n : Nat) : IsEncInt n 0 1 := by
  unfold IsEncInt
  simpa using isEnc_one n

theorem encryptInt_isEnc {n : Nat} {z : Int} {r c : Nat} (hr : Nat.Coprime r n) (h : encryptInt n z r = .ok c) :
    IsEncInt n z c ∧ z.natAbs ≤ maxInt n := by
  unfold encryptInt encodeInt at h
  split at h
  · cases h
  · rename_i m hm
    split at hm
    · cases hm
    · injection hm with hm
      injection h with h
      subst hm; subst h
      exact ⟨rawEncrypt_isEnc hr, by omega⟩

theorem foldMul_aux {n : Nat} (hn : 0 < n) : ∀ (zs : List Int) (cs : List Nat) (z : Int) (a : Nat),
    List.Forall₂ (IsEncInt n) zs cs → IsEncInt n z a →
    IsEncInt n (z + zs.sum) (cs.foldl (fun x y => x * y % n ^ 2) a)
  | _, _, z, a, .nil, ha => by simpa using ha
  | _, _, z, a, .cons (l₁ := zs) (a := z') (b := c') h hs, ha => by
    rw [List.foldl_cons, List.sum_cons, ← add_assoc]
    exact foldMul_aux hn zs _ _ _ hs (ha.mul hn h)

theorem foldMul_isEnc {n : Nat} (hn : 0 < n) {zs : List Int} {cs : List Nat} (h : List.Forall₂ (IsEncInt n) zs cs) :
    IsEncInt n zs.sum (foldMul (n ^ 2) cs) := by
  have := foldMul_aux hn zs cs 0 1 h (isEncInt_one n)
  rwa [zero_add] at this

/-- Decryption recovers an integer within the signed range. -/
theorem decryptNum_eq {p q c : Nat} {z : Int} (hp : p.Prime) (hq : q.Prime) (hne : p ≠ q)
    (h : IsEncInt (p * q) z c) (hz : z.natAbs ≤ maxInt (p * q)) : decryptNum p q c = .ok z := by
  have hn : 0 < p * q := Nat.mul_pos hp.pos hq.pos
  unfold decryptNum
  rw [rawDecrypt_eq hp hq hne h (emod_toNat_lt hn z)]
  rw [Int.toNat_of_nonneg (Int.emod_nonneg _ (by omega))]
  unfold decodeInt
  unfold maxInt at *
  generalize p * q = n at *
  rcases le_or_gt 0 z with h0 | h0
  · rw [Int.emod_eq_of_lt h0 (by omega), if_pos (by omega)]
  · have e : z % (n : Int) = z + n := by
      have : (z + n) % (n : Int) = z + n := Int.emod_eq_of_lt (by omega) (by omega)
      rw [Int.add_emod_right] at this
      exact this
    rw [e, if_neg (by omega), if_pos (by omega)]
    congr 1; omega

end EulerDB.Paillier
