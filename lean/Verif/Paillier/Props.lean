import Verif.Paillier.Lemmas
import Verif.Paillier.Spec
import Mathlib.Tactic.Linarith
import Mathlib.Tactic.NormNum.Prime

/-!
# Properties C13-C15: aggregates over homomorphically encrypted columns
-/

namespace EulerDB.Paillier

open EulerDB EulerDB.Text

/-- `cs` are ciphertexts the proxy stored for the integers `zs`: each was produced by `encrypt` with some admissible random number. -/
def Stored (n : Nat) (zs : List Int) (cs : List Nat) : Prop :=
  List.Forall₂ (fun z c => ∃ r, Nat.Coprime r n ∧ encryptInt n z r = .ok c) zs cs

theorem Stored.isEnc {n : Nat} {zs : List Int} {cs : List Nat} (h : Stored n zs cs) : List.Forall₂ (IsEncInt n) zs cs :=
  List.Forall₂.imp (fun _ _ ⟨_, hr, he⟩ => (encryptInt_isEnc hr he).1) h

theorem foldMul_perm {nsq : Nat} {cs cs' : List Nat} (h : cs.Perm cs') : foldMul nsq cs = foldMul nsq cs' := by
  unfold foldMul
  have : RightCommutative (fun x y : Nat => x * y % nsq) := ⟨fun a b c => by
    show a * b % nsq * c % nsq = a * c % nsq * b % nsq
    rw [Nat.mod_mul_mod, Nat.mod_mul_mod]; congr 1; ring⟩
  exact h.foldl_eq (f := fun x y : Nat => x * y % nsq) 1

/-! ## C13 -/

/-- Every integer in the signed range can be encrypted, whatever the random number; anything beyond is refused. -/
theorem C13_encrypt_accepts (n : Nat) (z : Int) (r : Nat) :
    (∃ c, encryptInt n z r = .ok c) ↔ z.natAbs ≤ n / 3 - 1 := by
  unfold encryptInt encodeInt maxInt
  by_cases h : z.natAbs > n / 3 - 1
  · simp only [if_pos h]
    constructor
    · rintro ⟨c, hc⟩; cases hc
    · intro h'; omega
  · simp only [if_neg h]
    exact ⟨fun _ => by omega, fun _ => ⟨_, rfl⟩⟩

/-- C13: the product of the stored ciphertexts, in any row order, decrypts to the sum. -/
theorem C13_sum {p q : Nat} (hp : p.Prime) (hq : q.Prime) (hne : p ≠ q) {zs : List Int} {cs cs' : List Nat}
    (hst : Stored (p * q) zs cs) (hperm : cs.Perm cs') (hsum : zs.sum.natAbs ≤ p * q / 3 - 1) :
    decryptNum p q (foldMul ((p * q) ^ 2) cs') = .ok zs.sum := by
  rw [← foldMul_perm hperm]
  exact decryptNum_eq hp hq hne (foldMul_isEnc (Nat.mul_pos hp.pos hq.pos) hst.isEnc) hsum

/-- C13, as far as `HomomorphicCipher.decrypt` sees it: the string `"c1,...,ck,SUM"` decrypts to the sum. -/
theorem parseAll_map (cs : List Nat) : parseAll (cs.map natStr) = .ok cs := by
  induction cs with
  | nil => rfl
  | cons c cs ih => simp only [List.map_cons, parseAll, parseNat_natStr, ih]

theorem split_tagged (cs : List Nat) (tag : List Char) (ht : ',' ∉ tag) :
    split ',' (join ',' (cs.map natStr ++ [tag])) = cs.map natStr ++ [tag] := by
  apply split_join _ (by simp)
  intro w hw
  rcases List.mem_append.1 hw with hw | hw
  · obtain ⟨c, _, rfl⟩ := List.mem_map.1 hw
    exact not_mem_natStr (by decide) c
  · rw [List.mem_singleton.1 hw]; exact ht

theorem C13_sum_text {p q : Nat} (hp : p.Prime) (hq : q.Prime) (hne : p ≠ q) {zs : List Int} {cs cs' : List Nat}
    (hst : Stored (p * q) zs cs) (hperm : cs.Perm cs') (hsum : zs.sum.natAbs ≤ p * q / 3 - 1) :
    decrypt p q (join ',' (cs'.map natStr ++ ["SUM".toList])) = .ok (zs.sum : ℚ) := by
  unfold decrypt
  simp only [split_tagged cs' "SUM".toList (by decide)]
  rw [if_pos (by simp [List.getLastD_eq_getLast?])]
  simp only [List.dropLast_concat, parseAll_map, C13_sum hp hq hne hst hperm hsum]

/-- The empty list gives 0. -/
theorem C13_empty {p q : Nat} (hp : p.Prime) (hq : q.Prime) (hne : p ≠ q) : decrypt p q "SUM".toList = .ok 0 := by
  have := C13_sum_text hp hq hne (zs := []) (cs := []) (cs' := []) .nil (List.Perm.refl _) (by simp)
  simpa [join] using this

/-- The side condition on the sum is needed: two storable values whose sum leaves the range are summed wrongly or refused. -/
theorem C13_out_of_range {p q : Nat} (hp : p.Prime) (hq : q.Prime) (hne : p ≠ q) {zs : List Int} {cs : List Nat}
    (hst : Stored (p * q) zs cs) (hsum : p * q / 3 - 1 < zs.sum.natAbs) :
    decryptNum p q (foldMul ((p * q) ^ 2) cs) ≠ .ok zs.sum := by
  have hn : 0 < p * q := Nat.mul_pos hp.pos hq.pos
  have hraw := rawDecrypt_eq hp hq hne (foldMul_isEnc hn hst.isEnc) (emod_toNat_lt hn zs.sum)
  have hlt := emod_toNat_lt hn zs.sum
  unfold decryptNum
  rw [hraw]
  unfold decodeInt maxInt
  generalize p * q = n at *
  generalize ((zs.sum % (n : Int)).toNat) = m at *
  split
  · intro h; injection h with h; omega
  · split
    · intro h; injection h with h; omega
    · intro h; cases h

/-- The hypotheses of C13 are satisfiable: key (5,7), column 3, -4, 2 in another row order. -/
example : ∃ cs cs', Stored (5 * 7) [3, -4, 2] cs ∧ cs.Perm cs' ∧ cs' ≠ cs ∧ ([3, -4, 2] : List Int).sum.natAbs ≤ 5 * 7 / 3 - 1 := by
  refine ⟨[rawEncrypt 35 3 2, rawEncrypt 35 31 3, rawEncrypt 35 2 4],
    [rawEncrypt 35 31 3, rawEncrypt 35 3 2, rawEncrypt 35 2 4], ?_, ?_, ?_, by decide⟩
  · refine .cons ⟨2, by decide, rfl⟩ (.cons ⟨3, by decide, rfl⟩ (.cons ⟨4, by decide, rfl⟩ .nil))
  · exact List.Perm.swap _ _ _
  · decide +kernel

/-! ## C14 -/

/-- C14: a single stored ciphertext decrypts to its plaintext. -/
theorem C14_single {p q : Nat} (hp : p.Prime) (hq : q.Prime) (hne : p ≠ q) {z : Int} {r c : Nat}
    (hr : Nat.Coprime r (p * q)) (h : encryptInt (p * q) z r = .ok c) :
    decrypt p q (natStr c) = .ok (z : ℚ) := by
  obtain ⟨h1, h2⟩ := encryptInt_isEnc hr h
  have hd := decryptNum_eq hp hq hne h1 h2
  have hs : split ',' (natStr c) = [natStr c] := split_word _ (not_mem_natStr (by decide) c)
  have t1 : natStr c ≠ ['S', 'U', 'M'] := fun e => not_mem_natStr (c := 'S') (by decide) c (by rw [e]; simp)
  have t2 : natStr c ≠ ['A', 'V', 'G'] := fun e => not_mem_natStr (c := 'A') (by decide) c (by rw [e]; simp)
  unfold decrypt
  simp only [hs, List.getLastD_cons, List.getLastD_nil, if_neg t1, if_neg t2, parseNat_natStr, hd]

/-- C14: the form `"c1,...,ck,AVG"` decrypts to the average. -/
theorem C14_avg {p q : Nat} (hp : p.Prime) (hq : q.Prime) (hne : p ≠ q) {zs : List Int} {cs cs' : List Nat}
    (hst : Stored (p * q) zs cs) (hperm : cs.Perm cs') (hnil : zs ≠ []) (hsum : zs.sum.natAbs ≤ p * q / 3 - 1) :
    decrypt p q (join ',' (cs'.map natStr ++ ["AVG".toList])) = .ok ((zs.sum : ℚ) / (zs.length : ℚ)) := by
  have hl : cs'.length = zs.length := by rw [← hperm.length_eq]; exact (List.Forall₂.length_eq hst).symm
  have hz : zs.length ≠ 0 := by simpa using hnil
  unfold decrypt
  simp only [split_tagged cs' "AVG".toList (by decide)]
  rw [if_neg (by simp [List.getLastD_eq_getLast?]), if_pos (by simp [List.getLastD_eq_getLast?])]
  simp only [List.dropLast_concat, parseAll_map, C13_sum hp hq hne hst hperm hsum, List.length_map, hl, if_neg hz]

theorem roundHalfEven_near (x : ℚ) : |(roundHalfEven x : ℚ) - x| ≤ 1 / 2 := by
  unfold roundHalfEven
  have h1 := Int.floor_le x
  have h2 := Int.lt_floor_add_one x
  simp only
  rw [abs_le]
  split
  · constructor <;> linarith
  · split
    · push_cast; constructor <;> linarith
    · split
      · constructor <;> linarith
      · push_cast; constructor <;> linarith

theorem round4_isRound (x : ℚ) : IsRound4 x (round4 x) := by
  refine ⟨⟨_, rfl⟩, ?_⟩
  have h := roundHalfEven_near (x * 10 ^ 4)
  unfold round4
  rw [abs_le] at h ⊢
  constructor
  · rw [le_sub_iff_add_le, le_div_iff₀ (by norm_num)]; linarith [h.1]
  · rw [sub_le_iff_le_add, div_le_iff₀ (by norm_num)]; linarith [h.2]

/-- C14: the form `"c,num"` that the backend sends for AVG: decrypted, divided and rounded to 4 decimals. -/
theorem C14_pair {p q : Nat} (hp : p.Prime) (hq : q.Prime) (hne : p ≠ q) {zs : List Int} {cs cs' : List Nat}
    (hst : Stored (p * q) zs cs) (hperm : cs.Perm cs') (hsum : zs.sum.natAbs ≤ p * q / 3 - 1) {k : Nat} (hk : k ≠ 0) :
    ∃ y, decrypt p q (natStr (foldMul ((p * q) ^ 2) cs') ++ ',' :: natStr k) = .ok y ∧ IsRound4 ((zs.sum : ℚ) / (k : ℚ)) y := by
  have hd := C13_sum hp hq hne hst hperm hsum
  generalize foldMul ((p * q) ^ 2) cs' = c at *
  refine ⟨_, ?_, round4_isRound _⟩
  have hs : split ',' (natStr c ++ ',' :: natStr k) = [natStr c, natStr k] := by
    rw [split_append _ _ (not_mem_natStr (by decide) c), split_word _ (not_mem_natStr (by decide) k)]
  have t1 : natStr k ≠ ['S', 'U', 'M'] := fun e => not_mem_natStr (c := 'S') (by decide) k (by rw [e]; simp)
  have t2 : natStr k ≠ ['A', 'V', 'G'] := fun e => not_mem_natStr (c := 'A') (by decide) k (by rw [e]; simp)
  unfold decrypt
  simp only [hs, List.getLastD_cons, List.getLastD_nil, if_neg t1, if_neg t2, parseNat_natStr, hd, if_neg hk]

/-- C14: without a tag, three or more ciphertexts are refused, not misread as a pair. -/
theorem C14_untagged_refused (p q : Nat) (cs : List Nat) (h : 3 ≤ cs.length) :
    decrypt p q (join ',' (cs.map natStr)) = .error .valueError := by
  have hs : split ',' (join ',' (cs.map natStr)) = cs.map natStr := by
    apply split_join
    · intro e; rw [List.map_eq_nil_iff] at e; rw [e] at h; simp at h
    · intro w hw
      obtain ⟨c, _, rfl⟩ := List.mem_map.1 hw
      exact not_mem_natStr (by decide) c
  have hl : ∀ t : List Char, (∃ c ∈ t, c.isDigit = false) → (cs.map natStr).getLastD [] ≠ t := by
    rintro t ⟨c, hct, hc⟩ e
    have hne : cs.map natStr ≠ [] := by intro e; rw [List.map_eq_nil_iff] at e; rw [e] at h; simp at h
    have hm : t ∈ cs.map natStr := by
      rw [← e, List.getLastD_eq_getLast?, List.getLast?_eq_some_getLast hne]
      exact List.getLast_mem hne
    obtain ⟨d, _, hd⟩ := List.mem_map.1 hm
    exact not_mem_natStr hc d (by rw [hd]; exact hct)
  unfold decrypt
  simp only [hs]
  rw [if_neg (hl _ ⟨'S', by simp, by decide⟩), if_neg (hl _ ⟨'A', by simp, by decide⟩)]
  match cs, h with
  | a :: b :: c :: r, _ => rfl

example : ∃ c, encryptInt (5 * 7) (-4) 3 = .ok c ∧ Nat.Coprime 3 (5 * 7) := ⟨_, rfl, by decide⟩

/-! ## C15 -/

/-- A column as stored: NULL stays NULL, every other value is encrypted. -/
def StoredCol (n : Nat) (vals : List (Option Int)) (rows : List (Option Nat)) : Prop :=
  List.Forall₂ (fun v r => match v, r with
    | none, none => True
    | some z, some c => ∃ k, Nat.Coprime k n ∧ encryptInt n z k = .ok c
    | _, _ => False) vals rows

/-- What the client gets for `SUM(col)`: the server's answer, decrypted by `HomomorphicCipher.decrypt` unless NULL. -/
def clientSum (p q : Nat) (rows : List (Option Nat)) : Except PyErr (Option ℚ) :=
  match serverSum ((p * q) ^ 2) rows with
  | .error e => .error e
  | .ok none => .ok none
  | .ok (some c) =>
    match decrypt p q (natStr c) with
    | .error e => .error e
    | .ok x => .ok (some x)

/-- What the client gets for `AVG(col)`. -/
def clientAvg (p q : Nat) (rows : List (Option Nat)) : Except PyErr (Option ℚ) :=
  match serverAvg ((p * q) ^ 2) rows with
  | .error e => .error e
  | .ok none => .ok none
  | .ok (some s) =>
    match decrypt p q s with
    | .error e => .error e
    | .ok x => .ok (some x)

theorem storedCol_some {n : Nat} : ∀ {zs : List Int} {rows : List (Option Nat)},
    StoredCol n (zs.map some) rows → ∃ cs, rows = cs.map some ∧ Stored n zs cs
  | [], _, h => by
    cases h; exact ⟨[], rfl, .nil⟩
  | z :: zs, _, h => by
    rw [List.map_cons] at h
    cases h with
    | cons h1 h2 =>
      rename_i r rows
      obtain ⟨cs, rfl, hst⟩ := storedCol_some h2
      cases r with
      | none => exact absurd h1 id
      | some c => exact ⟨c :: cs, rfl, .cons h1 hst⟩

theorem serverFold_some {nsq : Nat} (hov : (nsq - 1) * (nsq - 1) < decimalLimit) (hn : 1 < nsq) :
    ∀ (cs : List Nat) (a : Nat), a < nsq → (∀ c ∈ cs, c < nsq) →
      serverFold nsq (some a) (cs.map some) = .ok (some (cs.foldl (fun x y => x * y % nsq) a))
  | [], a, _, _ => rfl
  | c :: cs, a, ha, hc => by
    have hc' := hc c (by simp)
    have : a * c < decimalLimit :=
      lt_of_le_of_lt (Nat.mul_le_mul (by omega : a ≤ nsq - 1) (by omega : c ≤ nsq - 1)) hov
    rw [List.map_cons, serverFold, serverStep, if_neg (by omega)]
    simp only [List.foldl_cons]
    exact serverFold_some hov hn cs _ (Nat.mod_lt _ (by omega)) (fun d hd => hc d (by simp [hd]))

theorem encryptInt_lt {n : Nat} (hn : 0 < n) {z : Int} {r c : Nat} (h : encryptInt n z r = .ok c) : c < n ^ 2 := by
  unfold encryptInt at h
  split at h
  · cases h
  · injection h with h; subst h
    exact Nat.mod_lt _ (by positivity)

theorem Stored.lt {n : Nat} (hn : 0 < n) {zs : List Int} {cs : List Nat} (h : Stored n zs cs) : ∀ c ∈ cs, c < n ^ 2 := by
  induction h with
  | nil => simp
  | cons h1 _ ih =>
    obtain ⟨r, _, he⟩ := h1
    intro c hc
    rcases List.mem_cons.1 hc with rfl | hc
    · exact encryptInt_lt hn he
    · exact ih c hc

theorem decrypt_natStr {p q c : Nat} {z : Int} (h : decryptNum p q c = .ok z) : decrypt p q (natStr c) = .ok (z : ℚ) := by
  have hs : split ',' (natStr c) = [natStr c] := split_word _ (not_mem_natStr (by decide) c)
  have t1 : natStr c ≠ ['S', 'U', 'M'] := fun e => not_mem_natStr (c := 'S') (by decide) c (by rw [e]; simp)
  have t2 : natStr c ≠ ['A', 'V', 'G'] := fun e => not_mem_natStr (c := 'A') (by decide) c (by rw [e]; simp)
  unfold decrypt
  simp only [hs, List.getLastD_cons, List.getLastD_nil, if_neg t1, if_neg t2, parseNat_natStr, h]

theorem serverSum_some {p q : Nat} (hp : p.Prime) (hq : q.Prime)
    (hsmall : ((p * q) ^ 2 - 1) ^ 2 < 10 ^ 65) {zs : List Int} {cs : List Nat} (hnil : zs ≠ [])
    (hst : Stored (p * q) zs cs) :
    serverSum ((p * q) ^ 2) (cs.map some) = .ok (some (foldMul ((p * q) ^ 2) cs)) := by
  have h2 := hp.two_le
  have h3 := hq.two_le
  have hn : 2 ≤ p * q := le_trans h2 (Nat.le_mul_of_pos_right _ (by omega))
  have hn2 : 1 < (p * q) ^ 2 := by nlinarith
  have hcs : cs.map some ≠ [] := by
    intro e
    rw [List.map_eq_nil_iff] at e
    subst e
    cases hst; exact hnil rfl
  unfold serverSum
  rw [if_neg hcs]
  exact serverFold_some (by rw [← pow_two]; exact hsmall) hn2 cs 1 hn2 (hst.lt (by omega))

/-- C15, the part that holds: with no NULL in a non-empty column and a key whose ciphertext products fit in 65 digits, SUM is right. -/
theorem C15_sum_partial {p q : Nat} (hp : p.Prime) (hq : q.Prime) (hne : p ≠ q)
    (hsmall : ((p * q) ^ 2 - 1) ^ 2 < 10 ^ 65) {zs : List Int} {rows : List (Option Nat)} (hnil : zs ≠ [])
    (hst : StoredCol (p * q) (zs.map some) rows) (hsum : zs.sum.natAbs ≤ p * q / 3 - 1) :
    clientSum p q rows = .ok ((sqlSum (zs.map some)).map fun z : Int => (z : ℚ)) := by
  obtain ⟨cs, rfl, hst'⟩ := storedCol_some hst
  clear hst; rename' hst' => hst
  unfold clientSum
  rw [serverSum_some hp hq hsmall hnil hst]
  simp only [decrypt_natStr (C13_sum hp hq hne hst (List.Perm.refl _) hsum)]
  simp [sqlSum, present, hnil]

/-- C15, the part that holds for AVG. -/
theorem C15_avg_partial {p q : Nat} (hp : p.Prime) (hq : q.Prime) (hne : p ≠ q)
    (hsmall : ((p * q) ^ 2 - 1) ^ 2 < 10 ^ 65) {zs : List Int} {rows : List (Option Nat)} (hnil : zs ≠ [])
    (hst : StoredCol (p * q) (zs.map some) rows) (hsum : zs.sum.natAbs ≤ p * q / 3 - 1) :
    ∃ a y, sqlAvg (zs.map some) = some a ∧ clientAvg p q rows = .ok (some y) ∧ IsRound4 a y := by
  obtain ⟨cs, rfl, hst'⟩ := storedCol_some hst
  clear hst; rename' hst' => hst
  have hl : cs.length = zs.length := (List.Forall₂.length_eq hst).symm
  obtain ⟨y, hy, hr⟩ := C14_pair hp hq hne hst (List.Perm.refl _) hsum (k := zs.length) (by simpa using hnil)
  refine ⟨_, y, by simp [sqlAvg, present, hnil]; rfl, ?_, by simpa using hr⟩
  unfold clientAvg serverAvg
  rw [serverSum_some hp hq hsmall hnil hst]
  simp only [List.length_map, hl, hy]

/-- On an empty table the answer is NULL, as in SQL. -/
theorem C15_empty (p q : Nat) : clientSum p q [] = .ok none ∧ clientAvg p q [] = .ok none := ⟨rfl, rfl⟩

/-! ### The failures -/

theorem serverFold_none (nsq : Nat) (rows : List (Option Nat)) : serverFold nsq none rows = .ok none := by
  induction rows with
  | nil => rfl
  | cons r rows ih => cases r <;> simpa [serverFold, serverStep] using ih

theorem serverFold_null (nsq : Nat) : ∀ (rows : List (Option Nat)) (a : Option Nat), none ∈ rows →
    ∃ e, serverFold nsq a rows = e ∧ (e = .ok none ∨ e = .error .dbError)
  | [], _, h => by simp at h
  | r :: rows, a, h => by
    refine ⟨_, rfl, ?_⟩
    cases a with
    | none => exact Or.inl (serverFold_none _ _)
    | some a =>
      cases r with
      | none => left; simp [serverFold, serverStep, serverFold_none]
      | some c =>
        have h' : none ∈ rows := by simpa using h
        unfold serverFold serverStep
        simp only
        by_cases hov : a * c ≥ decimalLimit
        · rw [if_pos hov]; right; rfl
        · rw [if_neg hov]
          obtain ⟨e, he, h⟩ := serverFold_null nsq rows (some (a * c % nsq)) h'
          simp only [he]; exact h

theorem storedCol_null {n : Nat} {vals : List (Option Int)} {rows : List (Option Nat)} (h : StoredCol n vals rows)
    (hm : none ∈ vals) : none ∈ rows := by
  induction h with
  | nil => simp at hm
  | @cons v r _ _ h1 _ ih =>
    rcases List.mem_cons.1 hm with rfl | hm
    · cases r with
      | none => simp
      | some c => exact absurd h1 id
    · exact List.mem_cons_of_mem _ (ih hm)

/-- C15 fails on every column that holds a NULL besides some value: SQL gives the sum, the proxy gives NULL (or a database error). -/
theorem C15_fails_null (p q : Nat) {vals : List (Option Int)} {rows : List (Option Nat)}
    (hst : StoredCol (p * q) vals rows) (hnull : none ∈ vals) (hval : ∃ z, some z ∈ vals) :
    (∃ s a, sqlSum vals = some s ∧ sqlAvg vals = some a) ∧
      (clientSum p q rows = .ok none ∨ clientSum p q rows = .error .dbError) ∧
      (clientAvg p q rows = .ok none ∨ clientAvg p q rows = .error .dbError) := by
  obtain ⟨z, hz⟩ := hval
  have hp : present vals ≠ [] := by
    intro e
    have : z ∈ present vals := by simp [present, hz]
    rw [e] at this; simp at this
  have hr := storedCol_null hst hnull
  have hr0 : rows ≠ [] := by rintro rfl; simp at hr
  obtain ⟨e, he, h⟩ := serverFold_null ((p * q) ^ 2) rows (some 1) hr
  refine ⟨⟨_, _, if_neg hp, if_neg hp⟩, ?_, ?_⟩
  · unfold clientSum serverSum
    rw [if_neg hr0, he]
    rcases h with rfl | rfl
    · exact Or.inl rfl
    · exact Or.inr rfl
  · unfold clientAvg serverAvg serverSum
    rw [if_neg hr0, he]
    rcases h with rfl | rfl
    · exact Or.inl rfl
    · exact Or.inr rfl

example : StoredCol (5 * 7) [some 3, none] [some (rawEncrypt 35 3 2), none] :=
  .cons ⟨2, by decide, rfl⟩ (.cons trivial .nil)

/-- The random number `n - 1` turns 0 into the largest ciphertext. -/
theorem encrypt_zero_max {n : Nat} (hodd : n % 2 = 1) (hn : 2 < n) : encryptInt n 0 (n - 1) = .ok (n ^ 2 - 1) := by
  unfold encryptInt encodeInt
  rw [if_neg (by simp)]
  simp only [Int.zero_emod, Int.toNat_zero]
  congr 1
  unfold rawEncrypt
  have hn2 : 1 < n ^ 2 := by nlinarith
  rw [Nat.mul_zero, Nat.zero_add, Nat.mod_eq_of_lt hn2, Nat.one_mul, Nat.mod_mod]
  -- (n-1)^n + 1 is a multiple of n^2
  have key : ((n : ℤ) ^ 2) ∣ ((n : ℤ) - 1) ^ n + 1 := by
    have h1 : ∀ k : ℕ, ((n : ℤ) ^ 2) ∣ ((n : ℤ) - 1) ^ k - (-1) ^ k * (1 - k * n) := by
      intro k
      induction k with
      | zero => simp
      | succ k ih =>
        obtain ⟨t, ht⟩ := ih
        refine ⟨t * (n - 1) - (-1) ^ k * k, ?_⟩
        rw [pow_succ, pow_succ]
        push_cast
        linear_combination ((n : ℤ) - 1) * ht
    have h2 := h1 n
    rw [Odd.neg_one_pow (Nat.odd_iff.2 hodd)] at h2
    obtain ⟨t, ht⟩ := h2
    exact ⟨t + 1, by linear_combination ht⟩
  have hcast : (((n - 1) ^ n + 1 : ℕ) : ℤ) = ((n : ℤ) - 1) ^ n + 1 := by
    push_cast [Nat.cast_sub (show 1 ≤ n by omega)]; ring
  have hdvd : n ^ 2 ∣ (n - 1) ^ n + 1 := by
    have : ((n ^ 2 : ℕ) : ℤ) ∣ (((n - 1) ^ n + 1 : ℕ) : ℤ) := by rw [hcast]; push_cast; exact key
    exact_mod_cast this
  obtain ⟨t, ht⟩ := hdvd
  have ht0 : t ≠ 0 := by rintro rfl; simp at ht
  obtain ⟨s, rfl⟩ := Nat.exists_eq_succ_of_ne_zero ht0
  have : (n - 1) ^ n = (n ^ 2 - 1) + n ^ 2 * s := by
    have : n ^ 2 * (s + 1) = n ^ 2 * s + n ^ 2 := by ring
    rw [Nat.succ_eq_add_one, this] at ht
    omega
  rw [this, Nat.add_mul_mod_self_left, Nat.mod_eq_of_lt (by omega)]

/-- C15 fails by overflow for every odd modulus whose ciphertext products do not fit in 65 digits (the exact complement of the condition of
`C15_sum_partial`): a column of two zeroes, stored with unlucky random numbers, cannot be summed. -/
theorem C15_fails_overflow (p q : Nat) (hodd : (p * q) % 2 = 1) (hn : 2 < p * q)
    (hbig : 10 ^ 65 ≤ ((p * q) ^ 2 - 1) ^ 2) :
    ∃ rows, StoredCol (p * q) [some 0, some 0] rows ∧ sqlSum [some 0, some 0] = some 0 ∧
      clientSum p q rows = .error .dbError ∧ clientAvg p q rows = .error .dbError := by
  have henc := encrypt_zero_max hodd hn
  have hcop : Nat.Coprime (p * q - 1) (p * q) := by
    have : Nat.Coprime (p * q - 1) (p * q - 1 + 1) := by simp
    rwa [Nat.sub_add_cancel (by omega)] at this
  have hn2 : 1 < (p * q) ^ 2 := by nlinarith
  refine ⟨[some ((p * q) ^ 2 - 1), some ((p * q) ^ 2 - 1)], ?_, by simp [sqlSum, present], ?_⟩
  · exact .cons ⟨_, hcop, henc⟩ (.cons ⟨_, hcop, henc⟩ .nil)
  · have : serverSum ((p * q) ^ 2) [some ((p * q) ^ 2 - 1), some ((p * q) ^ 2 - 1)] = .error .dbError := by
      unfold serverSum
      generalize (p * q) ^ 2 = N at *
      rw [if_neg (by simp)]
      have hbig' : (N - 1) * (N - 1) ≥ decimalLimit := by rw [← pow_two]; exact hbig
      simp only [serverFold, serverStep, Nat.one_mul]
      by_cases h : N - 1 ≥ decimalLimit
      · rw [if_pos h]
      · rw [if_neg h]
        simp only
        rw [Nat.mod_eq_of_lt (by omega), if_pos hbig']
    unfold clientSum clientAvg serverAvg
    rw [this]
    exact ⟨rfl, rfl⟩

/-- The key used throughout the repository's tests, [787659527, 1023624989], is one of those. -/
example : (787659527 * 1023624989) % 2 = 1 ∧ 2 < 787659527 * 1023624989 ∧
    10 ^ 65 ≤ ((787659527 * 1023624989) ^ 2 - 1) ^ 2 := by norm_num

/-- Keys for which `C15_sum_partial` applies. -/
example : Nat.Prime 10007 ∧ Nat.Prime 10009 ∧ ((10007 * 10009) ^ 2 - 1) ^ 2 < 10 ^ 65 := by norm_num

end EulerDB.Paillier
