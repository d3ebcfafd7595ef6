import Verif.Oxt.Model
import Mathlib.Data.Nat.ModEq
import Mathlib.Data.Fintype.Pigeonhole
import Mathlib.Data.Fintype.Card
import Mathlib.Tactic.NormNum.Prime
import Mathlib.Tactic.Linarith
import Mathlib.Tactic.Ring

/-!
# C47: the searchable index
-/

namespace EulerDB.Oxt

open EulerDB

variable {γ : Type}

theorem modP_prime : Nat.Prime modP := by unfold modP; norm_num

theorem modP_pos : 0 < modP := by decide

theorem inverse_spec {z i : Nat} (h : inverse z = .ok i) : z * i % modP = 1 := by
  unfold inverse at h
  split at h
  · rename_i hg
    cases h
    have hb := Nat.gcd_eq_gcd_ab z modP
    rw [hg] at hb
    have hnn : 0 ≤ Nat.gcdA z modP % (modP : Int) := Int.emod_nonneg _ (by decide)
    have hc : ((z * (Nat.gcdA z modP % (modP : Int)).toNat % modP : Nat) : Int) = 1 := by
      push_cast
      rw [Int.toNat_of_nonneg hnn, Int.mul_emod, Int.emod_emod_of_dvd _ (dvd_refl _), ← Int.mul_emod]
      have : (z : Int) * Nat.gcdA z modP = 1 + (modP : Int) * (- Nat.gcdB z modP) := by
        push_cast at hb
        linarith
      rw [this, Int.add_mul_emod_self_left]
      decide
    exact_mod_cast hc
  · cases h

/-- There is an inverse unless the number is a multiple of the modulus. -/
theorem inverse_ok {z : Nat} (h : z % modP ≠ 0) : ∃ i, inverse z = .ok i := by
  have hg : Nat.gcd z modP = 1 := by
    rcases (Nat.coprime_or_dvd_of_prime modP_prime z) with hc | hd
    · exact Nat.Coprime.symm hc
    · exact absurd (Nat.mod_eq_zero_of_dvd hd) h
  exact ⟨_, by unfold inverse; rw [if_pos hg]⟩

/-- The token of the search times the second part of an entry is the tag of the word and the row. -/
theorem token_entry {e : Env γ} {w1 w ind iz : Nat} (h : inverse (e.z w1 % modP) = .ok iz) :
    (e.z w1 % modP * e.x w % modP) * (e.xInd ind * iz % modP) % modP = e.xTag w ind := by
  have hz := inverse_spec h
  show _ ≡ e.x w * e.xInd ind [MOD modP]
  calc (e.z w1 % modP * e.x w % modP) * (e.xInd ind * iz % modP)
      ≡ (e.z w1 % modP * e.x w) * (e.xInd ind * iz) [MOD modP] := Nat.ModEq.mul (Nat.mod_modEq _ _) (Nat.mod_modEq _ _)
    _ = (e.z w1 % modP * iz) * (e.x w * e.xInd ind) := by ring
    _ ≡ 1 * (e.x w * e.xInd ind) [MOD modP] := Nat.ModEq.mul_right _ (by
        show _ % _ = _ % _
        rw [hz]
        decide)
    _ = e.x w * e.xInd ind := by ring

theorem entries_spec {e : Env γ} {w : Nat} : ∀ {inds t xs}, entries e w inds = .ok (t, xs) →
    xs = inds.map (e.xTag w) ∧ (inds ≠ [] → ∃ iz, inverse (e.z w % modP) = .ok iz ∧
      t = inds.map fun ind => (e.enc w ind, e.xInd ind * iz % modP)) ∧ (inds = [] → t = []) := by
  intro inds
  induction inds with
  | nil => intro t xs h; simp only [entries, Except.ok.injEq, Prod.mk.injEq] at h; simp [← h.1, ← h.2]
  | cons a r ih =>
    intro t xs h
    simp only [entries] at h
    split at h
    · cases h
    · rename_i iz hz
      split at h
      · cases h
      · rename_i t' xs' hr
        simp only [Except.ok.injEq, Prod.mk.injEq] at h
        obtain ⟨h1, h2, h3⟩ := ih hr
        refine ⟨by rw [← h.2, h1]; rfl, fun _ => ⟨iz, hz, ?_⟩, by simp⟩
        rw [← h.1, List.map_cons]
        congr 1
        by_cases hr0 : r = []
        · simp [hr0, h3 hr0]
        · obtain ⟨iz', hz', ht⟩ := h2 hr0
          rw [hz] at hz'
          cases hz'
          exact ht

/-- What `setup_edb` leaves: `x_set` holds exactly the tags of the pairs of the index. -/
theorem setupFrom_spec {e : Env γ} : ∀ {index td xs td' xs'}, setupFrom e index td xs = .ok (td', xs') →
    (∀ v, v ∈ xs' ↔ v ∈ xs ∨ ∃ w inds, (w, inds) ∈ index ∧ ∃ ind ∈ inds, v = e.xTag w ind) ∧
    (∀ st, (∀ p ∈ index, e.t p.1 ≠ st) → Dict.get? td' st = Dict.get? td st) ∧
    (∀ w inds, (w, inds) ∈ index → (∀ p ∈ index, e.t p.1 = e.t w → p = (w, inds)) →
      ∃ t xs0, entries e w inds = .ok (t, xs0) ∧ Dict.get? td' (e.t w) = some t) := by
  intro index
  induction index with
  | nil =>
    intro td xs td' xs' h
    simp only [setupFrom, Except.ok.injEq, Prod.mk.injEq] at h
    simp [← h.1, ← h.2]
  | cons p r ih =>
    obtain ⟨w0, inds0⟩ := p
    intro td xs td' xs' h
    simp only [setupFrom] at h
    split at h
    · cases h
    · rename_i t0 xs0 he
      obtain ⟨h1, h2, h3⟩ := ih h
      have hx := (entries_spec he).1
      refine ⟨?_, ?_, ?_⟩
      · intro v
        rw [h1 v, List.mem_append, hx]
        constructor
        · rintro ((h | h) | ⟨w, inds, hm, h⟩)
          · exact Or.inl h
          · obtain ⟨ind, hi, rfl⟩ := List.mem_map.1 h
            exact Or.inr ⟨w0, inds0, by simp, ind, hi, rfl⟩
          · exact Or.inr ⟨w, inds, by simp [hm], h⟩
        · rintro (h | ⟨w, inds, hm, ind, hi, rfl⟩)
          · exact Or.inl (Or.inl h)
          · rcases List.mem_cons.1 hm with h | h
            · cases h
              exact Or.inl (Or.inr (List.mem_map.2 ⟨ind, hi, rfl⟩))
            · exact Or.inr ⟨w, inds, h, ind, hi, rfl⟩
      · intro st hst
        rw [h2 st fun p hp => hst p (by simp [hp]), Dict.get?_set_ne]
        exact fun h => hst (w0, inds0) (by simp) h.symm
      · intro w inds hm huniq
        by_cases hr : (w, inds) ∈ r
        · exact h3 w inds hr fun p hp => huniq p (by simp [hp])
        · rcases List.mem_cons.1 hm with h | h
          · cases h
            refine ⟨t0, xs0, he, ?_⟩
            rw [h2 (e.t w0) (fun p hp heq => hr (huniq p (by simp [hp]) heq ▸ hp)), Dict.get?_set_self]
          · exact absurd h hr

/-- What a search gives, exactly: the rows of the first word whose tag with every other word is in `x_set`. -/
theorem C47_search_exact {e : Env γ} {index : List (Nat × List Nat)} {td : Dict Nat (List (γ × Nat))} {xs : List Nat} (w1 : Nat) (inds rest : List Nat)
    (hs : setup e index = .ok (td, xs)) (hm : (w1, inds) ∈ index) (huniq : ∀ p ∈ index, e.t p.1 = e.t w1 → p = (w1, inds)) :
    search e index w1 rest = .ok ((inds.filter fun ind => rest.all fun w => decide (e.xTag w ind ∈ xs)).map (e.enc w1)) := by
  obtain ⟨_, _, h3⟩ := setupFrom_spec hs
  obtain ⟨t, xs0, he, hg⟩ := h3 w1 inds hm huniq
  obtain ⟨_, h5, h6⟩ := entries_spec he
  simp only [search, hs, buildIndex, searchEnc, hg]
  by_cases h0 : inds = []
  · simp [h0, h6 h0]
  · obtain ⟨iz, hz, ht⟩ := h5 h0
    rw [ht, List.filter_map, List.map_map]
    congr 1
    congr 1
    apply List.filter_congr
    intro ind _
    show (rest.map fun w => e.z w1 % modP * e.x w % modP).all _ = _
    rw [List.all_map]
    congr 1
    funext w
    show decide (_ ∈ xs) = _
    rw [token_entry hz]

/-- **C47: every matching row is found**, provided no two words share the hash that names their entries. -/
theorem C47_complete_partial {e : Env γ} {index : List (Nat × List Nat)} {td : Dict Nat (List (γ × Nat))} {xs : List Nat} (w1 ind : Nat)
    (inds rest : List Nat) (hs : setup e index = .ok (td, xs)) (hm : (w1, inds) ∈ index)
    (huniq : ∀ p ∈ index, e.t p.1 = e.t w1 → p = (w1, inds)) (hi : ind ∈ inds)
    (hrest : ∀ w ∈ rest, ∃ l, (w, l) ∈ index ∧ ind ∈ l) :
    ∃ out, search e index w1 rest = .ok out ∧ e.enc w1 ind ∈ out := by
  refine ⟨_, C47_search_exact w1 inds rest hs hm huniq, List.mem_map.2 ⟨ind, List.mem_filter.2 ⟨hi, ?_⟩, rfl⟩⟩
  rw [List.all_eq_true]
  intro w hw
  obtain ⟨l, hl, hil⟩ := hrest w hw
  rw [decide_eq_true_eq, ((setupFrom_spec hs).1 _)]
  exact Or.inr ⟨w, l, hl, ind, hil, rfl⟩

/-- **C47: a row returned that lacks a word** shares its tag for that word with some pair of the index. -/
theorem C47_sound_partial {e : Env γ} {index : List (Nat × List Nat)} {td : Dict Nat (List (γ × Nat))} {xs out : List _} (w1 : Nat) (inds rest : List Nat)
    (hs : setup e index = .ok (td, xs)) (hm : (w1, inds) ∈ index) (huniq : ∀ p ∈ index, e.t p.1 = e.t w1 → p = (w1, inds))
    (ho : search e index w1 rest = .ok out) : ∀ c ∈ out, ∃ ind ∈ inds, c = e.enc w1 ind ∧
      ∀ w ∈ rest, ∃ w' l ind', (w', l) ∈ index ∧ ind' ∈ l ∧ e.xTag w ind = e.xTag w' ind' := by
  rw [C47_search_exact w1 inds rest hs hm huniq] at ho
  cases ho
  intro c hc
  obtain ⟨ind, hf, rfl⟩ := List.mem_map.1 hc
  obtain ⟨hi, hall⟩ := List.mem_filter.1 hf
  refine ⟨ind, hi, rfl, ?_⟩
  intro w hw
  rw [List.all_eq_true] at hall
  have := hall w hw
  rw [decide_eq_true_eq, (setupFrom_spec hs).1] at this
  rcases this with h | ⟨w', l, hl, ind', hi', he⟩
  · simp at h
  · exact ⟨w', l, ind', hl, hi', he⟩

/-- The index is built whenever no hash of a word under `k_z` is a multiple of the modulus ... -/
theorem C47_setup_total {e : Env γ} (index : List (Nat × List Nat)) (hz : ∀ p ∈ index, e.z p.1 % modP ≠ 0) : ∃ r, setup e index = .ok r := by
  have he : ∀ w inds, e.z w % modP ≠ 0 → ∃ r, entries e w inds = .ok r := by
    intro w inds h
    obtain ⟨iz, hi⟩ := inverse_ok (z := e.z w % modP) (by rwa [Nat.mod_mod])
    induction inds with
    | nil => exact ⟨([], []), rfl⟩
    | cons a r ih =>
      obtain ⟨⟨t, x⟩, hr⟩ := ih
      exact ⟨((e.enc w a, e.xInd a * iz % modP) :: t, e.xTag w a :: x), by simp only [entries, hi, hr]⟩
  have : ∀ td xs, ∃ r, setupFrom e index td xs = .ok r := by
    induction index with
    | nil => intro td xs; exact ⟨(td, xs), rfl⟩
    | cons p r ih =>
      obtain ⟨w, inds⟩ := p
      intro td xs
      obtain ⟨⟨t, x⟩, h1⟩ := he w inds (hz (w, inds) (by simp))
      obtain ⟨q, h2⟩ := ih (fun p hp => hz p (by simp [hp])) (Dict.set td (e.t w) t) (xs ++ x)
      exact ⟨q, by simp only [setupFrom, h1, h2]⟩
  exact this [] []

/-- ... and one such word makes the whole construction raise. -/
theorem C47_fails_zero_hash {e : Env γ} (w ind : Nat) (inds : List Nat) (r : List (Nat × List Nat)) (h : e.z w % modP = 0) :
    setup e ((w, ind :: inds) :: r) = .error .zeroDivision := by
  have hi : inverse (e.z w % modP) = .error .zeroDivision := by
    rw [h]
    unfold inverse
    rw [if_neg (by decide)]
  simp only [setup, setupFrom, entries, hi]

/-- **C47 fails: two words with one entry name.** The entry of the later word replaces that of the earlier, and a search for the earlier word
gives the rows of the later one. -/
theorem C47_fails_name_collision {e : Env γ} (w1 w2 : Nat) (l1 l2 : List Nat) (ht : e.t w1 = e.t w2) (h1 : e.z w1 % modP ≠ 0)
    (h2 : e.z w2 % modP ≠ 0) : search e [(w1, l1), (w2, l2)] w1 [] = .ok (l2.map (e.enc w2)) := by
  obtain ⟨⟨td, xs⟩, hs⟩ := C47_setup_total (e := e) [(w1, l1), (w2, l2)] (by
    intro p hp
    simp only [List.mem_cons, List.not_mem_nil, or_false] at hp
    rcases hp with rfl | rfl
    · exact h1
    · exact h2)
  have hs' := hs
  simp only [setup, setupFrom] at hs'
  split at hs'
  · cases hs'
  · rename_i t1 x1 e1
    split at hs'
    · cases hs'
    · rename_i t2 x2 e2
      simp only [Except.ok.injEq, Prod.mk.injEq] at hs'
      have hg : Dict.get? td (e.t w1) = some t2 := by rw [← hs'.1, ht, Dict.get?_set_self]
      simp only [search, hs, buildIndex, searchEnc, hg, List.map_nil, List.all_nil, List.filter_true]
      obtain ⟨_, h5, h6⟩ := entries_spec e2
      by_cases h0 : l2 = []
      · simp [h0, h6 h0]
      · obtain ⟨iz, _, h7⟩ := h5 h0
        simp [h7]

/-- The index of two rows, the first with one word, the second with both. -/
theorem false_hit {e : Env γ} (w1 w2 a b : Nat) (ht : e.t w1 ≠ e.t w2) (h1 : e.z w1 % modP ≠ 0) (h2 : e.z w2 % modP ≠ 0)
    (htag : e.xTag w2 a = e.xTag w2 b) : search e [(w1, [a, b]), (w2, [b])] w1 [w2] = .ok [e.enc w1 a, e.enc w1 b] := by
  obtain ⟨⟨td, xs⟩, hs⟩ := C47_setup_total (e := e) [(w1, [a, b]), (w2, [b])] (by
    intro p hp
    simp only [List.mem_cons, List.not_mem_nil, or_false] at hp
    rcases hp with rfl | rfl
    · exact h1
    · exact h2)
  rw [C47_search_exact w1 [a, b] [w2] hs (by simp) (by
    intro p hp heq
    simp only [List.mem_cons, List.not_mem_nil, or_false] at hp
    rcases hp with rfl | rfl
    · rfl
    · exact absurd heq.symm ht)]
  have hb : e.xTag w2 b ∈ xs := ((setupFrom_spec hs).1 _).2 (Or.inr ⟨w2, [b], by simp, b, by simp, rfl⟩)
  have ha : e.xTag w2 a ∈ xs := htag ▸ hb
  simp [ha, hb]

/-- **C47 fails for every choice of hash and keys**: there are two rows among the first `modP + 1` such that a search for two words returns the row that has
only one of them. -/
theorem C47_fails_false_hit (e : Env γ) (w1 w2 : Nat) (ht : e.t w1 ≠ e.t w2) (h1 : e.z w1 % modP ≠ 0)
    (h2 : e.z w2 % modP ≠ 0) : ∃ a b, a ≠ b ∧ a ≤ modP ∧ b ≤ modP ∧
      search e [(w1, [a, b]), (w2, [b])] w1 [w2] = .ok [e.enc w1 a, e.enc w1 b] := by
  obtain ⟨a, b, hab, heq⟩ := Fintype.exists_ne_map_eq_of_card_lt (fun k : Fin (modP + 1) => (⟨e.i k.val % modP, Nat.mod_lt _ modP_pos⟩ : Fin modP))
    (by simp)
  refine ⟨a.val, b.val, fun h => hab (Fin.ext h), by omega, by omega, false_hit w1 w2 _ _ ht h1 h2 ?_⟩
  have := congrArg Fin.val heq
  simp only at this
  simp only [Env.xTag, Env.xInd, this]

/-- **C47 fails without any collision of hash values**: the products of two different words and rows may coincide. -/
theorem C47_fails_products (e : Env γ) (w1 w2 w3 a b : Nat) (ht13 : e.t w1 ≠ e.t w3)
    (h1 : e.z w1 % modP ≠ 0) (h3 : e.z w3 % modP ≠ 0) (htag : e.xTag w2 a = e.xTag w3 b) :
    search e [(w1, [a]), (w3, [b])] w1 [w2] = .ok [e.enc w1 a] := by
  obtain ⟨⟨td, xs⟩, hs⟩ := C47_setup_total (e := e) [(w1, [a]), (w3, [b])] (by
    intro p hp
    simp only [List.mem_cons, List.not_mem_nil, or_false] at hp
    rcases hp with rfl | rfl
    · exact h1
    · exact h3)
  rw [C47_search_exact w1 [a] [w2] hs (by simp) (by
    intro p hp heq
    simp only [List.mem_cons, List.not_mem_nil, or_false] at hp
    rcases hp with rfl | rfl
    · rfl
    · exact absurd heq.symm ht13)]
  have ha : e.xTag w2 a ∈ xs := ((setupFrom_spec hs).1 _).2 (Or.inr ⟨w3, [b], by simp, b, by simp, htag⟩)
  simp [ha]

/-- Hashes that are all different for which that happens: 2 · 3 = 3 · 2. -/
def demoEnv : Env (Nat × Nat) := ⟨fun w => w, fun i => i, fun w => w + 1, fun w => w, fun w i => (w, i)⟩

theorem C47_fails_products_witness : search demoEnv [(1, [3]), (3, [2])] 1 [2] = .ok [(1, 3)] :=
  C47_fails_products demoEnv 1 2 3 3 2 (by decide) (by decide) (by decide) (by decide)

/-- The hypotheses of the theorems above can be met. -/
example : ∃ a b, a ≠ b ∧ a ≤ modP ∧ b ≤ modP ∧ search demoEnv [(1, [a, b]), (2, [b])] 1 [2] = .ok [(1, a), (1, b)] :=
  C47_fails_false_hit demoEnv 1 2 (by decide) (by decide) (by decide)

end EulerDB.Oxt
