/-
C92: reading back what the library writes: escaped characters, brackets, signs of repetition.
-/
import Verif.Regex.Model

namespace EulerDB.Regex

open EulerDB

/-- Characters that mean something in a pattern. -/
def special : List Char := ['|', ')', '(', '*', '+', '?', '{', '.', '$', '^', '[', ']', '-']

/-- A way to write a character: it is read back, and it does not begin with a character that means something. -/
structure Escaper (E : Char → List Char) : Prop where
  reads : ∀ c k, readOne (E c ++ k) = some (c, k)
  head : ∀ c, ∃ d r, E c = d :: r ∧ d ∉ special

theorem readOne_plain {c : Char} (h : c ≠ '\\') (k : List Char) : readOne (c :: k) = some (c, k) := by
  unfold readOne
  split
  · rename_i heq; cases heq; exact absurd rfl h
  · rename_i heq; cases heq; exact absurd rfl h
  · rename_i heq; cases heq; rfl
  · rename_i heq; cases heq

theorem readOne_slash {c : Char} (h1 : c ≠ 'n') (h2 : c ≠ 'r') (h3 : c ≠ 't') (h4 : c.isAlphanum = false) (k : List Char) : readOne ('\\' :: c :: k) = some (c, k) := by
  simp [readOne, h1, h2, h3, h4]

theorem esc_escaper : Escaper esc where
  reads := by
    intro c k
    unfold esc
    split
    · subst c; rfl
    · split
      · subst c; rfl
      · split
        · subst c; rfl
        · split
          · rename_i h
            simp only [List.mem_cons, List.not_mem_nil, or_false] at h
            rcases h with h | h | h | h | h | h | h | h | h | h | h | h | h | h | h <;> subst h <;> exact readOne_slash (by decide) (by decide) (by decide) (by decide) k
          · rename_i h
            exact readOne_plain (fun hc => h (by subst hc; decide)) k
  head := by
    intro c
    unfold esc
    split
    · exact ⟨_, _, rfl, by decide⟩
    · split
      · exact ⟨_, _, rfl, by decide⟩
      · split
        · exact ⟨_, _, rfl, by decide⟩
        · split
          · exact ⟨_, _, rfl, by decide⟩
          · rename_i h
            refine ⟨_, _, rfl, fun hc => h ?_⟩
            simp only [special, List.mem_cons, List.not_mem_nil, or_false] at hc ⊢
            tauto

theorem reEsc_escaper : Escaper reEsc where
  reads := by
    intro c k
    unfold reEsc
    split
    · rename_i h
      simp only [List.mem_cons, List.not_mem_nil, or_false] at h
      rcases h with h | h | h | h | h | h | h | h | h | h | h | h | h | h | h | h | h | h | h | h | h | h | h | h <;> subst h <;>
        exact readOne_slash (by decide) (by decide) (by decide) (by decide) k
    · rename_i h
      exact readOne_plain (fun hc => h (by subst hc; decide)) k
  head := by
    intro c
    unfold reEsc
    split
    · exact ⟨_, _, rfl, by decide⟩
    · rename_i h
      refine ⟨_, _, rfl, fun hc => h ?_⟩
      simp only [special, List.mem_cons, List.not_mem_nil, or_false] at hc ⊢
      tauto

variable {E : Char → List Char}

/-- The text of a list of characters and ranges. -/
def itemText (E : Char → List Char) (p : Char × Char) : List Char := if p.1 = p.2 then E p.1 else E p.1 ++ '-' :: E p.2

def itemsText (E : Char → List Char) (l : List (Char × Char)) : List Char := l.flatMap (itemText E)

theorem itemsText_head (hE : Escaper E) : ∀ (l : List (Char × Char)) (k : List Char), ∃ d r, itemsText E l ++ ']' :: k = d :: r ∧ d ≠ '-' ∧ (l ≠ [] → d ∉ special)
  | [], k => ⟨']', k, rfl, by decide, fun h => absurd rfl h⟩
  | p :: l, k => by
    obtain ⟨d, r, h, hd⟩ := hE.head p.1
    have hne : d ≠ '-' := fun hc => hd (by subst hc; decide)
    by_cases hp : p.1 = p.2
    · exact ⟨d, r ++ (itemsText E l ++ ']' :: k), by simp [itemsText, itemText, hp.symm, h], hne, fun _ => hd⟩
    · exact ⟨d, r ++ '-' :: E p.2 ++ (itemsText E l ++ ']' :: k), by simp [itemsText, itemText, hp, h], hne, fun _ => hd⟩

theorem readClass_items (hE : Escaper E) : ∀ (l : List (Char × Char)) (n : Nat) (acc : List (Char × Char)) (k : List Char), (∀ p ∈ l, p.1.toNat ≤ p.2.toNat) → acc ++ l ≠ [] → l.length < n →
    readClass n acc (itemsText E l ++ ']' :: k) = some (acc ++ l, k)
  | [], n + 1, acc, k, _, hne, _ => by
    have : acc ≠ [] := by simpa using hne
    simp [readClass, itemsText, this]
  | p :: l, n + 1, acc, k, hp, _, hn => by
    obtain ⟨d, r, hd, hsp⟩ := hE.head p.1
    have hdb : d ≠ ']' := fun hc => hsp (by subst hc; decide)
    have ih := readClass_items hE l n (acc ++ [p]) k (fun q hq => hp q (by simp [hq])) (by simp) (by simpa using hn)
    obtain ⟨d', r', hd', hne', -⟩ := itemsText_head hE l k
    by_cases h : p.1 = p.2
    · have ht : itemsText E (p :: l) ++ ']' :: k = E p.1 ++ (itemsText E l ++ ']' :: k) := by simp [itemsText, itemText, h]
      have hpp : (p.1, p.1) = p := by rw [Prod.ext_iff]; exact ⟨rfl, h⟩
      rw [ht, readClass, if_neg (by rw [hd]; simp [hdb]), hE.reads]
      rw [hd'] at ih ⊢
      have : ∀ x : List Char, d' :: r' = '-' :: x → False := by rintro x ⟨⟩; exact hne' rfl
      dsimp only
      split
      · rename_i heq; exact absurd heq (by simp [hne'])
      · rename_i heq; exact absurd heq (by simp [hne'])
      · rw [hpp, ih]; simp
    · have ht : itemsText E (p :: l) ++ ']' :: k = E p.1 ++ ('-' :: (E p.2 ++ (itemsText E l ++ ']' :: k))) := by simp [itemsText, itemText, h]
      obtain ⟨d2, r2, hd2, hsp2⟩ := hE.head p.2
      have hdb2 : d2 ≠ ']' := fun hc => hsp2 (by subst hc; decide)
      rw [ht, readClass, if_neg (by rw [hd]; simp [hdb]), hE.reads]
      dsimp only
      split
      · rename_i heq; rw [hd2] at heq; simp at heq; exact absurd heq.1 hdb2
      · rename_i heq
        simp only [List.cons.injEq, true_and] at heq
        rw [← heq, hE.reads]
        simp only [hp p (by simp), if_true]
        rw [show (p.1, p.2) = p from rfl, ih]
        simp
      · rename_i h1 h2
        exact absurd rfl (h2 _)

end EulerDB.Regex
