/-
C92: the brackets that `regex_range` writes contain the characters it was given.
-/
import Verif.Regex.Read

namespace EulerDB.Regex

open EulerDB

theorem toNat_inj {a b : Char} (h : a.toNat = b.toNat) : a = b := Char.toNat_inj.1 h

theorem mem_insertChar {c d : Char} : ∀ {l : List Char}, c ∈ insertChar d l ↔ c = d ∨ c ∈ l
  | [] => by simp [insertChar]
  | e :: r => by
    have ih := mem_insertChar (c := c) (d := d) (l := r)
    simp only [insertChar]
    split
    · simp
    · split
      · rename_i h; subst h; simp
      · simp [ih]; tauto

theorem mem_charSet {c : Char} : ∀ {l : List Char}, c ∈ charSet l ↔ c ∈ l
  | [] => by simp [charSet]
  | d :: r => by simp [charSet, mem_insertChar, mem_charSet]

/-- Ascending. -/
def Asc (l : List Char) : Prop := l.Pairwise fun a b => a.toNat < b.toNat

theorem insertChar_asc {d : Char} : ∀ {l : List Char}, Asc l → Asc (insertChar d l)
  | [], _ => by simp [insertChar, Asc]
  | e :: r, h => by
    have h' := List.pairwise_cons.1 h
    simp only [insertChar]
    split
    · rename_i hlt
      refine List.pairwise_cons.2 ⟨fun x hx => ?_, h⟩
      rcases List.mem_cons.1 hx with rfl | hx
      · exact hlt
      · exact Nat.lt_trans hlt (h'.1 x hx)
    · split
      · exact h
      · rename_i h1 h2
        refine List.pairwise_cons.2 ⟨fun x hx => ?_, insertChar_asc h'.2⟩
        rcases mem_insertChar.1 hx with rfl | hx
        · have : e.toNat ≠ x.toNat := fun hc => h2 (toNat_inj hc).symm
          omega
        · exact h'.1 x hx

theorem charSet_asc : ∀ l : List Char, Asc (charSet l)
  | [] => by simp [charSet, Asc]
  | _ :: r => insertChar_asc (charSet_asc r)

/-- Sorting what is sorted and without repetition changes nothing. -/
theorem charSet_eq : ∀ {l : List Char}, Asc l → charSet l = l
  | [], _ => rfl
  | [a], _ => rfl
  | a :: b :: r, h => by
    have h' := List.pairwise_cons.1 h
    have ih := charSet_eq h'.2
    rw [charSet, ih, insertChar, if_pos (h'.1 b (by simp))]

theorem asc_filter {l : List Char} (p : Char → Bool) (h : Asc l) : Asc (l.filter p) := h.filter p

/-- The ranges that the loop of `regex_range` writes. -/
def rangeItems : Option Char → Option Char → List Char → List (Char × Char)
  | _, _, [] => []
  | start, none, c :: r => rangeItems start (some c) r
  | start, some p, c :: r =>
    if p.toNat + 1 = c.toNat then rangeItems (some (start.getD p)) (some c) r
    else (start.getD p, p) :: rangeItems none (some c) r

theorem rangeLoop_eq : ∀ (l : List Char) (start prev : Option Char), rangeLoop start prev l = itemsText esc (rangeItems start prev l)
  | [], start, prev => by cases prev <;> rfl
  | c :: r, start, none => by rw [rangeLoop, rangeItems]; exact rangeLoop_eq r _ _
  | c :: r, start, some p => by
    have ih := rangeLoop_eq r none (some c)
    rw [rangeLoop.eq_def, rangeItems]
    dsimp only
    split
    · exact rangeLoop_eq r _ _
    · cases start with
      | none => simp [itemsText, itemText, ih]
      | some a =>
        by_cases h : a = p
        · simp [itemsText, itemText, ih, h]
        · simp [itemsText, itemText, ih, h]

def bel : Char := Char.ofNat 7

theorem inItem_iff {c : Char} {p : Char × Char} : inItem c p = true ↔ p.1.toNat ≤ c.toNat ∧ c.toNat ≤ p.2.toNat := by simp [inItem]

theorem rangeItems_mem (x : Char) : ∀ (l : List Char) (start : Option Char) (p : Char), Asc (p :: l) → (start.getD p).toNat ≤ p.toNat → ((p :: l).getLast (by simp)).toNat ≠ 6 →
    ((rangeItems start (some p) (l ++ [bel])).any (inItem x) = true ↔ ((start.getD p).toNat ≤ x.toNat ∧ x.toNat ≤ p.toNat) ∨ x ∈ l)
  | [], start, p, _, _, h6 => by
    have : ¬ p.toNat + 1 = bel.toNat := by
      have : bel.toNat = 7 := by decide
      simp at h6; omega
    simp [rangeItems, this, inItem_iff]
  | c :: r, start, p, hasc, hle, h6 => by
    have h' := List.pairwise_cons.1 hasc
    have hpc := h'.1 c (by simp)
    rw [List.cons_append, rangeItems]
    have h6' : ((c :: r).getLast (by simp)).toNat ≠ 6 := by rwa [List.getLast_cons (by simp)] at h6
    split
    · rename_i heq
      rw [rangeItems_mem x r (some (start.getD p)) c h'.2 (by simp; omega) h6']
      simp only [Option.getD_some, List.mem_cons]
      have : x.toNat = c.toNat ↔ x = c := ⟨toNat_inj, fun h => by rw [h]⟩
      rw [← this]
      constructor
      · rintro (⟨h1, h2⟩ | h)
        · by_cases hx : x.toNat ≤ p.toNat
          · exact Or.inl ⟨h1, hx⟩
          · exact Or.inr (Or.inl (by omega))
        · exact Or.inr (Or.inr h)
      · rintro (⟨h1, h2⟩ | h | h)
        · exact Or.inl ⟨h1, by omega⟩
        · exact Or.inl ⟨by omega, by omega⟩
        · exact Or.inr h
    · rw [List.any_cons, Bool.or_eq_true, rangeItems_mem x r none c h'.2 (by simp) h6', inItem_iff]
      simp only [Option.getD_none, List.mem_cons]
      have : x.toNat = c.toNat ↔ x = c := ⟨toNat_inj, fun h => by rw [h]⟩
      rw [← this]
      constructor
      · rintro (h | ⟨h1, h2⟩ | h)
        · exact Or.inl h
        · exact Or.inr (Or.inl (by omega))
        · exact Or.inr (Or.inr h)
      · rintro (h | h | h)
        · exact Or.inl h
        · exact Or.inr (Or.inl ⟨by omega, by omega⟩)
        · exact Or.inr (Or.inr h)

theorem rangeItems_le : ∀ (l : List Char) (start : Option Char) (p : Char), Asc (p :: l) → (start.getD p).toNat ≤ p.toNat → ∀ q ∈ rangeItems start (some p) (l ++ [bel]), q.1.toNat ≤ q.2.toNat
  | [], start, p, _, hle, q, hq => by
    rw [List.nil_append, rangeItems] at hq
    split at hq
    · simp [rangeItems] at hq
    · simp only [rangeItems, List.mem_singleton] at hq; subst hq; exact hle
  | c :: r, start, p, hasc, hle, q, hq => by
    have h' := List.pairwise_cons.1 hasc
    have hpc := h'.1 c (by simp)
    rw [List.cons_append, rangeItems] at hq
    split at hq
    · exact rangeItems_le r _ c h'.2 (by simp; omega) q hq
    · rcases List.mem_cons.1 hq with rfl | hq
      · exact hle
      · exact rangeItems_le r none c h'.2 (by simp) q hq

/-- If the greatest character is 6, the last range is not written. -/
theorem rangeItems_six : ∀ (l : List Char) (start : Option Char) (p : Char), Asc (p :: l) → (start.getD p).toNat ≤ p.toNat → ((p :: l).getLast (by simp)).toNat = 6 →
    (rangeItems start (some p) (l ++ [bel])).any (inItem (Char.ofNat 6)) = false
  | [], start, p, _, _, h6 => by
    have : p.toNat + 1 = bel.toNat := by
      have : bel.toNat = 7 := by decide
      simp at h6; omega
    simp [rangeItems, this]
  | c :: r, start, p, hasc, hle, h6 => by
    have h' := List.pairwise_cons.1 hasc
    have hpc := h'.1 c (by simp)
    have h6' : ((c :: r).getLast (by simp)).toNat = 6 := by rwa [List.getLast_cons (by simp)] at h6
    have hc6 : c.toNat ≤ 6 := by
      have hm := List.getLast_mem (l := c :: r) (by simp)
      rcases List.mem_cons.1 hm with h | h
      · rw [h] at h6'; omega
      · have := (List.pairwise_cons.1 h'.2).1 _ h; omega
    rw [List.cons_append, rangeItems]
    split
    · exact rangeItems_six r _ c h'.2 (by simp; omega) h6'
    · rw [List.any_cons, rangeItems_six r none c h'.2 (by simp) h6', Bool.or_false]
      have : (Char.ofNat 6).toNat = 6 := by decide
      simp only [inItem, this, Bool.and_eq_false_iff, decide_eq_false_iff_not]
      omega

/-- `regex_range` works: there is a character, and the greatest of several is not the character 6. -/
def RangeOk (s : List Char) : Prop := s ≠ [] ∧ (s.length ≠ 1 → Char.ofNat 6 ∈ s → ∃ c ∈ s, 6 < c.toNat)

theorem range_last {s : List Char} (h : RangeOk s) (hl : s.length ≠ 1) : ∃ p l, ∃ h : p :: l ≠ [], charSet s = p :: l ∧ ((p :: l).getLast h).toNat ≠ 6 := by
  cases hs : charSet s with
  | nil =>
    obtain ⟨c, hc⟩ := List.exists_mem_of_ne_nil _ h.1
    have := mem_charSet.2 hc
    rw [hs] at this; cases this
  | cons p l =>
    refine ⟨p, l, by simp, rfl, fun h6 => ?_⟩
    have hm := List.getLast_mem (l := p :: l) (by simp)
    have hs6 : Char.ofNat 6 ∈ s := by
      have : (p :: l).getLast (by simp) = Char.ofNat 6 := toNat_inj (by rw [h6]; decide)
      rw [this, ← hs, mem_charSet] at hm; exact hm
    obtain ⟨c, hc, h6c⟩ := h.2 hl hs6
    have hc' : c ∈ p :: l := by rw [← hs]; exact mem_charSet.2 hc
    have hasc : Asc (p :: l) := by rw [← hs]; exact charSet_asc s
    have hle : c.toNat ≤ ((p :: l).getLast (by simp)).toNat := by
      have := List.pairwise_iff_getElem.1 hasc
      obtain ⟨i, hi, rfl⟩ := List.mem_iff_getElem.1 hc'
      rw [List.getLast_eq_getElem]
      by_cases hii : i = (p :: l).length - 1
      · simp only [hii]; exact Nat.le_refl _
      · exact Nat.le_of_lt (this i ((p :: l).length - 1) hi (by simp) (by omega))
    omega

/-- The characters and ranges of `regex_range`. -/
def rangeSet (s : List Char) : List (Char × Char) :=
  match s with
  | [c] => [(c, c)]
  | s => rangeItems none none (charSet s ++ [bel])

theorem rangeSet_many {s : List Char} (hl : s.length ≠ 1) : rangeSet s = rangeItems none none (charSet s ++ [bel]) := by
  match s, hl with
  | [], _ => rfl
  | [c], h => exact absurd rfl h
  | _ :: _ :: _, _ => rfl

theorem rangeSet_mem {s : List Char} (h : RangeOk s) (x : Char) : (rangeSet s).any (inItem x) = decide (x ∈ s) := by
  rw [Bool.eq_iff_iff, decide_eq_true_iff]
  by_cases hl : s.length = 1
  · obtain ⟨c, rfl⟩ := List.length_eq_one_iff.1 hl
    simp only [rangeSet, List.any_cons, List.any_nil, Bool.or_false, inItem_iff, List.mem_singleton]
    exact ⟨fun h => toNat_inj (by omega), fun h => by rw [h]; omega⟩
  · obtain ⟨p, l, hne, hs, h6⟩ := range_last h hl
    have hasc := charSet_asc s
    rw [hs] at hasc
    rw [rangeSet_many hl, hs, List.cons_append, rangeItems, rangeItems_mem x l none p hasc (by simp) h6, ← mem_charSet (l := s), hs]
    simp only [Option.getD_none, List.mem_cons]
    have : x.toNat = p.toNat ↔ x = p := ⟨toNat_inj, fun h => by rw [h]⟩
    rw [← this]
    exact ⟨fun h => h.imp (fun h => by omega) id, fun h => h.imp (fun h => by omega) id⟩

theorem rangeSet_le {s : List Char} : ∀ q ∈ rangeSet s, q.1.toNat ≤ q.2.toNat := by
  by_cases hl : s.length = 1
  · obtain ⟨c, rfl⟩ := List.length_eq_one_iff.1 hl
    simp [rangeSet]
  · have hasc := charSet_asc s
    rw [rangeSet_many hl]
    cases hs : charSet s with
    | nil => simp [rangeItems]
    | cons p l => rw [hs] at hasc; rw [List.cons_append, rangeItems]; exact rangeItems_le l none p hasc (by simp)

theorem rangeSet_ne {s : List Char} (h : RangeOk s) : rangeSet s ≠ [] := by
  obtain ⟨c, hc⟩ := List.exists_mem_of_ne_nil _ h.1
  intro hn
  have := rangeSet_mem h c
  rw [hn] at this
  simp [hc] at this

/-! ### Reading brackets -/

variable {E : Char → List Char}

theorem itemsText_length (hE : Escaper E) : ∀ l : List (Char × Char), l.length ≤ (itemsText E l).length
  | [] => by simp
  | p :: l => by
    obtain ⟨d, r, h, -⟩ := hE.head p.1
    have := itemsText_length hE l
    have h2 : itemsText E (p :: l) = itemText E p ++ itemsText E l := by simp [itemsText]
    have h3 : 1 ≤ (itemText E p).length := by
      unfold itemText; split <;> simp [h]
    rw [h2]; simp; omega

theorem readAtom_class (hE : Escaper E) {l : List (Char × Char)} (hle : ∀ p ∈ l, p.1.toNat ≤ p.2.toNat) (hne : l ≠ []) (k : List Char) :
    readAtom ('[' :: (itemsText E l ++ ']' :: k)) = some ((.set false l, false), k) := by
  obtain ⟨d, r, hd, -, hsp⟩ := itemsText_head hE l k
  have hd1 : d ≠ '^' := fun hc => hsp hne (by subst hc; decide)
  have h := readClass_items hE l (itemsText E l ++ ']' :: k).length [] k hle (by simpa using hne) (by have := itemsText_length hE l; simp; omega)
  rw [hd] at h ⊢
  rw [readAtom, h]
  · rfl
  · rintro r' hr; cases hr; exact hd1 rfl

theorem readAtom_negClass (hE : Escaper E) {l : List (Char × Char)} (hle : ∀ p ∈ l, p.1.toNat ≤ p.2.toNat) (hne : l ≠ []) (k : List Char) :
    readAtom ('[' :: '^' :: (itemsText E l ++ ']' :: k)) = some ((.set true l, false), k) := by
  have h := readClass_items hE l (itemsText E l ++ ']' :: k).length [] k hle (by simpa using hne) (by have := itemsText_length hE l; simp; omega)
  rw [readAtom, h]
  rfl

theorem readAtom_esc (hE : Escaper E) (c : Char) (k : List Char) : readAtom (E c ++ k) = some ((Re.chr c, false), k) := by
  obtain ⟨d, r, hd, hsp⟩ := hE.head c
  have hr := hE.reads c k
  rw [hd] at hr ⊢
  simp only [special, List.mem_cons, List.not_mem_nil, or_false, not_or] at hsp
  rw [List.cons_append] at hr ⊢
  unfold readAtom
  split <;> first
    | (rename_i heq; simp at heq; tauto)
    | (rename_i heq; cases heq)
    | skip
  rw [hr]; rfl

/-- A pattern that begins with no sign of its own. -/
def Starts (t : List Char) : Prop := ∃ d r, t = d :: r ∧ d ∉ ['|', ')', '(', '*', '+', '?', '{']

theorem esc_starts (hE : Escaper E) (c : Char) : Starts (E c) := by
  obtain ⟨d, r, hd, hsp⟩ := hE.head c
  refine ⟨d, r, hd, fun h => hsp ?_⟩
  simp only [special, List.mem_cons, List.not_mem_nil, or_false] at h ⊢
  tauto

theorem regexRange_text {s : List Char} (hl : s.length ≠ 1) (hne : s ≠ []) (ex : Bool) :
    regexRange s ex = (if ex then ['[', '^'] else ['[']) ++ (itemsText esc (rangeSet s) ++ [']']) := by
  rw [rangeSet_many hl, ← rangeLoop_eq]
  match s, hl, hne with
  | [c], h, _ => exact absurd rfl h
  | _ :: _ :: _, _, _ => rfl

theorem regexRange_starts {s : List Char} (hne : s ≠ []) (ex : Bool) : Starts (regexRange s ex) := by
  by_cases hl : s.length = 1
  · obtain ⟨c, rfl⟩ := List.length_eq_one_iff.1 hl
    cases ex
    · exact esc_starts esc_escaper c
    · exact ⟨'[', _, rfl, by decide⟩
  · rw [regexRange_text hl hne]
    cases ex
    · exact ⟨'[', _, rfl, by decide⟩
    · exact ⟨'[', _, rfl, by decide⟩

theorem readAtom_range {s : List Char} (h : RangeOk s) (ex : Bool) (k : List Char) : readAtom (regexRange s ex ++ k) = some ((.set ex (rangeSet s), false), k) := by
  by_cases hl : s.length = 1
  · obtain ⟨c, rfl⟩ := List.length_eq_one_iff.1 hl
    cases ex
    · exact readAtom_esc esc_escaper c k
    · have := readAtom_negClass esc_escaper (l := [(c, c)]) (by simp) (by simp) k
      simpa [regexRange, itemsText, itemText, rangeSet] using this
  · rw [regexRange_text hl h.1]
    cases ex
    · have := readAtom_class esc_escaper (l := rangeSet s) rangeSet_le (rangeSet_ne h) k
      simpa using this
    · have := readAtom_negClass esc_escaper (l := rangeSet s) rangeSet_le (rangeSet_ne h) k
      simpa using this

end EulerDB.Regex
