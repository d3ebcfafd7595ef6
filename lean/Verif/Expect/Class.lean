/-
C93: brackets.  What is read from a bracket of characters and ranges, and what Python makes of it.
-/
import Verif.Expect.Cover

namespace EulerDB.Expect

open EulerDB EulerDB.Regex

/-- A character that stands for itself in brackets. -/
def Bare (c : Char) : Prop := c ≠ '\\' ∧ c ≠ ']' ∧ c ≠ '-' ∧ c ≠ '^' ∧ c ≠ '{' ∧ c ≠ '('

/-- A character or a range. -/
def itemText (p : Char × Char) : List Char := if p.1 = p.2 then [p.1] else [p.1, '-', p.2]

/-- The range is in order, and no surrogates are in it. -/
def GoodItem (p : Char × Char) : Prop := Bare p.1 ∧ Bare p.2 ∧ p.1.toNat ≤ p.2.toNat ∧ (p.2.toNat < 0xd800 ∨ 0xe000 ≤ p.1.toNat)

theorem itemText_cases (p : Char × Char) : (p.1 = p.2 ∧ itemText p = [p.1]) ∨ (p.1 ≠ p.2 ∧ itemText p = [p.1, '-', p.2]) := by
  unfold itemText
  by_cases h : p.1 = p.2
  · exact Or.inl ⟨h, if_pos h⟩
  · exact Or.inr ⟨h, if_neg h⟩

/-- What follows an item does not begin with a dash. -/
theorem next_not_dash {l : List (Char × Char)} (hl : ∀ p ∈ l, GoodItem p) (t : List Char) : ∃ c r, l.flatMap itemText ++ ']' :: t = c :: r ∧ c ≠ '-' := by
  cases l with
  | nil => exact ⟨']', t, rfl, by decide⟩
  | cons p l =>
    have hb := (hl p (by simp)).1
    rcases itemText_cases p with ⟨_, e⟩ | ⟨_, e⟩
    · exact ⟨p.1, l.flatMap itemText ++ ']' :: t, by simp [e], hb.2.2.1⟩
    · exact ⟨p.1, '-' :: p.2 :: (l.flatMap itemText ++ ']' :: t), by simp [e], hb.2.2.1⟩

/-! ### regex.py -/

theorem tHex_bare {c : Char} (h : c ≠ '\\') (s : List Char) : tHex (c :: s) = none := by
  unfold tHex
  split <;> simp_all

theorem tOct_bare {c : Char} (h : c ≠ '\\') (s : List Char) : tOct (c :: s) = none := by
  unfold tOct
  split <;> simp_all

theorem tSingle_bare {c : Char} (h : Bare c) (s : List Char) : tSingle (c :: s) = some (c, s) := by
  unfold tSingle
  rw [tHex_bare h.1, tOct_bare h.1]
  simp [tPlain, h.1, h.2.1]

theorem tSingle_end (t : List Char) : tSingle (']' :: t) = none := by
  unfold tSingle
  rw [tHex_bare (by decide), tOct_bare (by decide)]
  simp [tPlain]

/-- The characters of an item. -/
def itemChars (p : Char × Char) : List Char := if p.1 = p.2 then [p.1] else charsOf p.1 p.2

theorem tItem_item {p : Char × Char} (hp : GoodItem p) {c : Char} (hc : c ≠ '-') (r : List Char) : tItem (itemText p ++ c :: r) = some (itemChars p, c :: r) := by
  rcases itemText_cases p with ⟨h, e⟩ | ⟨h, e⟩
  · rw [e, List.singleton_append]
    have h1 : tRange (p.1 :: c :: r) = none := by
      unfold tRange
      rw [tSingle_bare hp.1]
      split
      · rename_i heq
        simp only [Option.some.injEq, Prod.mk.injEq, List.cons.injEq] at heq
        exact absurd heq.2.1 hc
      · rfl
    unfold tItem
    rw [h1, tSingle_bare hp.1]
    simp [itemChars, h]
  · rw [e]
    have h1 : tRange (p.1 :: '-' :: p.2 :: c :: r) = some (charsOf p.1 p.2, c :: r) := by
      unfold tRange
      rw [tSingle_bare hp.1]
      simp only [tSingle_bare hp.2.1, Option.map_some]
    show tItem (p.1 :: '-' :: p.2 :: c :: r) = _
    unfold tItem
    rw [h1]
    simp [itemChars, h]

theorem tItem_end (t : List Char) : tItem (']' :: t) = none := by
  unfold tItem
  have : tRange (']' :: t) = none := by
    unfold tRange
    rw [tSingle_end]
  rw [this, tSingle_end]
  rfl

theorem tItems_items : ∀ {l : List (Char × Char)}, (∀ p ∈ l, GoodItem p) → ∀ {n : Nat}, l.length < n → ∀ (t : List Char),
    tItems n (l.flatMap itemText ++ ']' :: t) = (l.flatMap itemChars, ']' :: t)
  | [], _, n + 1, _, t => by simp [tItems, tItem_end]
  | [], _, 0, hn, _ => by simp at hn
  | p :: l, _, 0, hn, _ => by simp at hn
  | p :: l, hl, n + 1, hn, t => by
    obtain ⟨c, r, e, hc⟩ := next_not_dash (l := l) (fun q hq => hl q (by simp [hq])) t
    have ih := tItems_items (l := l) (fun q hq => hl q (by simp [hq])) (n := n) (by simpa using hn) t
    rw [List.flatMap_cons, List.append_assoc, e]
    unfold tItems
    rw [tItem_item (hl p (by simp)) hc]
    dsimp only
    rw [← e, ih]
    simp

/-! ### Python -/

theorem readOne_bare {c : Char} (h : c ≠ '\\') (s : List Char) : readOne (c :: s) = some (c, s) := by
  unfold readOne
  split <;> simp_all

theorem readClass_items : ∀ {l : List (Char × Char)}, (∀ p ∈ l, GoodItem p) → ∀ {n : Nat}, l.length < n → ∀ {acc : List (Char × Char)}, acc ≠ [] ∨ l ≠ [] → ∀ (t : List Char),
    readClass n acc (l.flatMap itemText ++ ']' :: t) = some (acc ++ l, t)
  | [], _, n + 1, _, acc, ha, t => by
    have : acc ≠ [] := by simpa using ha
    simp [readClass, this]
  | [], _, 0, hn, _, _, _ => by simp at hn
  | p :: l, _, 0, hn, _, _, _ => by simp at hn
  | p :: l, hl, n + 1, hn, acc, _, t => by
    have hp := hl p (by simp)
    obtain ⟨c, r, e, hc⟩ := next_not_dash (l := l) (fun q hq => hl q (by simp [hq])) t
    have ih := readClass_items (l := l) (fun q hq => hl q (by simp [hq])) (n := n) (by simpa using hn) (acc := acc ++ [p]) (Or.inl (by simp)) t
    have hne : ∀ x : List Char, ¬ (acc ≠ [] ∧ (p.1 :: x).head? = some ']') := by
      intro x hx
      exact hp.1.2.1 (by simpa using hx.2)
    rw [List.flatMap_cons, List.append_assoc, e]
    rcases itemText_cases p with ⟨h, et⟩ | ⟨h, et⟩
    · rw [et, List.singleton_append]
      unfold readClass
      rw [if_neg (hne _), readOne_bare hp.1.1]
      dsimp only
      split
      · rename_i heq; simp only [List.cons.injEq] at heq; exact absurd heq.1 hc
      · rename_i heq; simp only [List.cons.injEq] at heq; exact absurd heq.1 hc
      · rw [← e]
        have : (p.1, p.1) = p := by rw [Prod.ext_iff]; exact ⟨rfl, h⟩
        rw [this, ih]
        simp
    · rw [et]
      show readClass (n + 1) acc (p.1 :: '-' :: p.2 :: c :: r) = _
      unfold readClass
      rw [if_neg (hne _), readOne_bare hp.1.1]
      dsimp only
      split
      · rename_i heq; simp only [List.cons.injEq] at heq; exact absurd heq.2.1 hp.2.1.2.1
      · rename_i heq
        simp only [List.cons.injEq, true_and] at heq
        subst heq
        rw [readOne_bare hp.2.1.1]
        dsimp only
        rw [if_pos hp.2.2.1, ← e]
        have : (p.1, p.2) = p := rfl
        rw [this, ih]
        simp
      · rename_i h1 h2
        exact absurd rfl (h2 _)

/-! ### The two together -/

/-- The text of a bracket. -/
def classText (neg : Bool) (l : List (Char × Char)) : List Char := '[' :: ((if neg then ['^'] else []) ++ (l.flatMap itemText ++ [']']))

theorem readable_bare : ∀ {s : List Char}, (∀ c ∈ s, c ≠ '\\' ∧ c ≠ '{' ∧ c ≠ '(') → readable s = true
  | [], _ => rfl
  | c :: s, h => by
    have hc := h c (by simp)
    have ih := readable_bare (s := s) fun d hd => h d (by simp [hd])
    unfold readable
    split <;> simp_all

theorem item_bare {l : List (Char × Char)} (hl : ∀ p ∈ l, GoodItem p) {c : Char} (hc : c ∈ l.flatMap itemText) : c = '-' ∨ Bare c := by
  obtain ⟨p, hp, h⟩ := List.mem_flatMap.1 hc
  have hg := hl p hp
  rcases itemText_cases p with ⟨_, e⟩ | ⟨_, e⟩
  · rw [e] at h
    simp only [List.mem_singleton] at h
    subst h; exact Or.inr hg.1
  · rw [e] at h
    simp only [List.mem_cons, List.not_mem_nil, or_false] at h
    rcases h with rfl | rfl | rfl
    · exact Or.inr hg.1
    · exact Or.inl rfl
    · exact Or.inr hg.2.1

theorem class_readable (neg : Bool) {l : List (Char × Char)} (hl : ∀ p ∈ l, GoodItem p) : readable (classText neg l) = true := by
  apply readable_bare
  intro c hc
  unfold classText at hc
  simp only [List.mem_cons, List.mem_append, List.not_mem_nil, or_false] at hc
  rcases hc with rfl | hc | hc | rfl
  · decide
  · cases neg <;> simp at hc
    subst hc; decide
  · rcases item_bare hl hc with rfl | h
    · decide
    · exact ⟨h.1, h.2.2.2.2.1, h.2.2.2.2.2⟩
  · decide

theorem length_items : ∀ l : List (Char × Char), l.length ≤ (l.flatMap itemText).length
  | [] => by simp
  | p :: l => by
    have ih := length_items l
    rw [List.flatMap_cons, List.length_append, List.length_cons]
    have : 1 ≤ (itemText p).length := by
      rcases itemText_cases p with ⟨_, e⟩ | ⟨_, e⟩ <;> rw [e] <;> simp
    omega

theorem head_items {l : List (Char × Char)} (hl : ∀ p ∈ l, GoodItem p) (t : List Char) : (l.flatMap itemText ++ ']' :: t).head? ≠ some '^' := by
  cases l with
  | nil => simp
  | cons p l =>
    have hb := (hl p (by simp)).1.2.2.2.1
    rcases itemText_cases p with ⟨_, e⟩ | ⟨_, e⟩ <;> simp [e, hb]

theorem tBrackets_class (neg : Bool) {l : List (Char × Char)} (hl : ∀ p ∈ l, GoodItem p) (hne : l ≠ []) (t : List Char) :
    tBrackets (classText neg l ++ t) = some (if neg then .char [] (l.flatMap itemChars) else .char (l.flatMap itemChars) [], t) := by
  have hi : (tItem (l.flatMap itemText ++ ']' :: t)).isNone = false := by
    cases l with
    | nil => exact absurd rfl hne
    | cons p l =>
      obtain ⟨c, r, e, hc⟩ := next_not_dash (l := l) (fun q hq => hl q (by simp [hq])) t
      rw [List.flatMap_cons, List.append_assoc, e, tItem_item (hl p (by simp)) hc]
      rfl
  have hlen : l.length < (l.flatMap itemText ++ ']' :: t).length := by
    have := length_items l
    simp only [List.length_append, List.length_cons]
    omega
  have hits := tItems_items hl hlen t
  cases neg with
  | true =>
    have e : classText true l ++ t = '[' :: '^' :: (l.flatMap itemText ++ ']' :: t) := by simp [classText]
    rw [e]
    simp only [tBrackets, List.head?_cons, if_true, List.tail_cons, hi, hits, Bool.false_eq_true, if_false]
  | false =>
    have e : classText false l ++ t = '[' :: (l.flatMap itemText ++ ']' :: t) := by simp [classText]
    rw [e]
    have hh := head_items hl t
    simp only [tBrackets, hh, if_false, hi, hits, Bool.false_eq_true]

/-- **C93, brackets, regex.py**: a bracket of characters and ranges is read as a `Char` of these characters. -/
theorem class_translate (neg : Bool) {l : List (Char × Char)} (hl : ∀ p ∈ l, GoodItem p) (hne : l ≠ []) :
    translate (classText neg l) = some (if neg then .char [] (l.flatMap itemChars) else .char (l.flatMap itemChars) [], []) := by
  unfold translate
  rw [if_pos (class_readable neg hl)]
  have hb := tBrackets_class neg hl hne []
  rw [List.append_nil] at hb
  have ht : ∀ rx, tTerm rx (classText neg l) = some (if neg then .char [] (l.flatMap itemChars) else .char (l.flatMap itemChars) [], []) := by
    intro rx
    have e : classText neg l = '[' :: ((if neg then ['^'] else []) ++ (l.flatMap itemText ++ [']'])) := rfl
    have hs : simple '[' = false := by decide
    unfold tTerm
    rw [e] at hb ⊢
    simp only [show ('[' : Char) ≠ '.' from by decide, show ('[' : Char) ≠ '\\' from by decide, hs, if_false, Bool.false_eq_true]
    rw [hb]
    rfl
  have hm : ∀ rx, tMore rx (classText neg l) = some (if neg then .char [] (l.flatMap itemChars) else .char (l.flatMap itemChars) [], []) := by
    intro rx
    unfold tMore
    rw [ht]
    rfl
  have hlen : (classText neg l).length = ((if neg then ['^'] else []) ++ (l.flatMap itemText ++ [']'])).length + 1 := rfl
  have hnil : ∀ rx n, tSeq rx n [] = none := by
    intro rx n
    cases n <;> rfl
  have hseq : ∀ rx, tSeq rx (classText neg l).length (classText neg l) = some (if neg then .char [] (l.flatMap itemChars) else .char (l.flatMap itemChars) [], []) := by
    intro rx
    rw [hlen]
    unfold tSeq
    rw [hm]
    dsimp only
    rw [hnil]
  show tAlts _ _ _ = _
  rw [hlen]
  unfold tAlts
  rw [hseq]

/-- **C93, brackets, Python.** -/
theorem class_compile (neg : Bool) {l : List (Char × Char)} (hl : ∀ p ∈ l, GoodItem p) (hne : l ≠ []) : compile (classText neg l) = some (.set neg l) := by
  have hlen : l.length < (l.flatMap itemText ++ [']']).length := by
    have := length_items l
    simp only [List.length_append, List.length_cons]
    omega
  have hc := readClass_items hl hlen (acc := []) (Or.inr hne) []
  rw [List.nil_append] at hc
  have ha : readAtom (classText neg l) = some ((.set neg l, false), []) := by
    cases neg with
    | true =>
      have e : classText true l = '[' :: '^' :: (l.flatMap itemText ++ [']']) := by simp [classText]
      rw [e]
      simp only [readAtom, hc, Option.map_some]
    | false =>
      have e : classText false l = '[' :: (l.flatMap itemText ++ [']']) := by simp [classText]
      rw [e]
      have hh := head_items hl []
      unfold readAtom
      split
      · simp_all
      · simp_all
      · simp_all
      · simp_all
      · rename_i heq
        simp only [List.cons.injEq, true_and] at heq
        rw [heq] at hh; simp at hh
      · rename_i heq
        simp only [List.cons.injEq, true_and] at heq
        subst heq
        rw [hc]; rfl
      · rename_i h1
        exact absurd rfl (h1 _)
  have hr : readRep (classText neg l) = none := rfl
  unfold compile
  have hlen' : (classText neg l).length = ((if neg then ['^'] else []) ++ (l.flatMap itemText ++ [']'])).length + 1 := rfl
  rw [hlen']
  have e : classText neg l = '[' :: ((if neg then ['^'] else []) ++ (l.flatMap itemText ++ [']'])) := rfl
  rw [e] at ha hr ⊢
  unfold goRead
  simp only [show ('[' : Char) ≠ '|' from by decide, show ('[' : Char) ≠ ')' from by decide, show ('[' : Char) ≠ '(' from by decide, if_false]
  rw [hr, ha]
  dsimp only
  generalize ((if neg then ['^'] else []) ++ (l.flatMap itemText ++ [']'])).length = n
  cases n <;> rfl

theorem charsOf_mem {a b c : Char} (hv : b.toNat < 0xd800 ∨ 0xe000 ≤ a.toNat) (h : c ∈ charsOf a b) : inItem c (a, b) = true := by
  unfold charsOf at h
  obtain ⟨i, hi, rfl⟩ := List.mem_map.1 h
  rw [List.mem_range] at hi
  have hb : b.toNat < 0x110000 := by
    have := b.valid
    rcases this with h | h
    · have : b.toNat < 0xd800 := h
      omega
    · exact h.2
  have hval : (a.toNat + i).isValidChar := by
    rcases hv with h | h
    · left; omega
    · right; omega
  have : (Char.ofNat (a.toNat + i)).toNat = a.toNat + i := by
    unfold Char.ofNat
    rw [dif_pos hval]
    rfl
  simp only [inItem, this, Bool.and_eq_true, decide_eq_true_eq]
  omega

theorem mem_itemChars {p : Char × Char} (hp : GoodItem p) (c : Char) : c ∈ itemChars p ↔ inItem c p = true := by
  unfold itemChars
  split
  · rename_i h
    simp only [List.mem_singleton, inItem, Bool.and_eq_true, decide_eq_true_eq, ← h]
    constructor
    · rintro rfl; exact ⟨Nat.le_refl _, Nat.le_refl _⟩
    · rintro ⟨h1, h2⟩
      exact Char.toNat_inj.1 (Nat.le_antisymm h2 h1)
  · exact ⟨charsOf_mem hp.2.2.2, mem_charsOf⟩

theorem mem_chars {l : List (Char × Char)} (hl : ∀ p ∈ l, GoodItem p) (c : Char) : c ∈ l.flatMap itemChars ↔ l.any (inItem c) = true := by
  rw [List.mem_flatMap, List.any_eq_true]
  exact exists_congr fun p => and_congr_right fun hp => mem_itemChars (hl p hp) c

/-- **C93, brackets.**  A bracket of characters and ranges, with or without `^`: regex.py reads a `Char` that takes the characters that Python's expression takes. -/
theorem C93_class_partial (neg : Bool) {l : List (Char × Char)} (hl : ∀ p ∈ l, GoodItem p) (hne : l ≠ []) :
    ∃ e r, translate (classText neg l) = some (e, []) ∧ compile (classText neg l) = some r ∧ ∀ ws s, e.parse ws s = matchRe r s := by
  refine ⟨_, _, class_translate neg hl hne, class_compile neg hl hne, ?_⟩
  intro ws s
  have hx : ∀ p ∈ l, p.1 ∈ l.flatMap itemChars := by
    intro p hp
    rw [mem_chars hl, List.any_eq_true]
    refine ⟨p, hp, ?_⟩
    simp only [inItem, Bool.and_eq_true, decide_eq_true_eq]
    exact ⟨Nat.le_refl _, (hl p hp).2.2.1⟩
  cases s with
  | nil => cases neg <;> rfl
  | cons c t =>
    have hm := mem_chars hl c
    unfold matchRe
    cases neg with
    | true =>
      simp only [if_true, PE.parse, Re.den, charOk, List.filter_nil]
      by_cases h : c ∈ l.flatMap itemChars
      · simp [h, hm.1 h]
      · have : l.any (inItem c) = false := by rw [← Bool.not_eq_true]; exact fun e => h (hm.2 e)
        simp [h, this]
    | false =>
      have hf : ((l.flatMap itemChars).filter fun d => decide (d ∉ ([] : List Char))) = l.flatMap itemChars := by simp
      have hn : l.flatMap itemChars ≠ [] := by
        obtain ⟨p, hp⟩ := List.exists_mem_of_ne_nil l hne
        exact List.ne_nil_of_mem (hx p hp)
      simp only [Bool.false_eq_true, if_false, PE.parse, Re.den, charOk, hf, hn]
      by_cases h : c ∈ l.flatMap itemChars
      · simp [h, hm.1 h]
      · have : l.any (inItem c) = false := by rw [← Bool.not_eq_true]; exact fun e => h (hm.2 e)
        simp [h, this]

/-! ### The characters of names -/

/-- The items of the bracket of sql_parsing/utils.py 30. -/
def identItems : List (Char × Char) := [('@', '@'), ('_', '_'), ('$', '$'), ('0', '9'), ('A', 'Z'), ('a', 'z'), ('À', 'Ö'), ('Ø', 'ö'), ('ø', 'ƿ')]

instance (c : Char) : Decidable (Bare c) := by unfold Bare; infer_instance
instance (p : Char × Char) : Decidable (GoodItem p) := by unfold GoodItem; infer_instance

/-- **C93, `IDENT_CHAR`**: the characters of the grammar's names are those of the pattern, 319 of them. -/
theorem C93_ident : ∃ inc, translate "[@_$0-9A-Za-zÀ-ÖØ-öø-ƿ]".toList = some (.char inc [], []) ∧ (∀ c, c ∈ charSet inc ↔ identItems.any (inItem c) = true) ∧ (charSet inc).length = 319 := by
  have hl : ∀ p ∈ identItems, GoodItem p := by decide
  have e : "[@_$0-9A-Za-zÀ-ÖØ-öø-ƿ]".toList = classText false identItems := by decide
  rw [e]
  refine ⟨_, class_translate false hl (by decide), ?_, by decide +kernel⟩
  intro c
  rw [mem_charSet]
  exact mem_chars hl c

example : ∀ p ∈ identItems, GoodItem p := by decide

end EulerDB.Expect
