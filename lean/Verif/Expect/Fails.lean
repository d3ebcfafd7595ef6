/-
C93: patterns of which regex.py reads something else than Python does.
-/
import Verif.Expect.Class

namespace EulerDB.Expect

open EulerDB EulerDB.Regex
open EulerDB.Choice (choose faster expectingOf)

def small : List Char := "abcdefghijklmnopqrstuvwxyz".toList

theorem low_small : ∀ a ∈ small, Choice.english.lc a = [a] := by decide +kernel

theorem chr_den (a : Char) (s : List Char) : (Re.chr a).den s = match s with
    | [] => []
    | c :: r => if c = a then [r] else [] := by
  cases s with
  | nil => rfl
  | cons c r =>
    simp only [Re.chr, Re.den, List.any_cons, List.any_nil, Bool.or_false, inItem]
    by_cases h : c = a
    · subst h; simp
    · rw [if_neg h, if_pos]
      have : c.toNat ≠ a.toNat := fun e => h (Char.toNat_inj.1 e)
      simp only [Bool.and_eq_false_iff, decide_eq_false_iff_not]
      omega

theorem chr_den_ne {a : Char} {s : List Char} (h : s.head? ≠ some a) : (Re.chr a).den s = [] := by
  rw [chr_den]
  cases s with
  | nil => rfl
  | cons c r =>
    have : c ≠ a := by simpa using h
    simp [this]

theorem chr_den_self (a : Char) (s : List Char) : (Re.chr a).den (a :: s) = [s] := by
  rw [chr_den]; simp

theorem rep_den_ne {lo : Nat} {hi : Option Nat} {r : Re} {s : List Char} (hlo : lo = 0) (h : r.den s = []) : (Re.rep lo hi r).den s = [s] := by
  subst hlo
  simp only [Re.den, iter, h, List.flatMap_nil, ite_self, List.nil_append, if_true]

/-- **C93 is false of letters and a repetition**: `ab*` is read as `(ab)*`.  Python's expression matches every text that begins with `a`, no key stands at one that does not go on with `b`. -/
theorem C93_fails_word {a b : Char} (ha : a ∈ small) (hb : b ∈ small) : ∃ x, Rx.make ascii [a, b, '*'] = some x ∧ x.expr = .many (.lit [a, b]) 0 none ∧
    ∀ t : List Char, t.head? ≠ some b → x.parse (a :: t) = some t ∧ ¬ ∃ k ∈ keys Choice.english x.expr, k <+: a :: t := by
  have h : ∀ a ∈ small, ∀ b ∈ small, translate [a, b, '*'] = some (.many (.lit [a, b]) 0 none, []) ∧ pyRe ascii [a, b, '*'] = some (.seq (.chr a) (.rep 0 none (.chr b))) := by
    decide +kernel
  obtain ⟨h1, h2⟩ := h a ha b hb
  refine ⟨⟨.many (.lit [a, b]) 0 none, .seq (.chr a) (.rep 0 none (.chr b))⟩, by simp [Rx.make, h1, h2], rfl, ?_⟩
  intro t ht
  constructor
  · have hd : (Re.seq (.chr a) (.rep 0 none (.chr b))).den (a :: t) = ((Re.chr a).den (a :: t)).flatMap (Re.rep 0 none (.chr b)).den := rfl
    unfold Rx.parse matchRe
    rw [hd, chr_den_self]
    simp only [List.flatMap_cons, List.flatMap_nil, List.append_nil]
    rw [rep_den_ne rfl (chr_den_ne ht)]
    rfl
  · rintro ⟨k, hk, hp⟩
    simp only [keys, List.mem_singleton, Choice.Casing.low, List.flatMap_cons, List.flatMap_nil, low_small a ha, low_small b hb, List.append_nil, List.cons_append, List.nil_append] at hk
    subst hk
    rw [List.cons_prefix_cons] at hp
    obtain ⟨r, hr⟩ := hp.2
    rw [← hr] at ht
    simp at ht

/-- **C93 is false of a letter and `?`**: `a?b` is read as the three characters.  Python's expression matches `b`, no key stands there, and the match is shorter than `min_length`. -/
theorem C93_fails_question {a b : Char} (ha : a ∈ small) (hb : b ∈ small) (hab : a ≠ b) : ∃ x, Rx.make ascii [a, '?', b] = some x ∧ x.expr = .lit [a, '?', b] ∧ minLen x.expr = 3 ∧
    ∀ t : List Char, x.parse (b :: t) = some t ∧ ¬ ∃ k ∈ keys Choice.english x.expr, k <+: b :: t := by
  have h : ∀ a ∈ small, ∀ b ∈ small, translate [a, '?', b] = some (.lit [a, '?', b], []) ∧ pyRe ascii [a, '?', b] = some (.seq (.rep 0 (some 1) (.chr a)) (.chr b)) := by
    decide +kernel
  obtain ⟨h1, h2⟩ := h a ha b hb
  refine ⟨⟨.lit [a, '?', b], .seq (.rep 0 (some 1) (.chr a)) (.chr b)⟩, by simp [Rx.make, h1, h2], rfl, rfl, ?_⟩
  intro t
  constructor
  · have hd : (Re.seq (.rep 0 (some 1) (.chr a)) (.chr b)).den (b :: t) = ((Re.rep 0 (some 1) (.chr a)).den (b :: t)).flatMap (Re.chr b).den := rfl
    unfold Rx.parse matchRe
    rw [hd, rep_den_ne rfl (chr_den_ne (by simpa using hab.symm))]
    simp only [List.flatMap_cons, List.flatMap_nil, List.append_nil]
    rw [chr_den_self]
    rfl
  · rintro ⟨k, hk, hp⟩
    simp only [keys, List.mem_singleton, Choice.Casing.low, List.flatMap_cons, low_small a ha, List.singleton_append] at hk
    subst hk
    rw [List.cons_prefix_cons] at hp
    exact hab hp.1

/-- **C93 is false of a blank**: what stands from the blank on is not read.  Of `a| b` the keys are those of `a`; Python's expression matches ` b`. -/
theorem C93_fails_cut {a b : Char} (ha : a ∈ small) (hb : b ∈ small) : ∃ x, Rx.make ascii [a, '|', ' ', b] = some x ∧ translate [a, '|', ' ', b] = some (x.expr, ['|', ' ', b]) ∧
    ∀ t : List Char, x.parse (' ' :: b :: t) = some t ∧ ¬ ∃ k ∈ keys Choice.english x.expr, k <+: ' ' :: b :: t := by
  have h : ∀ a ∈ small, ∀ b ∈ small, translate [a, '|', ' ', b] = some (.lit [a], ['|', ' ', b]) ∧ pyRe ascii [a, '|', ' ', b] = some (.alt (.chr a) (.seq (.chr ' ') (.chr b))) ∧ a ≠ ' ' := by
    decide +kernel
  obtain ⟨h1, h2, h3⟩ := h a ha b hb
  refine ⟨⟨.lit [a], .alt (.chr a) (.seq (.chr ' ') (.chr b))⟩, by simp [Rx.make, h1, h2], h1, ?_⟩
  intro t
  constructor
  · have hd : (Re.alt (.chr a) (.seq (.chr ' ') (.chr b))).den (' ' :: b :: t) = (Re.chr a).den (' ' :: b :: t) ++ ((Re.chr ' ').den (' ' :: b :: t)).flatMap (Re.chr b).den := rfl
    unfold Rx.parse matchRe
    rw [hd, chr_den_ne (by simpa using h3.symm), chr_den_self]
    simp only [List.flatMap_cons, List.flatMap_nil, List.append_nil, List.nil_append]
    rw [chr_den_self]
    rfl
  · rintro ⟨k, hk, hp⟩
    simp only [keys, List.mem_singleton, Choice.Casing.low, List.flatMap_cons, List.flatMap_nil, low_small a ha, List.append_nil] at hk
    subst hk
    rw [List.cons_prefix_cons] at hp
    exact h3 hp.1

/-- **C93 is false of `\b`**: it is read as the letter b, so the parser of `\bw` wants `bw`. -/
theorem C93_fails_edge {a : Char} (ha : a ∈ small) (hab : a ≠ 'b') : ∃ e, translate ['\\', 'b', a] = some (e, []) ∧ keys Choice.english e = [['b']] ∧
    (∀ ws t, e.parse ws (a :: t) = none) ∧ ∀ t, e.parse id ('b' :: a :: t) = some t := by
  have h : ∀ a ∈ small, translate ['\\', 'b', a] = some (.and (.lit ['b']) (.lit [a]), []) ∧ keys Choice.english (.and (.lit ['b']) (.lit [a])) = [['b']] := by decide +kernel
  refine ⟨_, (h a ha).1, (h a ha).2, ?_, ?_⟩
  · intro ws t
    simp [PE.parse, List.isPrefixOf, hab.symm]
  · intro t
    simp [PE.parse, List.isPrefixOf]

/-- **C93 is false of `^`**: a pattern that begins with it is not read at all. -/
theorem C93_fails_caret (p : List Char) : translate ('^' :: p) = none := by
  have ht : ∀ rx, tTerm rx ('^' :: p) = none := by
    intro rx
    have h0 : simple '^' = false := by decide
    have hb : tBrackets ('^' :: p) = none := rfl
    have hi : ∀ u, tInside rx ('(' :: u) ('^' :: p) = none := by
      intro u
      simp [tInside, after, List.isPrefixOf]
    have hn : tNamed rx ('^' :: p) = none := by
      simp [tNamed, after, List.isPrefixOf]
    unfold tTerm
    simp only [show ('^' : Char) ≠ '.' from by decide, show ('^' : Char) ≠ '\\' from by decide, h0, if_false, Bool.false_eq_true, hb, hi, hn, Option.map_none, Option.or_none]
  have hs : ∀ rx n, tSeq rx n ('^' :: p) = none := by
    intro rx n
    cases n with
    | zero => rfl
    | succ n =>
      unfold tSeq tMore
      rw [ht]
      rfl
  unfold translate
  split
  · show tAlts _ _ _ = none
    rw [List.length_cons]
    unfold tAlts
    rw [hs]
  · rfl

/-- **C93 is false of `\S` in brackets**: `[\s\S]`, which is every character, is read as a `Char` of blanks. -/
theorem C93_fails_all : ∃ e, translate "[\\s\\S]".toList = some (e, []) ∧ ∀ ws c t, c ∉ whites → e.parse ws (c :: t) = none := by
  have h : translate "[\\s\\S]".toList = some (.char (charSet whites) [], []) := by decide +kernel
  refine ⟨_, h, ?_⟩
  intro ws c t hc
  have hne : charSet whites ≠ [] := by decide +kernel
  simp [PE.parse, charOk, hne, mem_charSet, hc]

/-- **C93 is false of `?` after a bracket**: it is read as `*`. -/
theorem C93_fails_twice {a : Char} (ha : a ∈ small) : ∃ x, Rx.make ascii ['[', a, ']', '?'] = some x ∧ x.expr.parse id [a, a] = some [] ∧ x.parse [a, a] = some [a] := by
  have h : ∀ a ∈ small, (Rx.make ascii ['[', a, ']', '?']).any (fun x => decide (x.expr.parse id [a, a] = some [] ∧ x.parse [a, a] = some [a])) = true := by decide +kernel
  have := h a ha
  cases hx : Rx.make ascii ['[', a, ']', '?'] with
  | none => rw [hx] at this; cases this
  | some x =>
    rw [hx, Option.any_some, decide_eq_true_eq] at this
    exact ⟨x, rfl, this⟩

/-- The digits of Python's `\d`, ASCII and Arabic. -/
def arabic : List Char := ['0', '-', '9', '٠', '-', '٩']

/-- **C93 is false of `\d`**: Python's digits are those of all scripts, the keys are those of ASCII.  The pattern of whole numbers matches the Arabic 3. -/
theorem C93_fails_digits : ∃ x, Rx.make arabic intText = some x ∧ x.parse ['٣'] = some [] ∧ ¬ ∃ k ∈ keys Choice.english x.expr, k <+: ['٣'] := by
  have h : (Rx.make arabic intText).any (fun x => decide (x.parse ['٣'] = some []) && (keys Choice.english x.expr).all fun k => !k.isPrefixOf ['٣']) = true := by decide +kernel
  cases hx : Rx.make arabic intText with
  | none => rw [hx] at h; cases h
  | some x =>
    rw [hx, Option.any_some, Bool.and_eq_true, decide_eq_true_eq, List.all_eq_true] at h
    refine ⟨x, rfl, h.1, ?_⟩
    rintro ⟨k, hk, hp⟩
    have := h.2 k hk
    rw [List.isPrefixOf_iff_prefix.2 hp] at this
    cases this

/-- **C93 is false, and is seen**: of six regular expressions as alternatives the first matches `ac`, and the table does not try it. -/
theorem C93_fails_choice :
    let xs := [['a', 'b', '*'], ['a', 'd'], ['v'], ['x'], ['y'], ['z']].filterMap (Rx.make ascii)
    xs.length = 6 ∧ choose Choice.english (fun x => x.parse ['a', 'c']) ['a', 'c'] (faster (expectingOf fun x => keys Choice.english x.expr) xs) = .ok none ∧
      Choice.first (fun x => x.parse ['a', 'c']) xs = some ['c'] := by
  decide +kernel

/-! ### An example of alternatives that the table gets right -/

def someParsers : List PE := [.lit ['a'], .many (.char ['b', 'c'] []) 1 none, .and (.opt (.lit ['d'])) (.lit ['e']), .lit ['f', 'g'], .no (.lit ['h']), .lit ['i']]

example (t : List Char) : choose Choice.english (fun e => e.parse id t) t (faster (expectingOf (keys Choice.english)) someParsers) = .ok (Choice.first (fun e => e.parse id t) someParsers) := by
  have hs : ∀ c ∈ small, decide (Choice.english.lc c = [c] ∧ Choice.english.lc c.toUpper = [c]) = true := by decide +kernel
  have hk : someParsers.all (fun e => (keys Choice.english e).all fun k => !k.isEmpty && k.all fun c => small.contains c) = true := by decide +kernel
  have ho : ∀ c ∈ small, Own Choice.english c := fun c hc => own_english (hs c hc)
  refine C93_choice_partial id t someParsers ?_ (by decide +kernel) ?_ (Choice.ordered_of (by decide +kernel))
  · intro e he
    simp only [someParsers, List.mem_cons, List.not_mem_nil, or_false] at he
    rcases he with rfl | rfl | rfl | rfl | rfl | rfl
    · exact fun c hc => ho c (by simp at hc; subst hc; decide)
    · exact fun c hc => ho c (by simp at hc; rcases hc with rfl | rfl <;> decide)
    · exact ⟨fun c hc => ho c (by simp at hc; subst hc; decide), fun c hc => ho c (by simp at hc; subst hc; decide)⟩
    · exact fun c hc => ho c (by simp at hc; rcases hc with rfl | rfl <;> decide)
    · exact fun c hc => ho c (by simp at hc; subst hc; decide)
    · exact fun c hc => ho c (by simp at hc; subst hc; decide)
  · intro e he k hkk
    have := List.all_eq_true.1 (List.all_eq_true.1 hk e he) k hkk
    rw [Bool.and_eq_true, List.all_eq_true] at this
    refine ⟨?_, fun c hc => fit_english (hs c (List.contains_iff_mem.1 (this.2 c hc)))⟩
    intro e0
    rw [e0] at this
    simp at this

end EulerDB.Expect
