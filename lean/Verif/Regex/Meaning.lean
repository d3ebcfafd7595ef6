/-
C92: what the pattern of a parser matches, element by element, and what the parser finds.
-/
import Verif.Regex.Compose
import Mathlib.Data.List.Basic

namespace EulerDB.Regex

open EulerDB

theorem den_seqOf_cons (r : Re) (l : List Re) (s : List Char) : (seqOf (r :: l)).den s = (r.den s).flatMap (seqOf l).den := by
  cases l with
  | nil =>
    have : (seqOf []).den = fun s => [s] := rfl
    rw [this]
    simp [seqOf]
  | cons a l => rfl

theorem den_seqOf_append : ∀ (l l' : List Re) (s : List Char), (seqOf (l ++ l')).den s = ((seqOf l).den s).flatMap (seqOf l').den
  | [], l', s => by simp [seqOf, Re.den]
  | r :: l, l', s => by
    rw [List.cons_append, den_seqOf_cons, den_seqOf_cons, List.flatMap_assoc]
    exact List.flatMap_congr fun x _ => den_seqOf_append l l' x

theorem den_pieces_append (a b : List Piece) (s : List Char) : (seqOfPieces (a ++ b)).den s = ((seqOfPieces a).den s).flatMap (seqOfPieces b).den := by
  unfold seqOfPieces
  rw [List.map_append, den_seqOf_append]

theorem den_closeAlts_append : ∀ (A B : List (List Piece)) (s : List Char), A ≠ [] → B ≠ [] → (closeAlts (A ++ B)).den s = (closeAlts A).den s ++ (closeAlts B).den s
  | [], _, _, h, _ => absurd rfl h
  | [a], b :: B, s, _, _ => rfl
  | a :: a2 :: A, B, s, _, hB => by
    have ih := den_closeAlts_append (a2 :: A) B s (by simp) hB
    show (seqOfPieces a).den s ++ (closeAlts ((a2 :: A) ++ B)).den s = ((seqOfPieces a).den s ++ (closeAlts (a2 :: A)).den s) ++ (closeAlts B).den s
    rw [ih, List.append_assoc]

/-- Texts that begin with `l`. -/
def afterPrefix (l s : List Char) : List (List Char) := if l.isPrefixOf s then [s.drop l.length] else []

/-- What a parser could match, if it tried everything: the remaining texts, in the order in which they would be tried. -/
def PE.meaning : PE → List Char → List (List Char)
  | .char inc exc, s =>
    match s with
    | [] => []
    | c :: r => if charOk inc exc c then [r] else []
  | .lit l, s => afterPrefix l s
  | .and a b, s => (a.meaning s).flatMap b.meaning
  | .first a b, s => a.meaning s ++ b.meaning s
  | .key lower upper ident, s =>
    match spelled lower upper s with
    | none => []
    | some r => (if r = [] ∨ r = ['\n'] then [r] else []) ++ (if (r.head?.all fun c => decide (c ∉ ident)) then [r] else [])
  | .orEmpty a, s => a.meaning s
  | .many e lo hi, s => if lo = 1 ∧ hi = some 1 then e.meaning s else iter e.meaning (s.length + lo + 1) lo hi s
  | .opt e, s => iter e.meaning (s.length + 0 + 1) 0 (some 1) s
  | .no e, s => if (e.meaning s).isEmpty then [s] else []
  | .ahead e, s => if (e.meaning s).isEmpty then [] else [s]

theorem den_chr (c : Char) (s : List Char) : (Re.chr c).den s = match s with | [] => [] | d :: r => if d = c then [r] else [] := by
  cases s with
  | nil => rfl
  | cons d r =>
    show (if [(c, c)].any (inItem d) = false then [] else [r]) = if d = c then [r] else []
    have : [(c, c)].any (inItem d) = decide (d = c) := by
      rw [Bool.eq_iff_iff]
      simp only [List.any_cons, List.any_nil, Bool.or_false, inItem_iff, decide_eq_true_iff]
      exact ⟨fun h => toNat_inj (by omega), fun h => by rw [h]; omega⟩
    rw [this]
    by_cases h : d = c <;> simp [h]

theorem den_lit : ∀ (l s : List Char), (seqOfPieces (l.map fun c => (Re.chr c, false))).den s = afterPrefix l s
  | [], s => by simp [seqOfPieces, seqOf, Re.den, afterPrefix]
  | c :: l, s => by
    have ih := den_lit l
    unfold seqOfPieces at ih ⊢
    rw [List.map_cons, List.map_cons, den_seqOf_cons, den_chr]
    cases s with
    | nil => simp [afterPrefix]
    | cons d r =>
      by_cases h : d = c
      · subst h
        simp only [if_true, List.flatMap_cons, List.flatMap_nil, List.append_nil, ih, afterPrefix]
        simp [List.isPrefixOf]
      · have : (c == d) = false := by simpa using fun hc => h hc.symm
        simp [h, afterPrefix, List.isPrefixOf, this]

theorem den_letter (p : Char × Char) (s : List Char) : (letter p).den s = match s with | [] => [] | d :: r => if d = p.1 ∨ d = p.2 then [r] else [] := by
  unfold letter
  split
  · rename_i h
    rw [den_chr, h]
    cases s <;> simp
  · cases s with
    | nil => rfl
    | cons d r =>
      show (if [(p.1, p.1), (p.2, p.2)].any (inItem d) = false then [] else [r]) = _
      have : [(p.1, p.1), (p.2, p.2)].any (inItem d) = decide (d = p.1 ∨ d = p.2) := by
        rw [Bool.eq_iff_iff]
        simp only [List.any_cons, List.any_nil, Bool.or_false, Bool.or_eq_true, inItem_iff, decide_eq_true_iff]
        constructor
        · rintro (h | h)
          · exact Or.inl (toNat_inj (by omega))
          · exact Or.inr (toNat_inj (by omega))
        · rintro (h | h)
          · exact Or.inl (by rw [h]; omega)
          · exact Or.inr (by rw [h]; omega)
      rw [this]
      by_cases h : d = p.1 ∨ d = p.2 <;> simp [h]

theorem den_letters : ∀ (lower upper s : List Char), (seqOfPieces ((lower.zip upper).map fun p => (letter p, false))).den s = (spelled lower upper s).toList
  | [], _, s => by simp [seqOfPieces, seqOf, Re.den, spelled]
  | _ :: _, [], s => by simp [seqOfPieces, seqOf, Re.den, spelled]
  | l :: lower, u :: upper, s => by
    have ih := den_letters lower upper
    unfold seqOfPieces at ih ⊢
    rw [List.zip_cons_cons, List.map_cons, List.map_cons, den_seqOf_cons, den_letter]
    cases s with
    | nil => simp [spelled]
    | cons d r =>
      by_cases h : d = l ∨ d = u
      · simp only [if_pos h, List.flatMap_cons, List.flatMap_nil, List.append_nil, ih, spelled]
      · simp [if_neg h, spelled]

theorem den_range {l : List Char} (h : RangeOk l) (ex : Bool) (s : List Char) : (Re.set ex (rangeSet l)).den s = match s with | [] => [] | c :: r => if decide (c ∈ l) = ex then [] else [r] := by
  cases s with
  | nil => rfl
  | cons c r => simp only [Re.den, rangeSet_mem h]

theorem filter_eq_nil (inc exc : List Char) : ((charSet inc).filter fun c => decide (c ∉ charSet exc)) = [] ↔ (inc.filter fun d => decide (d ∉ exc)) = [] := by
  simp [List.filter_eq_nil_iff, mem_charSet]

theorem den_char {inc exc : List Char} (h : RangeOk (charChars inc exc).1) (s : List Char) :
    (Re.set (charChars inc exc).2 (rangeSet (charChars inc exc).1)).den s = (PE.char inc exc).meaning s := by
  rw [den_range h]
  cases s with
  | nil => rfl
  | cons c r =>
    have hf := filter_eq_nil inc exc
    have hm : (PE.char inc exc).meaning (c :: r) = if charOk inc exc c = true then [r] else [] := rfl
    have hok : charOk inc exc c = if ((charSet inc).filter fun c => decide (c ∉ charSet exc)) = [] then decide (c ∉ exc) else decide (c ∈ inc ∧ c ∉ exc) := by
      unfold charOk; simp only [hf]
    rw [hm, hok]
    unfold charChars
    dsimp only
    split
    · by_cases hc : c ∈ exc <;> simp [mem_charSet, hc]
    · by_cases hc : c ∈ inc ∧ c ∉ exc
      · simp [mem_charSet, hc]
      · simp [mem_charSet, hc]

theorem den_end {ident : List Char} (h : RangeOk ident) (r : List Char) : (Re.alt .eot (.ahead true (.set false (rangeSet ident)))).den r =
    (if r = [] ∨ r = ['\n'] then [r] else []) ++ (if (r.head?.all fun c => decide (c ∉ ident)) then [r] else []) := by
  show (if r = [] ∨ r = ['\n'] then [r] else []) ++ (if ((Re.set false (rangeSet ident)).den r).isEmpty = true then [r] else []) = _
  congr 1
  rw [den_range h]
  cases r with
  | nil => rfl
  | cons c r => by_cases hc : c ∈ ident <;> simp [hc]

/-- The pattern of a parser matches what its elements make of it. -/
theorem den_meaning : ∀ (e : PE), e.Good → ∀ s, (closeAlts e.alts).den s = e.meaning s
  | .char inc exc, h, s => den_char h s
  | .lit l, _, s => den_lit l s
  | .and a b, h, s => by
    have key : ∀ (e : PE), e.Good → (∀ s, (closeAlts e.alts).den s = e.meaning s) → ∀ s, (seqOfPieces (seqP e.regex.1 e.alts)).den s = e.meaning s := by
      intro e he ih s
      unfold seqP
      split
      · simp only [seqOfPieces, List.map_cons, List.map_nil, seqOf]; exact ih s
      · rename_i hp
        obtain ⟨ps, hps⟩ := (sound e he).one hp
        rw [hps] at ih ⊢
        simpa [closeAlts] using ih s
    show (seqOfPieces (seqP a.regex.1 a.alts ++ seqP b.regex.1 b.alts)).den s = _
    rw [den_pieces_append, key a h.1 (den_meaning a h.1)]
    exact List.flatMap_congr fun x _ => key b h.2 (den_meaning b h.2) x
  | .first a b, h, s => by
    show (closeAlts (a.alts ++ b.alts)).den s = _
    rw [den_closeAlts_append _ _ s (sound a h.1).ne (sound b h.2).ne, den_meaning a h.1, den_meaning b h.2]
    rfl
  | .key lower upper ident, h, s => by
    show (seqOfPieces (_ ++ _)).den s = _
    rw [den_pieces_append, den_letters]
    simp only [PE.meaning]
    cases spelled lower upper s with
    | none => rfl
    | some r =>
      simp only [Option.toList_some, List.flatMap_cons, List.flatMap_nil, List.append_nil]
      exact den_end h r
  | .orEmpty a, h, s => den_meaning a h s
  | .many e lo hi, h, s => by
    have hu : (unitRe e.regex.1 e.alts).den = e.meaning := by
      funext x
      unfold unitRe
      split
      · rename_i hp
        obtain ⟨y, hy⟩ := (sound e h.1).unit hp h.2.1
        have ih := den_meaning e h.1 x
        rw [hy] at ih ⊢
        simpa [closeAlts] using ih
      · exact den_meaning e h.1 x
    by_cases h11 : lo = 1 ∧ hi = some 1
    · simp only [PE.alts, if_pos h11, PE.meaning]
      show (unitRe e.regex.1 e.alts).den s = _
      rw [hu]
    · simp only [PE.alts, if_neg h11, PE.meaning]
      show iter (unitRe e.regex.1 e.alts).den _ _ _ _ = _
      rw [hu]
  | .opt e, h, s => by
    have hu : (unitRe e.regex.1 e.alts).den = e.meaning := by
      funext x
      unfold unitRe
      split
      · rename_i hp
        obtain ⟨y, hy⟩ := (sound e h.1).unit hp h.2
        have ih := den_meaning e h.1 x
        rw [hy] at ih ⊢
        simpa [closeAlts] using ih
      · exact den_meaning e h.1 x
    show iter (unitRe e.regex.1 e.alts).den _ _ _ _ = _
    rw [hu]
    rfl
  | .no e, h, s => by
    show (if ((closeAlts e.alts).den s).isEmpty = true then [s] else []) = _
    rw [den_meaning e h s]
    rfl
  | .ahead e, h, s => by
    show (if ((closeAlts e.alts).den s).isEmpty = false then [s] else []) = _
    rw [den_meaning e h s]
    simp only [PE.meaning]
    cases (e.meaning s).isEmpty <;> rfl

theorem compile_no {e : PE} (h : e.Good) : compile (PE.no e).regex.2 = some (.ahead true (closeAlts e.alts)) :=
  compile_good (e := .no e) h

/-! ### What the parser finds, the pattern matches -/

theorem manyLoop_mem {p : List Char → Option (List Char)} {f : List Char → List (List Char)} (h : ∀ s s', p s = some s' → s' ∈ f s) (lo : Nat) (hi : Option Nat) :
    ∀ (n k fuel : Nat) (s s' : List Char) (k' : Nat), manyLoop p id hi n k s = some (k', s') → lo ≤ k' → (∀ b, hi = some b → k ≤ b) → s.length + (lo - k) < fuel →
      s' ∈ iter f fuel (lo - k) (hi.map (· - k)) s
  | 0, _, _, _, _, _, hm, _, _, _ => by simp [manyLoop] at hm
  | n + 1, k, 0, _, _, _, _, _, _, hf => by omega
  | n + 1, k, fuel + 1, s, s', k', hm, hlo, hb, hf => by
    have stop : s' = s → k' = k → s' ∈ iter f (fuel + 1) (lo - k) (hi.map (· - k)) s := by
      rintro rfl rfl
      simp [iter, Nat.sub_eq_zero_of_le hlo]
    rw [manyLoop] at hm
    split at hm
    · simp only [Option.some.injEq, Prod.mk.injEq] at hm
      exact stop hm.2.symm hm.1.symm
    · rename_i hc
      have hi' : (if k = 0 then s else id s) = s := by split <;> rfl
      rw [hi'] at hm
      dsimp only at hm
      cases hp : p s with
      | none =>
        rw [hp] at hm
        simp only [Option.some.injEq, Prod.mk.injEq] at hm
        exact stop hm.2.symm hm.1.symm
      | some r =>
        rw [hp] at hm
        dsimp only at hm
        split at hm
        · rename_i hlt
          have hb' : ∀ b, hi = some b → k + 1 ≤ b := by
            intro b hbe
            have := hb b hbe
            rcases Nat.lt_or_ge k b with h | h
            · exact h
            · exact absurd (Or.inr (by rw [hbe]; congr 1; omega)) hc
          have ih := manyLoop_mem h lo hi n (k + 1) fuel r s' k' hm hlo hb' (by omega)
          rw [iter]
          refine List.mem_append.2 (Or.inl ?_)
          rw [if_neg]
          · refine List.mem_flatMap.2 ⟨r, h s r hp, ?_⟩
            rw [if_pos (Or.inl hlt)]
            have e1 : lo - k - 1 = lo - (k + 1) := by omega
            have e2 : (hi.map (· - k)).map (· - 1) = hi.map (· - (k + 1)) := by
              rw [Option.map_map]; congr 1
            rw [e1, e2]
            exact ih
          · intro h0
            cases hhi : hi with
            | none => rw [hhi] at h0; simp at h0
            | some b => rw [hhi] at h0; simp at h0; have := hb' b hhi; omega
        · split at hm
          · simp only [Option.some.injEq, Prod.mk.injEq] at hm
            exact stop hm.2.symm hm.1.symm
          · cases hm

/-- Parsers without an empty alternative. -/
def PE.NoEmpty : PE → Prop
  | .and a b => a.NoEmpty ∧ b.NoEmpty
  | .first a b => a.NoEmpty ∧ b.NoEmpty
  | .orEmpty _ => False
  | .many e _ _ => e.NoEmpty
  | .opt e => e.NoEmpty
  | .no e => e.NoEmpty
  | .ahead e => e.NoEmpty
  | _ => True

theorem mem_opt {f : List Char → List (List Char)} {s s' : List Char} (h : s' ∈ f s) (hl : s'.length ≤ s.length) (heq : s'.length = s.length → s' = s) : s' ∈ iter f (s.length + 0 + 1) 0 (some 1) s := by
  rw [iter]
  by_cases hlt : s'.length < s.length
  · refine List.mem_append.2 (Or.inl ?_)
    rw [if_neg (by simp)]
    refine List.mem_flatMap.2 ⟨s', h, ?_⟩
    rw [if_pos (Or.inl hlt)]
    have : ∃ n, s.length = n + 1 := ⟨s.length - 1, by omega⟩
    obtain ⟨n, hn⟩ := this
    rw [hn, iter]
    simp
  · have := heq (by omega)
    subst this
    simp

theorem suffix_of_length {s s' : List Char} (h : s' <:+ s) (hl : s'.length = s.length) : s' = s := h.eq_of_length hl

theorem spelled_suffix : ∀ (lower upper s r : List Char), spelled lower upper s = some r → r <:+ s
  | [], _, s, r, h => by simp [spelled] at h; subst h; exact List.suffix_refl _
  | _ :: _, [], s, r, h => by simp [spelled] at h; subst h; exact List.suffix_refl _
  | l :: lower, u :: upper, [], r, h => by simp [spelled] at h
  | l :: lower, u :: upper, c :: s, r, h => by
    simp only [spelled] at h
    split at h
    · exact (spelled_suffix lower upper s r h).trans (List.suffix_cons c s)
    · cases h

theorem manyLoop_suffix {p : List Char → Option (List Char)} (h : ∀ s s', p s = some s' → s' <:+ s) (hi : Option Nat) :
    ∀ (n k : Nat) (s s' : List Char) (k' : Nat), manyLoop p id hi n k s = some (k', s') → s' <:+ s
  | 0, _, _, _, _, hm => by simp [manyLoop] at hm
  | n + 1, k, s, s', k', hm => by
    rw [manyLoop] at hm
    split at hm
    · simp only [Option.some.injEq, Prod.mk.injEq] at hm; rw [hm.2]; exact List.suffix_refl _
    · have hi' : (if k = 0 then s else id s) = s := by split <;> rfl
      rw [hi'] at hm
      dsimp only at hm
      cases hp : p s with
      | none => rw [hp] at hm; simp only [Option.some.injEq, Prod.mk.injEq] at hm; rw [hm.2]; exact List.suffix_refl _
      | some r =>
        rw [hp] at hm
        dsimp only at hm
        split at hm
        · exact (manyLoop_suffix h hi n (k + 1) r s' k' hm).trans (h s r hp)
        · split at hm
          · simp only [Option.some.injEq, Prod.mk.injEq] at hm; rw [hm.2]; exact List.suffix_refl _
          · cases hm

/-- A parser leaves an end of the text. -/
theorem parse_suffix : ∀ (e : PE) (s s' : List Char), e.parse id s = some s' → s' <:+ s
  | .char inc exc, s, s', h => by
    cases s with
    | nil => simp [PE.parse] at h
    | cons c r =>
      simp only [PE.parse] at h
      split at h
      · cases h; exact List.suffix_cons c _
      · cases h
  | .lit l, s, s', h => by
    simp only [PE.parse] at h
    split at h
    · cases h; exact List.drop_suffix _ _
    · cases h
  | .and a b, s, s', h => by
    simp only [PE.parse] at h
    cases ha : a.parse id s with
    | none => rw [ha] at h; cases h
    | some r =>
      rw [ha] at h
      have h' : b.parse id r = some s' := by simpa using h
      exact (parse_suffix b r s' h').trans (parse_suffix a s r ha)
  | .first a b, s, s', h => by
    simp only [PE.parse] at h
    cases ha : a.parse id s with
    | none => rw [ha] at h; exact parse_suffix b s s' h
    | some r => rw [ha] at h; cases h; exact parse_suffix a s _ ha
  | .key lower upper ident, s, s', h => by
    simp only [PE.parse] at h
    cases hs : spelled lower upper s with
    | none => rw [hs] at h; cases h
    | some r =>
      rw [hs] at h
      dsimp only at h
      split at h
      · cases h; exact spelled_suffix _ _ _ _ hs
      · cases h
  | .orEmpty a, s, s', h => by
    simp only [PE.parse, Option.some.injEq] at h
    cases ha : a.parse id s with
    | none => rw [ha] at h; cases h; exact List.suffix_refl _
    | some r => rw [ha] at h; cases h; exact parse_suffix a s _ ha
  | .many e lo hi, s, s', h => by
    simp only [PE.parse] at h
    cases hm : manyLoop (e.parse id) id hi (s.length + 1) 0 s with
    | none => rw [hm] at h; cases h
    | some q =>
      obtain ⟨k, r⟩ := q
      rw [hm] at h
      dsimp only at h
      split at h
      · cases h; exact manyLoop_suffix (parse_suffix e) hi _ _ _ _ _ hm
      · cases h
  | .opt e, s, s', h => by
    simp only [PE.parse, Option.some.injEq] at h
    cases ha : e.parse id s with
    | none => rw [ha] at h; cases h; exact List.suffix_refl _
    | some r => rw [ha] at h; cases h; exact parse_suffix e s _ ha
  | .no e, s, s', h => by
    simp only [PE.parse] at h
    split at h
    · cases h; exact List.suffix_refl _
    · split at h
      · cases h
      · cases h; exact List.suffix_refl _
  | .ahead e, s, s', h => by
    simp only [PE.parse, Option.map_eq_some_iff] at h
    obtain ⟨_, -, h⟩ := h
    rw [h]; exact List.suffix_refl _

theorem wordEnd_mem {ident r : List Char} (h : wordEnd ident r = true) : r ∈ (if r = [] ∨ r = ['\n'] then [r] else []) ++ (if (r.head?.all fun c => decide (c ∉ ident)) then [r] else []) := by
  cases r with
  | nil => simp
  | cons c r =>
    simp only [wordEnd, Bool.or_eq_true, Bool.and_eq_true, decide_eq_true_iff] at h
    rcases h with h | ⟨h1, h2⟩
    · simp [h]
    · simp [h1, h2]

theorem wordEnd_empty {ident r : List Char} (h : wordEnd ident r = false) : (if r = [] ∨ r = ['\n'] then [r] else []) ++ (if (r.head?.all fun c => decide (c ∉ ident)) then [r] else []) = [] := by
  cases r with
  | nil => simp [wordEnd] at h
  | cons c r =>
    simp only [wordEnd, Bool.or_eq_false_iff, Bool.and_eq_false_iff, decide_eq_false_iff_not] at h
    obtain ⟨h1, h2⟩ := h
    have h1' : c ∈ ident := by simpa using h1
    have : ¬ (c = '\n' ∧ r = []) := by tauto
    simp [h1', this]

/-- Where there is no whitespace, what a parser finds is a match of its pattern. -/
theorem found : ∀ (e : PE), e.Good → e.NoEmpty → ∀ s s', e.parse id s = some s' → s' ∈ e.meaning s
  | .char inc exc, _, _, s, s', h => by
    cases s with
    | nil => simp [PE.parse] at h
    | cons c r =>
      simp only [PE.parse] at h
      split at h
      · rename_i hc; cases h; simp [PE.meaning, hc]
      · cases h
  | .lit l, _, _, s, s', h => by
    simp only [PE.parse] at h
    split at h
    · rename_i hc; cases h; simp [PE.meaning, afterPrefix, hc]
    · cases h
  | .and a b, hg, hn, s, s', h => by
    simp only [PE.parse] at h
    cases ha : a.parse id s with
    | none => rw [ha] at h; cases h
    | some r =>
      rw [ha] at h
      have h' : b.parse id r = some s' := by simpa using h
      exact List.mem_flatMap.2 ⟨r, found a hg.1 hn.1 s r ha, found b hg.2 hn.2 r s' h'⟩
  | .first a b, hg, hn, s, s', h => by
    simp only [PE.parse] at h
    cases ha : a.parse id s with
    | none => rw [ha] at h; exact List.mem_append.2 (Or.inr (found b hg.2 hn.2 s s' h))
    | some r => rw [ha] at h; cases h; exact List.mem_append.2 (Or.inl (found a hg.1 hn.1 s _ ha))
  | .key lower upper ident, _, _, s, s', h => by
    simp only [PE.parse] at h
    cases hs : spelled lower upper s with
    | none => rw [hs] at h; cases h
    | some r =>
      rw [hs] at h
      dsimp only at h
      split at h
      · rename_i hw
        cases h
        simp only [PE.meaning, hs]
        exact wordEnd_mem hw
      · cases h
  | .orEmpty a, _, hn, _, _, _ => hn.elim
  | .many e lo hi, hg, hn, s, s', h => by
    have hf := found e hg.1 hn
    simp only [PE.parse] at h
    cases hm : manyLoop (e.parse id) id hi (s.length + 1) 0 s with
    | none => rw [hm] at h; cases h
    | some q =>
      obtain ⟨k, r⟩ := q
      rw [hm] at h
      dsimp only at h
      split at h
      · rename_i hlo
        cases h
        have := manyLoop_mem hf lo hi (s.length + 1) 0 (s.length + lo + 1) s s' k hm hlo (fun _ _ => Nat.zero_le _) (by omega)
        simp only [PE.meaning]
        split
        · rename_i h11
          obtain ⟨rfl, rfl⟩ := h11
          simp only [Nat.sub_zero, Option.map_some] at this
          rw [iter] at this
          simp only [Option.some.injEq, Nat.succ_ne_zero, if_false, List.append_nil, List.mem_flatMap] at this
          obtain ⟨x, hx, hx'⟩ := this
          simp only [Nat.lt_one_iff, or_true, if_true] at hx'
          have e1 : iter e.meaning (s.length + 1) (1 - 1) (Option.map (· - 1) (some 1)) x = [x] := by simp [iter]
          rw [e1] at hx'
          simp at hx'
          rwa [hx']
        · simpa using this
      · cases h
  | .opt e, hg, hn, s, s', h => by
    simp only [PE.parse, Option.some.injEq] at h
    simp only [PE.meaning]
    cases ha : e.parse id s with
    | none => rw [ha] at h; cases h; simp [iter]
    | some r =>
      rw [ha] at h; cases h
      have hs := parse_suffix e s _ ha
      exact mem_opt (found e hg.1 hn s _ ha) hs.length_le (suffix_of_length hs)
  | .no e, hg, _, s, s', h => by
    simp only [PE.parse] at h
    rw [compile_no (e := e) hg] at h
    dsimp only at h
    have hd : (Re.ahead true (closeAlts e.alts)).den s = (PE.no e).meaning s := den_meaning (.no e) hg s
    rw [hd] at h
    split at h
    · cases h
    · rename_i hc
      cases h
      simp only [PE.meaning] at hc ⊢
      split at hc
      · rename_i h2; simp [h2]
      · simp at hc
  | .ahead e, hg, hn, s, s', h => by
    simp only [PE.parse, Option.map_eq_some_iff] at h
    obtain ⟨r, hr, h⟩ := h
    have := found e hg hn s r hr
    subst h
    simp only [PE.meaning]
    rw [if_neg]
    · simp
    · intro hc
      rw [List.isEmpty_iff] at hc
      rw [hc] at this; cases this

end EulerDB.Regex
