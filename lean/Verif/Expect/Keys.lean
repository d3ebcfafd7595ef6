/-
C93: a parser succeeds only where one of its keys stands, or it takes nothing and says so; the table of the alternatives.
-/
import Verif.Expect.Model
import Verif.Choice.Grammar

namespace EulerDB.Expect

open EulerDB EulerDB.Regex
open EulerDB.Choice (Casing Key matches' pattern)

/-! ### Cases of letters -/

/-- A character that is its own small or its own capital letter, and whose small and capital letter go together. -/
def Own (cs : Casing) (c : Char) : Prop := ∃ l u, cs.lc c = [l] ∧ cs.uc c = [u] ∧ cs.lc l = [l] ∧ cs.uc l = [u] ∧ (c = l ∨ c = u)

/-- The characters of the literals and of the `Char`s are such, and keywords are written in the letters of `str.lower` and `str.upper`. -/
def Owned (cs : Casing) : PE → Prop
  | .char inc _ => ∀ c ∈ inc, Own cs c
  | .lit s => ∀ c ∈ s, Own cs c
  | .and a b => Owned cs a ∧ Owned cs b
  | .first a b => Owned cs a ∧ Owned cs b
  | .key lower upper _ => cs.low lower = lower ∧ cs.up lower = upper
  | .orEmpty a => Owned cs a
  | .many e _ _ => Owned cs e
  | .opt e => Owned cs e
  | .no e => Owned cs e
  | .ahead e => Owned cs e

/-- One of the keys stands at the beginning of the text, in small or in capital letters. -/
def Begins (cs : Casing) (ks : List Key) (s : List Char) : Prop := ∃ k ∈ ks, matches' (pattern cs k) s = true

theorem mem_insertChar {c d : Char} : ∀ {l : List Char}, d ∈ insertChar c l ↔ d = c ∨ d ∈ l
  | [] => by simp [insertChar]
  | e :: l => by
    unfold insertChar
    split
    · simp
    · split
      · rename_i h; subst h; simp
      · simp only [List.mem_cons, mem_insertChar (l := l)]
        tauto

theorem mem_charSet {d : Char} : ∀ {l : List Char}, d ∈ charSet l ↔ d ∈ l
  | [] => by simp [charSet]
  | c :: l => by simp only [charSet, mem_insertChar, mem_charSet (l := l), List.mem_cons]

theorem low_cons (cs : Casing) (c : Char) (s : List Char) : cs.low (c :: s) = cs.lc c ++ cs.low s := rfl
theorem up_cons (cs : Casing) (c : Char) (s : List Char) : cs.up (c :: s) = cs.uc c ++ cs.up s := rfl

theorem matches_nil (t : List Char) : matches' [] t = true := by cases t <;> rfl

/-- A text with a literal at its beginning: the key of the literal stands there. -/
theorem matches_low {cs : Casing} : ∀ {u : List Char} (_ : ∀ c ∈ u, Own cs c) (t : List Char), matches' (pattern cs (cs.low u)) (u ++ t) = true
  | [], _, t => matches_nil t
  | c :: u, h, t => by
    obtain ⟨l, v, h1, h2, h3, h4, h5⟩ := h c (by simp)
    have ih := matches_low (u := u) (fun c hc => h c (by simp [hc])) t
    unfold pattern at ih ⊢
    rw [low_cons, h1, List.singleton_append, low_cons, up_cons, h3, h4]
    simp only [List.zip_cons_cons, List.cons_append, List.nil_append, matches', ih, Bool.and_true, Bool.or_eq_true, beq_iff_eq]
    exact h5

/-- The same for the characters as they are. -/
theorem matches_self {cs : Casing} : ∀ {u : List Char} (_ : ∀ c ∈ u, Own cs c) (t : List Char), matches' (pattern cs u) (u ++ t) = true
  | [], _, t => matches_nil t
  | c :: u, h, t => by
    obtain ⟨l, v, h1, h2, h3, h4, h5⟩ := h c (by simp)
    have ih := matches_self (u := u) (fun c hc => h c (by simp [hc])) t
    unfold pattern at ih ⊢
    rw [low_cons, up_cons, h1, h2]
    simp only [List.zip_cons_cons, List.cons_append, List.nil_append, matches', ih, Bool.and_true, Bool.or_eq_true, beq_iff_eq]
    exact h5

theorem matches_spelled : ∀ {lower upper s r : List Char}, spelled lower upper s = some r → matches' (lower.zip upper) s = true
  | [], upper, s, r, _ => by simp [matches_nil]
  | l :: lower, [], s, r, _ => by simp [matches_nil]
  | l :: lower, u :: upper, [], r, h => by simp [spelled] at h
  | l :: lower, u :: upper, c :: s, r, h => by
    simp only [spelled] at h
    split at h
    · rename_i hc
      simp only [List.zip_cons_cons, matches', matches_spelled h, Bool.and_true, Bool.or_eq_true, beq_iff_eq]
      exact hc
    · cases h

theorem mem_union {a b : List Key} {k : Key} : k ∈ union a b ↔ k ∈ a ∨ k ∈ b := by
  unfold union
  simp only [List.mem_append, List.mem_filter, decide_eq_true_eq]
  by_cases h : k ∈ a <;> simp [h]

theorem Begins.left {cs : Casing} {a b : List Key} {s : List Char} (h : Begins cs a s) : Begins cs (union a b) s := by
  obtain ⟨k, hk, hm⟩ := h
  exact ⟨k, mem_union.2 (Or.inl hk), hm⟩

theorem Begins.right {cs : Casing} {a b : List Key} {s : List Char} (h : Begins cs b s) : Begins cs (union a b) s := by
  obtain ⟨k, hk, hm⟩ := h
  exact ⟨k, mem_union.2 (Or.inr hk), hm⟩

/-! ### `Many` -/

/-- The loop goes on after a first element that is found and takes something, or it ends where it began. -/
theorem manyLoop_first {p : List Char → Option (List Char)} {ws : List Char → List Char} {hi : Option Nat} {n : Nat} {s : List Char} {k : Nat} {s' : List Char}
    (h : manyLoop p ws hi n 0 s = some (k, s')) : (k = 0 ∧ s' = s) ∨ ∃ s1, p s = some s1 ∧ s1.length < s.length := by
  cases n with
  | zero => simp [manyLoop] at h
  | succ n =>
    unfold manyLoop at h
    simp only [if_pos] at h
    split at h
    · simp only [Option.some.injEq, Prod.mk.injEq] at h
      exact Or.inl ⟨h.1.symm, h.2.symm⟩
    · split at h
      · simp only [Option.some.injEq, Prod.mk.injEq] at h
        exact Or.inl ⟨h.1.symm, h.2.symm⟩
      · rename_i s1 hp
        split at h
        · rename_i hl
          exact Or.inr ⟨s1, hp, hl⟩
        · split at h
          · simp only [Option.some.injEq, Prod.mk.injEq] at h
            exact Or.inl ⟨h.1.symm, h.2.symm⟩
          · cases h

/-! ### Keys -/

/-- **C93, the keys.**  A parser that says what it is expecting succeeds only where one of its keys stands, or else it takes nothing, and its `min_length` is 0. -/
theorem C93_keys {cs : Casing} (ws : List Char → List Char) : ∀ {e : PE}, Owned cs e → ∀ {s s' : List Char}, e.parse ws s = some s' → keys cs e ≠ [] →
    Begins cs (keys cs e) s ∨ (minLen e = 0 ∧ s' = s)
  | .char inc exc, ho, s, s', h, hk => by
    cases s with
    | nil => simp [PE.parse] at h
    | cons c r =>
      simp only [PE.parse] at h
      split at h
      · rename_i hc
        refine Or.inl ⟨[c], ?_, ?_⟩
        · unfold charOk at hc
          have hne : (inc.filter fun d => decide (d ∉ exc)) ≠ [] := by
            intro e
            apply hk
            simp only [keys, List.map_eq_nil_iff, List.filter_eq_nil_iff, decide_eq_true_eq] at e ⊢
            intro d hd
            rw [mem_charSet] at hd ⊢
            exact e d hd
          rw [if_neg hne, decide_eq_true_eq] at hc
          simp only [keys, List.mem_map, List.mem_filter, decide_eq_true_eq, mem_charSet]
          exact ⟨c, hc, rfl⟩
        · have hin : c ∈ inc := by
            unfold charOk at hc
            split at hc
            · exfalso
              rename_i e
              apply hk
              simp only [keys, List.map_eq_nil_iff, List.filter_eq_nil_iff, decide_eq_true_eq] at e ⊢
              intro d hd
              rw [mem_charSet] at hd ⊢
              exact e d hd
            · rw [decide_eq_true_eq] at hc; exact hc.1
          exact matches_self (u := [c]) (by simpa using ho c hin) r
      · cases h
  | .lit l, ho, s, s', h, _ => by
    simp only [PE.parse] at h
    split at h
    · rename_i hp
      rw [List.isPrefixOf_iff_prefix] at hp
      obtain ⟨t, rfl⟩ := hp
      exact Or.inl ⟨cs.low l, by simp [keys], matches_low ho t⟩
    · cases h
  | .and a b, ho, s, s', h, hk => by
    have hp : (PE.and a b).parse ws s = match a.parse ws s with
      | none => none
      | some s' => b.parse ws (if s'.length < s.length then ws s' else s') := rfl
    rw [hp] at h
    have hka : keys cs a ≠ [] := by
      intro e; apply hk; simp [keys, e]
    cases ha : a.parse ws s with
    | none => rw [ha] at h; cases h
    | some s1 =>
      rw [ha] at h
      rcases C93_keys ws ho.1 ha hka with hb | ⟨hm, rfl⟩
      · left
        by_cases hm : minLen a = 0
        · by_cases hkb : keys cs b = []
          · exact absurd (by simp [keys, hm, hkb]) hk
          · have : keys cs (PE.and a b) = union (keys cs a) (keys cs b) := by simp [keys, hka, hm, hkb]
            rw [this]; exact hb.left
        · have : keys cs (PE.and a b) = keys cs a := by simp [keys, hka, hm]
          rw [this]; exact hb
      · have hkb : keys cs b ≠ [] := by
          intro e; apply hk; simp [keys, hm, e]
        have hkk : keys cs (PE.and a b) = union (keys cs a) (keys cs b) := by simp [keys, hka, hm, hkb]
        simp only [Nat.lt_irrefl, if_false] at h
        rcases C93_keys ws ho.2 h hkb with hb | ⟨hm', rfl⟩
        · left; rw [hkk]; exact hb.right
        · right; exact ⟨by simp [minLen, hm, hm'], rfl⟩
  | .first a b, ho, s, s', h, hk => by
    have hp : (PE.first a b).parse ws s = match a.parse ws s with
      | some s' => some s'
      | none => b.parse ws s := rfl
    rw [hp] at h
    have hka : keys cs a ≠ [] := by
      intro e; apply hk; simp [keys, e]
    have hkb : keys cs b ≠ [] := by
      intro e; apply hk; simp [keys, e]
    have hkk : keys cs (PE.first a b) = union (keys cs a) (keys cs b) := by simp [keys, hka, hkb]
    cases ha : a.parse ws s with
    | none =>
      rw [ha] at h
      rcases C93_keys ws ho.2 h hkb with hb | ⟨hm, rfl⟩
      · left; rw [hkk]; exact hb.right
      · right; exact ⟨by simp [minLen, hm], rfl⟩
    | some s1 =>
      rw [ha] at h
      simp only [Option.some.injEq] at h
      subst h
      rcases C93_keys ws ho.1 ha hka with hb | ⟨hm, rfl⟩
      · left; rw [hkk]; exact hb.left
      · right; exact ⟨by simp [minLen, hm], rfl⟩
  | .key lower upper ident, ho, s, s', h, _ => by
    simp only [PE.parse] at h
    cases hs : spelled lower upper s with
    | none => rw [hs] at h; cases h
    | some r =>
      refine Or.inl ⟨lower, by simp [keys], ?_⟩
      unfold pattern
      rw [ho.1, ho.2]
      exact matches_spelled hs
  | .orEmpty a, _, _, _, _, hk => absurd rfl hk
  | .many e lo hi, ho, s, s', h, hk => by
    have hp : (PE.many e lo hi).parse ws s = match manyLoop (e.parse ws) ws hi (s.length + 1) 0 s with
      | none => none
      | some (k, s') => if lo ≤ k then some s' else none := rfl
    rw [hp] at h
    cases hm : manyLoop (e.parse ws) ws hi (s.length + 1) 0 s with
    | none => rw [hm] at h; cases h
    | some x =>
      obtain ⟨k, s2⟩ := x
      rw [hm] at h
      dsimp only at h
      split at h
      · rename_i hlo
        simp only [Option.some.injEq] at h
        subst h
        rcases manyLoop_first hm with ⟨rfl, rfl⟩ | ⟨s1, h1, hl⟩
        · right
          have : lo = 0 := by omega
          exact ⟨by simp [minLen, this], rfl⟩
        · rcases C93_keys ws (show Owned cs e from ho) h1 hk with hb | ⟨_, rfl⟩
          · exact Or.inl hb
          · omega
      · cases h
  | .opt e, ho, s, s', h, hk => by
    have hp : (PE.opt e).parse ws s = some ((e.parse ws s).getD s) := rfl
    rw [hp, Option.some.injEq] at h
    cases he : e.parse ws s with
    | none => rw [he] at h; exact Or.inr ⟨rfl, h.symm⟩
    | some s1 =>
      rw [he] at h
      simp only [Option.getD_some] at h
      subst h
      rcases C93_keys ws (show Owned cs e from ho) he hk with hb | ⟨_, rfl⟩
      · exact Or.inl hb
      · exact Or.inr ⟨rfl, rfl⟩
  | .no _, _, _, _, _, hk => absurd rfl hk
  | .ahead e, ho, s, s', h, hk => by
    have hp : (PE.ahead e).parse ws s = (e.parse ws s).map fun _ => s := rfl
    rw [hp] at h
    cases he : e.parse ws s with
    | none => rw [he] at h; cases h
    | some s1 =>
      rw [he] at h
      simp only [Option.map_some, Option.some.injEq] at h
      subst h
      rcases C93_keys ws (show Owned cs e from ho) he hk with hb | ⟨hm, _⟩
      · exact Or.inl hb
      · exact Or.inr ⟨hm, rfl⟩

/-! ### `min_length` -/

def NoAhead : PE → Prop
  | .and a b => NoAhead a ∧ NoAhead b
  | .first a b => NoAhead a ∧ NoAhead b
  | .orEmpty a => NoAhead a
  | .many e _ _ => NoAhead e
  | .opt e => NoAhead e
  | .ahead _ => False
  | _ => True

theorem spelled_length : ∀ {lower upper s r : List Char}, lower.length = upper.length → spelled lower upper s = some r → r.length + lower.length = s.length
  | [], [], s, r, _, h => by simp [spelled] at h; simp [h]
  | [], _ :: _, _, _, hl, _ => by simp at hl
  | _ :: _, [], _, _, hl, _ => by simp at hl
  | l :: lower, u :: upper, [], r, _, h => by simp [spelled] at h
  | l :: lower, u :: upper, c :: s, r, hl, h => by
    simp only [spelled] at h
    split at h
    · have := spelled_length (by simpa using hl) h
      simp only [List.length_cons]
      omega
    · cases h

theorem manyLoop_length {p : List Char → Option (List Char)} {ws : List Char → List Char} (hws : ∀ s, (ws s).length ≤ s.length) {hi : Option Nat} :
    ∀ {n k : Nat} {s : List Char} {x : Nat × List Char}, manyLoop p ws hi n k s = some x → x.2.length ≤ s.length
  | 0, k, s, x, h => by simp [manyLoop] at h
  | n + 1, k, s, x, h => by
    unfold manyLoop at h
    dsimp only at h
    have h2 : (if k = 0 then s else ws s).length ≤ s.length := by
      split
      · exact Nat.le_refl _
      · exact hws s
    generalize (if k = 0 then s else ws s) = i at h h2
    split at h
    · simp only [Option.some.injEq] at h; subst h; exact Nat.le_refl _
    · split at h
      · simp only [Option.some.injEq] at h; subst h; exact Nat.le_refl _
      · rename_i s1 hp
        split at h
        · rename_i hl
          have h1 := manyLoop_length hws h
          omega
        · split at h
          · simp only [Option.some.injEq] at h; subst h; exact Nat.le_refl _
          · cases h

/-- Keywords whose small and capital letters are as many. -/
def Even : PE → Prop
  | .key lower upper _ => lower.length = upper.length
  | .and a b => Even a ∧ Even b
  | .first a b => Even a ∧ Even b
  | .orEmpty a => Even a
  | .many e _ _ => Even e
  | .opt e => Even e
  | .no e => Even e
  | .ahead e => Even e
  | _ => True

/-- **C93, the length.**  Without lookahead a parser takes `min_length` characters at least. -/
theorem C93_min_partial {ws : List Char → List Char} (hws : ∀ s, (ws s).length ≤ s.length) : ∀ {e : PE}, NoAhead e → Even e → ∀ {s s' : List Char}, e.parse ws s = some s' →
    minLen e + s'.length ≤ s.length
  | .char inc exc, _, _, s, s', h => by
    cases s with
    | nil => simp [PE.parse] at h
    | cons c r =>
      simp only [PE.parse] at h
      split at h
      · simp only [Option.some.injEq] at h; subst h; simp [minLen, Nat.add_comm]
      · cases h
  | .lit l, _, _, s, s', h => by
    simp only [PE.parse] at h
    split at h
    · rename_i hp
      rw [List.isPrefixOf_iff_prefix] at hp
      obtain ⟨t, rfl⟩ := hp
      simp only [Option.some.injEq] at h; subst h
      simp [minLen]
    · cases h
  | .and a b, hn, hv, s, s', h => by
    have hp : (PE.and a b).parse ws s = match a.parse ws s with
      | none => none
      | some s' => b.parse ws (if s'.length < s.length then ws s' else s') := rfl
    rw [hp] at h
    cases ha : a.parse ws s with
    | none => rw [ha] at h; cases h
    | some s1 =>
      rw [ha] at h
      have h1 := C93_min_partial hws hn.1 hv.1 ha
      have h2 := C93_min_partial hws hn.2 hv.2 h
      have h3 : (if s1.length < s.length then ws s1 else s1).length ≤ s1.length := by
        split
        · exact hws s1
        · exact Nat.le_refl _
      simp only [minLen]
      omega
  | .first a b, hn, hv, s, s', h => by
    have hp : (PE.first a b).parse ws s = match a.parse ws s with
      | some s' => some s'
      | none => b.parse ws s := rfl
    rw [hp] at h
    simp only [minLen]
    cases ha : a.parse ws s with
    | none =>
      rw [ha] at h
      have := C93_min_partial hws hn.2 hv.2 h
      omega
    | some s1 =>
      rw [ha] at h
      simp only [Option.some.injEq] at h
      subst h
      have := C93_min_partial hws hn.1 hv.1 ha
      omega
  | .key lower upper ident, _, hv, s, s', h => by
    simp only [PE.parse] at h
    cases hs : spelled lower upper s with
    | none => rw [hs] at h; cases h
    | some r =>
      rw [hs] at h
      dsimp only at h
      split at h
      · simp only [Option.some.injEq] at h; subst h
        have := spelled_length hv hs
        simp only [minLen]
        omega
      · cases h
  | .orEmpty a, hn, hv, s, s', h => by
    have hp : (PE.orEmpty a).parse ws s = some ((a.parse ws s).getD s) := rfl
    rw [hp, Option.some.injEq] at h
    simp only [minLen, Nat.min_zero, Nat.zero_add]
    cases he : a.parse ws s with
    | none => rw [he] at h; subst h; exact Nat.le_refl _
    | some s1 =>
      rw [he] at h
      simp only [Option.getD_some] at h
      subst h
      have := C93_min_partial hws (show NoAhead a from hn) (show Even a from hv) he
      omega
  | .many e lo hi, hn, hv, s, s', h => by
    have hp : (PE.many e lo hi).parse ws s = match manyLoop (e.parse ws) ws hi (s.length + 1) 0 s with
      | none => none
      | some (k, s') => if lo ≤ k then some s' else none := rfl
    rw [hp] at h
    cases hm : manyLoop (e.parse ws) ws hi (s.length + 1) 0 s with
    | none => rw [hm] at h; cases h
    | some x =>
      obtain ⟨k, s2⟩ := x
      rw [hm] at h
      dsimp only at h
      split at h
      · rename_i hlo
        simp only [Option.some.injEq] at h
        subst h
        simp only [minLen]
        split
        · have := manyLoop_length hws hm
          simpa using this
        · rename_i hlo'
          have hm0 := hm
          unfold manyLoop at hm
          simp only [if_pos] at hm
          split at hm
          · simp only [Option.some.injEq, Prod.mk.injEq] at hm; omega
          · split at hm
            · simp only [Option.some.injEq, Prod.mk.injEq] at hm; omega
            · rename_i s1 h1
              split at hm
              · have h2 := manyLoop_length hws hm
                have h3 := C93_min_partial hws (show NoAhead e from hn) (show Even e from hv) h1
                simp only at h2
                omega
              · split at hm
                · simp only [Option.some.injEq, Prod.mk.injEq] at hm; omega
                · cases hm
      · cases h
  | .opt e, hn, hv, s, s', h => by
    have hp : (PE.opt e).parse ws s = some ((e.parse ws s).getD s) := rfl
    rw [hp, Option.some.injEq] at h
    simp only [minLen, Nat.zero_add]
    cases he : e.parse ws s with
    | none => rw [he] at h; subst h; exact Nat.le_refl _
    | some s1 =>
      rw [he] at h
      simp only [Option.getD_some] at h
      subst h
      have := C93_min_partial hws (show NoAhead e from hn) (show Even e from hv) he
      omega
  | .no e, _, _, s, s', h => by
    have hp : (PE.no e).parse ws s = match compile ((PE.no e).regex.2) with
      | none => some s
      | some r => if (r.den s).isEmpty then none else some s := rfl
    rw [hp] at h
    simp only [minLen, Nat.zero_add]
    split at h
    · simp only [Option.some.injEq] at h; subst h; exact Nat.le_refl _
    · split at h
      · cases h
      · simp only [Option.some.injEq] at h; subst h; exact Nat.le_refl _
  | .ahead _, hn, _, _, _, _ => absurd hn (by simp [NoAhead])

/-- **C93 is false of `LookAhead`**: its `min_length` is that of what it looks for, and it takes nothing. -/
theorem C93_fails_min {e : PE} (hm : minLen e ≠ 0) (ws : List Char → List Char) {s s' : List Char} (h : e.parse ws s = some s') :
    (PE.ahead e).parse ws s = some s ∧ ¬ minLen (.ahead e) + s.length ≤ s.length := by
  constructor
  · have hp : (PE.ahead e).parse ws s = (e.parse ws s).map fun _ => s := rfl
    rw [hp, h]; rfl
  · simp only [minLen]; omega

/-! ### The table of alternatives -/

open EulerDB.Choice (Keyed Ordered choose faster expectingOf Fit)

theorem nodup_insertChar {c : Char} : ∀ {l : List Char}, l.Nodup → (l.Pairwise fun a b => a.toNat < b.toNat) → (insertChar c l).Pairwise fun a b => a.toNat < b.toNat
  | [], _, _ => by simp [insertChar]
  | d :: l, hn, hp => by
    rw [List.nodup_cons] at hn
    rw [List.pairwise_cons] at hp
    unfold insertChar
    split
    · rename_i h
      rw [List.pairwise_cons, List.pairwise_cons]
      refine ⟨?_, hp⟩
      intro x hx
      rcases List.mem_cons.1 hx with rfl | hx
      · exact h
      · exact Nat.lt_trans h (hp.1 x hx)
    · split
      · rw [List.pairwise_cons]; exact hp
      · rename_i h1 h2
        rw [List.pairwise_cons]
        refine ⟨?_, nodup_insertChar hn.2 hp.2⟩
        intro x hx
        rcases mem_insertChar.1 hx with rfl | hx
        · have : x.toNat ≠ d.toNat := fun e => h2 (Char.toNat_inj.1 e)
          omega
        · exact hp.1 x hx

theorem nodup_of_sorted {l : List Char} (h : l.Pairwise fun a b => a.toNat < b.toNat) : l.Nodup := by
  refine h.imp ?_
  intro a b hab e
  subst e
  exact Nat.lt_irrefl _ hab

theorem sorted_charSet : ∀ l : List Char, (charSet l).Pairwise fun a b => a.toNat < b.toNat
  | [] => by simp [charSet]
  | c :: l => nodup_insertChar (nodup_of_sorted (sorted_charSet l)) (sorted_charSet l)

theorem nodup_union {a b : List Key} (ha : a.Nodup) (hb : b.Nodup) : (union a b).Nodup := by
  unfold union
  rw [List.nodup_append]
  refine ⟨ha, hb.filter _, ?_⟩
  intro x hx y hy e
  subst e
  simp only [List.mem_filter, decide_eq_true_eq] at hy
  exact hy.2 hx

theorem nodup_keys (cs : Casing) : ∀ e : PE, (keys cs e).Nodup
  | .char inc exc => by
    simp only [keys]
    refine List.Nodup.map ?_ ((nodup_of_sorted (sorted_charSet inc)).filter _)
    intro a b h
    simpa using h
  | .lit s => by simp [keys]
  | .and a b => by
    have ha := nodup_keys cs a
    have hb := nodup_keys cs b
    simp only [keys]
    split
    · exact List.nodup_nil
    · split
      · exact ha
      · split
        · exact List.nodup_nil
        · exact nodup_union ha hb
  | .first a b => by
    have ha := nodup_keys cs a
    have hb := nodup_keys cs b
    simp only [keys]
    split
    · exact List.nodup_nil
    · exact nodup_union ha hb
  | .key _ _ _ => by simp [keys]
  | .orEmpty _ => by simp [keys]
  | .many e _ _ => nodup_keys cs e
  | .opt e => nodup_keys cs e
  | .no _ => by simp [keys]
  | .ahead e => nodup_keys cs e

/-- **C93, alternatives.**  Among alternatives that say what they are expecting only if they take something, the table finds what trying them one after the other finds. -/
theorem C93_choice_partial {cs : Casing} (ws : List Char → List Char) (t : List Char) (es : List PE) (ho : ∀ e ∈ es, Owned cs e) (hm : ∀ e ∈ es, keys cs e = [] ∨ minLen e ≠ 0)
    (hf : ∀ e ∈ es, ∀ k ∈ keys cs e, k ≠ [] ∧ Fit cs k) (hord : Ordered (keys cs) es) :
    choose cs (fun e => e.parse ws t) t (faster (expectingOf (keys cs)) es) = .ok (Choice.first (fun e => e.parse ws t) es) := by
  refine Choice.C89_first_partial es ?_ hord
  intro e he
  refine ⟨nodup_keys cs e, hf e he, ?_⟩
  intro hk hr
  cases hp : e.parse ws t with
  | none => exact absurd hp hr
  | some s' =>
    rcases C93_keys ws (ho e he) hp hk with hb | ⟨h0, _⟩
    · exact hb
    · rcases hm e he with h | h
      · exact absurd h hk
      · exact absurd h0 h

/-- **C93 is false of `Optional`** (and of every repetition from 0): four alternatives of which the first takes nothing of any text that does not begin with its letter. -/
theorem C93_fails_optional :
    let es : List PE := [.opt (.lit ['a']), .lit ['b'], .lit ['c'], .lit ['d'], .lit ['e']]
    choose Choice.english (fun e => e.parse id ['z']) ['z'] (faster (expectingOf (keys Choice.english)) es) = .ok none ∧
      Choice.first (fun e => e.parse id ['z']) es = some ['z'] := by
  decide +kernel

end EulerDB.Expect
