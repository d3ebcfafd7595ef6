/-
C92: parsers whose first match is the only one worth trying: the pattern and the parser agree.
-/
import Verif.Regex.Meaning

namespace EulerDB.Regex

open EulerDB

/-- Parsers that find at most one thing. -/
def PE.Lead : PE → Prop
  | .char _ _ => True
  | .lit _ => True
  | .key _ _ _ => True
  | .and a b => a.Lead ∧ b.Lead
  | _ => False

/-- Parsers that need no second try: a choice or a repetition is not followed by anything. -/
def PE.Plain : PE → Prop
  | .char _ _ => True
  | .lit _ => True
  | .key _ _ _ => True
  | .and a b => a.Lead ∧ b.Plain
  | .first a b => a.Plain ∧ b.Plain
  | .many (.char _ _) _ _ => True
  | .no _ => True
  | .ahead e => e.Plain
  | _ => False

theorem lead_same : ∀ (e : PE), e.Lead → ∀ s, (e.meaning s).head? = e.parse id s ∧ ∀ x ∈ e.meaning s, e.parse id s = some x
  | .char inc exc, _, s => by
    cases s with
    | nil => simp [PE.meaning, PE.parse]
    | cons c r => by_cases h : charOk inc exc c = true <;> simp [PE.meaning, PE.parse, h]
  | .lit l, _, s => by by_cases h : l.isPrefixOf s = true <;> simp [PE.meaning, PE.parse, afterPrefix, h]
  | .key lower upper ident, _, s => by
    simp only [PE.meaning, PE.parse]
    cases spelled lower upper s with
    | none => simp
    | some r =>
      dsimp only
      cases hw : wordEnd ident r with
      | false => rw [wordEnd_empty hw]; simp
      | true =>
        have hm := wordEnd_mem hw
        simp only [if_true]
        have hall : ∀ x ∈ (if r = [] ∨ r = ['\n'] then [r] else []) ++ (if (r.head?.all fun c => decide (c ∉ ident)) then [r] else []), x = r := by
          intro x hx
          rcases List.mem_append.1 hx with hx | hx
          · split at hx <;> simp_all
          · split at hx <;> simp_all
        constructor
        · cases hl : (if r = [] ∨ r = ['\n'] then [r] else []) ++ (if (r.head?.all fun c => decide (c ∉ ident)) then [r] else []) with
          | nil => rw [hl] at hm; cases hm
          | cons y l => rw [hl] at hall; simp [hall y (by simp)]
        · exact fun x hx => by rw [hall x hx]
  | .and a b, h, s => by
    obtain ⟨h1, h2⟩ := lead_same a h.1 s
    simp only [PE.meaning, PE.parse]
    cases ha : a.parse id s with
    | none =>
      rw [ha] at h1
      rw [List.head?_eq_none_iff] at h1
      simp [h1]
    | some r =>
      rw [ha] at h1 h2
      have h2' : ∀ x ∈ a.meaning s, x = r := fun x hx => by have := h2 x hx; simpa using this.symm
      obtain ⟨h3, h4⟩ := lead_same b h.2 r
      have e : b.parse id (if r.length < s.length then id r else r) = b.parse id r := by split <;> rfl
      dsimp only
      rw [e]
      constructor
      · cases hm : a.meaning s with
        | nil => rw [hm] at h1; simp at h1
        | cons y l =>
          rw [hm] at h1 h2'
          simp only [List.head?_cons, Option.some.injEq] at h1
          subst h1
          rw [List.flatMap_cons, List.head?_append, h3]
          cases hb : b.parse id y with
          | some q => simp
          | none =>
            have : b.meaning y = [] := by rw [hb] at h3; exact List.head?_eq_none_iff.1 h3
            simp only [Option.none_or, List.head?_eq_none_iff, List.flatMap_eq_nil_iff]
            intro x hx
            rw [h2' x (by simp [hx]), this]
      · intro x hx
        obtain ⟨y, hy, hxy⟩ := List.mem_flatMap.1 hx
        rw [h2' y hy] at hxy
        exact h4 x hxy

/-! ### Repetition of characters -/

theorem manyLoop_le {p : List Char → Option (List Char)} (hi : Option Nat) : ∀ (n k : Nat) (s s' : List Char) (k' : Nat), manyLoop p id hi n k s = some (k', s') → k ≤ k'
  | 0, _, _, _, _, h => by simp [manyLoop] at h
  | n + 1, k, s, s', k', h => by
    rw [manyLoop] at h
    split at h
    · simp only [Option.some.injEq, Prod.mk.injEq] at h; omega
    · have hi' : (if k = 0 then s else id s) = s := by split <;> rfl
      rw [hi'] at h
      dsimp only at h
      split at h
      · simp only [Option.some.injEq, Prod.mk.injEq] at h; omega
      · split at h
        · have := manyLoop_le hi n (k + 1) _ _ _ h; omega
        · split at h
          · simp only [Option.some.injEq, Prod.mk.injEq] at h; omega
          · cases h

theorem iter_head {p : List Char → Option (List Char)} {f : List Char → List (List Char)} (hf : ∀ s, f s = (p s).toList) (hp : ∀ s s', p s = some s' → s'.length < s.length) (lo : Nat) (hi : Option Nat) :
    ∀ (n k fuel : Nat) (s s' : List Char) (k' : Nat), manyLoop p id hi n k s = some (k', s') → (∀ b, hi = some b → k ≤ b) → s.length + (lo - k) < fuel →
      (iter f fuel (lo - k) (hi.map (· - k)) s).head? = if lo ≤ k' then some s' else none
  | 0, _, _, _, _, _, h, _, _ => by simp [manyLoop] at h
  | n + 1, _, 0, _, _, _, _, _, hf => by omega
  | n + 1, k, fuel + 1, s, s', k', hm, hb, hfu => by
    have stop : s' = s → k' = k → (hi = some k ∨ p s = none) → (iter f (fuel + 1) (lo - k) (hi.map (· - k)) s).head? = if lo ≤ k' then some s' else none := by
      rintro rfl rfl hor
      have : (if hi.map (· - k') = some 0 then [] else (f s').flatMap fun r => if r.length < s'.length ∨ 0 < lo - k' then iter f fuel (lo - k' - 1) ((hi.map (· - k')).map (· - 1)) r else []) = [] := by
        rcases hor with h | h
        · rw [h]; simp
        · rw [hf, h]; simp
      rw [iter, this]
      by_cases h : lo ≤ k'
      · simp [h, Nat.sub_eq_zero_of_le h]
      · have h0 : lo - k' ≠ 0 := by omega
        simp [h, h0]
    rw [manyLoop] at hm
    split at hm
    · rename_i hc
      simp only [Option.some.injEq, Prod.mk.injEq] at hm
      refine stop hm.2.symm hm.1.symm ?_
      rcases hc with h | h
      · right
        cases hps : p s with
        | none => rfl
        | some r => have := hp s r hps; rw [h] at this; simp at this
      · exact Or.inl h
    · rename_i hc
      have hi' : (if k = 0 then s else id s) = s := by split <;> rfl
      rw [hi'] at hm
      dsimp only at hm
      cases hps : p s with
      | none =>
        rw [hps] at hm
        simp only [Option.some.injEq, Prod.mk.injEq] at hm
        exact stop hm.2.symm hm.1.symm (Or.inr hps)
      | some r =>
        rw [hps] at hm
        dsimp only at hm
        have hlt := hp s r hps
        rw [if_pos hlt] at hm
        have hb' : ∀ b, hi = some b → k + 1 ≤ b := by
          intro b hbe
          have := hb b hbe
          rcases Nat.lt_or_ge k b with h | h
          · exact h
          · exact absurd (Or.inr (by rw [hbe]; congr 1; omega)) hc
        have ih := iter_head hf hp lo hi n (k + 1) fuel r s' k' hm hb' (by omega)
        have hle := manyLoop_le hi n (k + 1) r s' k' hm
        have e1 : lo - k - 1 = lo - (k + 1) := by omega
        have e2 : (hi.map (· - k)).map (· - 1) = hi.map (· - (k + 1)) := by rw [Option.map_map]; congr 1
        have hne : hi.map (· - k) ≠ some 0 := by
          intro h0
          cases hhi : hi with
          | none => rw [hhi] at h0; simp at h0
          | some b => rw [hhi] at h0; simp at h0; have := hb' b hhi; omega
        rw [iter, if_neg hne, hf, hps]
        simp only [Option.toList_some, List.flatMap_cons, List.flatMap_nil, List.append_nil, hlt, true_or, if_true]
        rw [e1, e2, List.head?_append, ih]
        by_cases h : lo ≤ k'
        · simp [h]
        · have h0 : lo - k ≠ 0 := by omega
          simp [h, h0]

/-- As many characters as there are, at most `hi`. -/
def runOf (ok : Char → Bool) (hi : Option Nat) (s : List Char) : List Char :=
  match hi with
  | none => s.takeWhile ok
  | some h => (s.takeWhile ok).take h

theorem runOf_step (ok : Char → Bool) {hi : Option Nat} {k : Nat} {c : Char} (hc : ok c = true) (r : List Char) (hk : ∀ b, hi = some b → k + 1 ≤ b) :
    runOf ok (hi.map (· - k)) (c :: r) = c :: runOf ok (hi.map (· - (k + 1))) r := by
  cases hi with
  | none => simp [runOf, hc]
  | some b =>
    have := hk b rfl
    have e : b - k = (b - (k + 1)) + 1 := by omega
    simp only [runOf, Option.map_some, e, List.takeWhile_cons, hc, if_true, List.take_succ_cons]

theorem manyLoop_char (inc exc : List Char) (hi : Option Nat) : ∀ (n k : Nat) (s : List Char), s.length < n → (∀ b, hi = some b → k ≤ b) →
    manyLoop ((PE.char inc exc).parse id) id hi n k s = some (k + (runOf (charOk inc exc) (hi.map (· - k)) s).length, s.drop (runOf (charOk inc exc) (hi.map (· - k)) s).length)
  | 0, _, _, h, _ => by omega
  | n + 1, k, s, hn, hb => by
    rw [manyLoop]
    have hi' : (if k = 0 then s else id s) = s := by split <;> rfl
    rw [hi']
    dsimp only
    split
    · rename_i hc
      have : runOf (charOk inc exc) (hi.map (· - k)) s = [] := by
        rcases hc with h | h
        · subst h; cases hi <;> simp [runOf]
        · subst h; simp [runOf]
      simp [this]
    · rename_i hc
      cases s with
      | nil => exact absurd (Or.inl rfl) hc
      | cons c r =>
        by_cases hok : charOk inc exc c = true
        · have hb' : ∀ b, hi = some b → k + 1 ≤ b := by
            intro b hbe
            have := hb b hbe
            rcases Nat.lt_or_ge k b with h | h
            · exact h
            · exact absurd (Or.inr (by rw [hbe]; congr 1; omega)) hc
          have ih := manyLoop_char inc exc hi n (k + 1) r (by simpa using hn) hb'
          have hp : (PE.char inc exc).parse id (c :: r) = if charOk inc exc c = true then some r else none := rfl
          rw [hp, if_pos hok]
          dsimp only
          rw [if_pos (by simp), ih, runOf_step _ hok r hb']
          simp only [List.length_cons, List.drop_succ_cons]
          congr 2
          omega
        · have : runOf (charOk inc exc) (hi.map (· - k)) (c :: r) = [] := by cases hi <;> simp [runOf, hok]
          have hp : (PE.char inc exc).parse id (c :: r) = if charOk inc exc c = true then some r else none := rfl
          rw [hp, if_neg hok, this]
          simp

/-- What a repetition of characters finds. -/
def runParse (ok : Char → Bool) (lo : Nat) (hi : Option Nat) (s : List Char) : Option (List Char) :=
  if lo ≤ (runOf ok hi s).length then some (s.drop (runOf ok hi s).length) else none

theorem many_char_parse (inc exc : List Char) (lo : Nat) (hi : Option Nat) (s : List Char) : (PE.many (.char inc exc) lo hi).parse id s = runParse (charOk inc exc) lo hi s := by
  have := manyLoop_char inc exc hi (s.length + 1) 0 s (by omega) (fun _ _ => Nat.zero_le _)
  have e : hi.map (· - 0) = hi := by cases hi <;> simp
  rw [e] at this
  have hp : (PE.many (.char inc exc) lo hi).parse id s =
      match manyLoop ((PE.char inc exc).parse id) id hi (s.length + 1) 0 s with
      | none => none
      | some (k, s') => if lo ≤ k then some s' else none := rfl
  rw [hp, this]
  simp [runParse]

theorem char_toList (inc exc : List Char) (s : List Char) : (PE.char inc exc).meaning s = ((PE.char inc exc).parse id s).toList := by
  cases s with
  | nil => simp [PE.meaning, PE.parse]
  | cons c r => by_cases h : charOk inc exc c = true <;> simp [PE.meaning, PE.parse, h]

theorem char_lt (inc exc : List Char) (s s' : List Char) (h : (PE.char inc exc).parse id s = some s') : s'.length < s.length := by
  cases s with
  | nil => simp [PE.parse] at h
  | cons c r =>
    simp only [PE.parse] at h
    split at h
    · cases h; simp
    · cases h

theorem many_char_head (inc exc : List Char) (lo : Nat) (hi : Option Nat) (s : List Char) : ((PE.many (.char inc exc) lo hi).meaning s).head? = (PE.many (.char inc exc) lo hi).parse id s := by
  have hm := manyLoop_char inc exc hi (s.length + 1) 0 s (by omega) (fun _ _ => Nat.zero_le _)
  have hh := iter_head (char_toList inc exc) (char_lt inc exc) lo hi (s.length + 1) 0 (s.length + lo + 1) s _ _ hm (fun _ _ => Nat.zero_le _) (by omega)
  have e : hi.map (· - 0) = hi := by cases hi <;> simp
  rw [e] at hm hh
  have hp : (PE.many (.char inc exc) lo hi).parse id s =
      match manyLoop ((PE.char inc exc).parse id) id hi (s.length + 1) 0 s with
      | none => none
      | some (k, s') => if lo ≤ k then some s' else none := rfl
  have hme : (PE.many (.char inc exc) lo hi).meaning s = if lo = 1 ∧ hi = some 1 then (PE.char inc exc).meaning s else iter (PE.char inc exc).meaning (s.length + lo + 1) lo hi s := rfl
  rw [hp, hme, hm]
  split
  · rename_i h11
    obtain ⟨rfl, rfl⟩ := h11
    cases s with
    | nil => simp [runOf, PE.meaning]
    | cons c r => by_cases h : charOk inc exc c = true <;> simp [runOf, PE.meaning, h]
  · simpa using hh

theorem plain_head : ∀ (e : PE), e.Good → e.Plain → ∀ s, (e.meaning s).head? = e.parse id s
  | .char inc exc, _, _, s => (lead_same (.char inc exc) trivial s).1
  | .lit l, _, _, s => (lead_same (.lit l) trivial s).1
  | .key l u i, _, _, s => (lead_same (.key l u i) trivial s).1
  | .and a b, hg, h, s => by
    obtain ⟨h1, h2⟩ := lead_same a h.1 s
    simp only [PE.meaning, PE.parse]
    cases ha : a.parse id s with
    | none =>
      rw [ha] at h1
      rw [List.head?_eq_none_iff] at h1
      simp [h1]
    | some r =>
      rw [ha] at h1 h2
      have h2' : ∀ x ∈ a.meaning s, x = r := fun x hx => by have := h2 x hx; simpa using this.symm
      have h3 := plain_head b hg.2 h.2 r
      have e : b.parse id (if r.length < s.length then id r else r) = b.parse id r := by split <;> rfl
      dsimp only
      rw [e]
      cases hm : a.meaning s with
      | nil => rw [hm] at h1; simp at h1
      | cons y l =>
        rw [hm] at h1 h2'
        simp only [List.head?_cons, Option.some.injEq] at h1
        subst h1
        rw [List.flatMap_cons, List.head?_append, h3]
        cases hb : b.parse id y with
        | some q => simp
        | none =>
          have : b.meaning y = [] := by rw [hb] at h3; exact List.head?_eq_none_iff.1 h3
          simp only [Option.none_or, List.head?_eq_none_iff, List.flatMap_eq_nil_iff]
          intro x hx
          rw [h2' x (by simp [hx]), this]
  | .first a b, hg, h, s => by
    simp only [PE.meaning, PE.parse]
    rw [List.head?_append, plain_head a hg.1 h.1, plain_head b hg.2 h.2]
    cases a.parse id s <;> rfl
  | .many (.char inc exc) lo hi, _, _, s => many_char_head inc exc lo hi s
  | .no e, hg, _, s => by
    simp only [PE.parse]
    rw [compile_no (e := e) hg]
    have hd : (Re.ahead true (closeAlts e.alts)).den s = (PE.no e).meaning s := den_meaning (.no e) hg s
    dsimp only
    rw [hd]
    simp only [PE.meaning]
    by_cases h : (e.meaning s).isEmpty = true <;> simp [h]
  | .ahead e, hg, h, s => by
    have ih := plain_head e hg h s
    simp only [PE.parse, PE.meaning]
    rw [← ih]
    cases e.meaning s <;> rfl

end EulerDB.Regex
