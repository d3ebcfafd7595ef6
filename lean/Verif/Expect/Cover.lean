/-
C93: `Regex` parsers.  The keys come from the parser that is read from the pattern, the match from Python's regular expression.
-/
import Verif.Expect.Keys

namespace EulerDB.Expect

open EulerDB EulerDB.Regex
open EulerDB.Choice (Casing Key matches' pattern)

/-! ### Every match begins with a key -/

def stackDen : List Re → List Char → List (List Char)
  | [], s => [s]
  | r :: st, s => (r.den s).flatMap (stackDen st)

theorem iter_first {f : List Char → List (List Char)} {n lo : Nat} {hi : Option Nat} {s s' : List Char} (h : s' ∈ iter f n lo hi s) : (lo = 0 ∧ s' = s) ∨ ∃ s1, s1 ∈ f s := by
  cases n with
  | zero => simp [iter] at h
  | succ n =>
    simp only [iter, List.mem_append] at h
    rcases h with h | h
    · split at h
      · cases h
      · obtain ⟨s1, h1, _⟩ := List.mem_flatMap.1 h
        exact Or.inr ⟨s1, h1⟩
    · split at h
      · rename_i h0
        exact Or.inl ⟨h0, by simpa using h⟩
      · cases h

theorem mem_charsOf {a b c : Char} (h : inItem c (a, b) = true) : c ∈ charsOf a b := by
  simp only [inItem, Bool.and_eq_true, decide_eq_true_eq] at h
  unfold charsOf
  rw [List.mem_map]
  refine ⟨c.toNat - a.toNat, List.mem_range.2 (by omega), ?_⟩
  rw [Nat.add_sub_cancel' h.1]
  exact Char.ofNat_toNat c

theorem mem_strip {c : Char} {ks : List Key} {k : Key} (h : k ∈ strip c ks) : c :: k ∈ ks := by
  unfold strip at h
  rw [List.mem_filterMap] at h
  obtain ⟨j, hj, e⟩ := h
  cases j with
  | nil => cases e
  | cons d r =>
    dsimp only at e
    split at e
    · rename_i hd
      simp only [Option.some.injEq] at e
      rw [← e, ← hd]; exact hj
    · cases e

theorem covers_sound : ∀ (n : Nat) {ks : List Key} {st : List Re}, covers n ks st = true → ∀ {s s' : List Char}, s' ∈ stackDen st s → ∃ k ∈ ks, k <+: s
  | 0, _, _, h, _, _, _ => by simp [covers] at h
  | n + 1, ks, st, h, s, s', hs => by
    unfold covers at h
    split at h
    · rename_i he
      exact ⟨[], he, List.nil_prefix⟩
    · match st with
      | [] => simp at h
      | .eps :: st =>
        simp only [stackDen, Re.den, List.flatMap_cons, List.flatMap_nil, List.append_nil] at hs
        exact covers_sound n h hs
      | .set neg items :: st =>
        simp only [Bool.and_eq_true, Bool.not_eq_true', List.all_eq_true] at h
        obtain ⟨hneg, h⟩ := h
        subst hneg
        cases s with
        | nil => simp [stackDen, Re.den] at hs
        | cons c r =>
          simp only [stackDen, Re.den] at hs
          split at hs
          · simp at hs
          · rename_i hc
            rw [Bool.not_eq_false, List.any_eq_true] at hc
            obtain ⟨p, hp, hin⟩ := hc
            simp only [List.flatMap_cons, List.flatMap_nil, List.append_nil] at hs
            obtain ⟨k, hk, hpre⟩ := covers_sound n (h p hp c (mem_charsOf hin)) hs
            exact ⟨c :: k, mem_strip hk, List.cons_prefix_cons.2 ⟨rfl, hpre⟩⟩
      | .any :: st => simp at h
      | .seq a b :: st =>
        refine covers_sound n h (s' := s') ?_
        simp only [stackDen, Re.den, List.flatMap_assoc] at hs ⊢
        exact hs
      | .alt a b :: st =>
        simp only [Bool.and_eq_true] at h
        simp only [stackDen, Re.den, List.flatMap_append, List.mem_append] at hs
        rcases hs with hs | hs
        · exact covers_sound n h.1 hs
        · exact covers_sound n h.2 hs
      | .rep lo hi r :: st =>
        simp only [Bool.and_eq_true, Bool.or_eq_true, decide_eq_true_eq] at h
        simp only [stackDen, Re.den] at hs
        obtain ⟨s1, h1, h2⟩ := List.mem_flatMap.1 hs
        rcases iter_first h1 with ⟨rfl, rfl⟩ | ⟨s2, h3⟩
        · rcases h.1 with h0 | h0
          · exact absurd rfl h0
          · exact covers_sound n h0 h2
        · refine covers_sound n h.2 (s' := s2) ?_
          simp only [stackDen]
          exact List.mem_flatMap.2 ⟨s2, h3, by simp⟩
      | .ahead neg r :: st =>
        simp only [stackDen, Re.den] at hs
        split at hs
        · simp only [List.flatMap_cons, List.flatMap_nil, List.append_nil] at hs
          exact covers_sound n h hs
        · simp at hs
      | .eot :: st =>
        simp only [stackDen, Re.den] at hs
        split at hs
        · simp only [List.flatMap_cons, List.flatMap_nil, List.append_nil] at hs
          exact covers_sound n h hs
        · simp at hs

theorem covers_den {n : Nat} {ks : List Key} {r : Re} (h : covers n ks [r] = true) {s s' : List Char} (hs : s' ∈ r.den s) : ∃ k ∈ ks, k <+: s := by
  refine covers_sound n h (s' := s') ?_
  simp only [stackDen]
  exact List.mem_flatMap.2 ⟨s', hs, by simp⟩

/-! ### The shortest match -/

/-- A lower bound of what a regular expression takes. -/
def reMin : Re → Nat
  | .eps => 0
  | .set _ _ => 1
  | .any => 1
  | .seq a b => reMin a + reMin b
  | .alt a b => min (reMin a) (reMin b)
  | .rep lo _ r => lo * reMin r
  | .ahead _ _ => 0
  | .eot => 0

theorem iter_length {f : List Char → List (List Char)} {m : Nat} (hf : ∀ {s s'}, s' ∈ f s → m + s'.length ≤ s.length) :
    ∀ {n lo : Nat} {hi : Option Nat} {s s' : List Char}, s' ∈ iter f n lo hi s → lo * m + s'.length ≤ s.length
  | 0, _, _, _, _, h => by simp [iter] at h
  | n + 1, lo, hi, s, s', h => by
    simp only [iter, List.mem_append] at h
    rcases h with h | h
    · split at h
      · cases h
      · obtain ⟨s1, h1, h2⟩ := List.mem_flatMap.1 h
        split at h2
        · have h3 := iter_length hf h2
          have h4 := hf h1
          cases lo with
          | zero => simp only [Nat.zero_sub, Nat.zero_mul] at h3 ⊢; omega
          | succ lo =>
            simp only [Nat.add_sub_cancel] at h3
            rw [Nat.succ_mul]
            omega
        · cases h2
    · split at h
      · rename_i h0
        simp only [List.mem_singleton] at h
        subst h0; subst h
        simp
      · cases h

theorem den_length : ∀ {r : Re} {s s' : List Char}, s' ∈ r.den s → reMin r + s'.length ≤ s.length
  | .eps, s, s', h => by
    simp only [Re.den, List.mem_singleton] at h
    subst h; simp [reMin]
  | .set neg items, s, s', h => by
    cases s with
    | nil => simp [Re.den] at h
    | cons c r =>
      simp only [Re.den] at h
      split at h
      · cases h
      · simp only [List.mem_singleton] at h
        subst h; simp [reMin, Nat.add_comm]
  | .any, s, s', h => by
    cases s with
    | nil => simp [Re.den] at h
    | cons c r =>
      simp only [Re.den, List.mem_singleton] at h
      subst h; simp [reMin, Nat.add_comm]
  | .seq a b, s, s', h => by
    simp only [Re.den] at h
    obtain ⟨s1, h1, h2⟩ := List.mem_flatMap.1 h
    have := den_length h1
    have := den_length h2
    simp only [reMin]; omega
  | .alt a b, s, s', h => by
    simp only [Re.den, List.mem_append] at h
    simp only [reMin]
    rcases h with h | h
    · have := den_length h; omega
    · have := den_length h; omega
  | .rep lo hi r, s, s', h => iter_length (fun h => den_length h) h
  | .ahead neg r, s, s', h => by
    simp only [Re.den] at h
    split at h
    · simp only [List.mem_singleton] at h
      subst h; simp [reMin]
    · cases h
  | .eot, s, s', h => by
    simp only [Re.den] at h
    split at h
    · simp only [List.mem_singleton] at h
      subst h; simp [reMin]
    · cases h

/-! ### `Regex` -/

/-- A `Regex`: the parser that gives the keys, and the expression that finds. -/
structure Rx where
  expr : PE
  regex : Re

/-- `Regex(pattern)`, regex.py 274-283. -/
def Rx.make (digits p : List Char) : Option Rx :=
  match translate p, pyRe digits p with
  | some (e, _), some r => some ⟨e, r⟩
  | _, _ => none

/-- `Regex.parse_impl`, 337-342. -/
def Rx.parse (x : Rx) (s : List Char) : Option (List Char) := matchRe x.regex s

/-- **C93, regular expressions**: if the keys of the parser cover the expression, it matches only where a key stands. -/
theorem C93_regex_partial {cs : Casing} {n : Nat} {x : Rx} (h : covers n (keys cs x.expr) [x.regex] = true) {s s' : List Char} (hs : x.parse s = some s') :
    ∃ k ∈ keys cs x.expr, k <+: s :=
  covers_den h (List.mem_of_mem_head? hs)

/-- **C93, the length of the matches of a regular expression.** -/
theorem C93_regex_min_partial {x : Rx} (h : minLen x.expr ≤ reMin x.regex) {s s' : List Char} (hs : x.parse s = some s') : minLen x.expr + s'.length ≤ s.length := by
  have := den_length (List.mem_of_mem_head? hs)
  omega

open EulerDB.Choice (Keyed Ordered choose faster expectingOf Fit)

/-- **C93, alternatives of regular expressions**: the table finds what trying them one after the other finds. -/
theorem C93_regex_choice_partial {cs : Casing} (t : List Char) (xs : List Rx) (n : Nat) (hc : ∀ x ∈ xs, covers n (keys cs x.expr) [x.regex] = true)
    (hf : ∀ x ∈ xs, ∀ k ∈ keys cs x.expr, k ≠ [] ∧ Fit cs k) (ho : ∀ x ∈ xs, ∀ k ∈ keys cs x.expr, ∀ c ∈ k, Own cs c) (hord : Ordered (fun x => keys cs x.expr) xs) :
    choose cs (fun x => x.parse t) t (faster (expectingOf fun x => keys cs x.expr) xs) = .ok (Choice.first (fun x => x.parse t) xs) := by
  refine Choice.C89_first_partial xs ?_ hord
  intro x hx
  refine ⟨nodup_keys cs x.expr, hf x hx, ?_⟩
  intro _ hr
  cases hp : x.parse t with
  | none => exact absurd hp hr
  | some s' =>
    obtain ⟨k, hk, u, rfl⟩ := C93_regex_partial (hc x hx) hp
    exact ⟨k, hk, matches_self (ho x hx k hk) u⟩

/-! ### The patterns of the SQL grammar -/

def floatText : List Char := "[+-]?(\\d+\\.\\d*|\\.\\d+)([eE][+-]?\\d+)?".toList
def intText : List Char := "[+-]?\\d+([eE]\\+?\\d+)?".toList
def hexText : List Char := "0x[0-9a-fA-F]+".toList
def ansiText : List Char := "\\'(\\'\\'|[^'])*\\'".toList
def doubleText : List Char := "\\\"(\\\"\\\"|[^\"])*\\\"".toList
def backText : List Char := "\\`(\\`\\`|[^`])*\\`".toList
def serverText : List Char := "\\[(\\]\\]|[^\\]])*\\]".toList

/-- sql_parsing/utils.py 592-617. -/
def sqlTexts : List (List Char) := [ansiText, doubleText, backText, serverText, hexText, floatText, intText]

/-- `\d`, as far as ASCII goes. -/
def ascii : List Char := ['0', '-', '9']

/-- What is checked of a pattern. -/
def checked (p : List Char) : Bool :=
  match translate p, pyRe ascii p with
  | some (e, rest), some r => rest.isEmpty && covers 12 (keys Choice.english e) [r] && decide (minLen e ≤ reMin r)
  | _, _ => false

theorem sql_checked : sqlTexts.all checked = true := by decide +kernel

/-- **C93, the SQL grammar**: its patterns are read to the end; what they match begins with one of the keys and is as long as `min_length` says. -/
theorem C93_sql {p : List Char} (hp : p ∈ sqlTexts) : ∃ x, Rx.make ascii p = some x ∧ translate p = some (x.expr, []) ∧
    ∀ s s', s' ∈ x.regex.den s → (∃ k ∈ keys Choice.english x.expr, k <+: s) ∧ minLen x.expr + s'.length ≤ s.length := by
  have h := List.all_eq_true.1 sql_checked p hp
  unfold checked at h
  unfold Rx.make
  cases ht : translate p with
  | none => rw [ht] at h; cases h
  | some y =>
    obtain ⟨e, rest⟩ := y
    cases hr : pyRe ascii p with
    | none => rw [ht, hr] at h; cases h
    | some r =>
      rw [ht, hr] at h
      simp only [Bool.and_eq_true, List.isEmpty_iff, decide_eq_true_eq] at h
      obtain ⟨⟨h1, h2⟩, h3⟩ := h
      subst h1
      refine ⟨⟨e, r⟩, rfl, rfl, ?_⟩
      intro s s' hs
      refine ⟨covers_den h2 hs, ?_⟩
      have h4 : reMin r + s'.length ≤ s.length := den_length hs
      dsimp only
      omega

/-- The strings, quoted names and numbers of the SQL grammar. -/
def sqlRx : List Rx := sqlTexts.filterMap (Rx.make ascii)

theorem own_english {c : Char} (h : decide (Choice.english.lc c = [c] ∧ Choice.english.lc c.toUpper = [c]) = true) : Own Choice.english c := by
  simp only [decide_eq_true_eq] at h
  exact ⟨c, c.toUpper, h.1, rfl, h.1, rfl, Or.inl rfl⟩

theorem fit_english {c : Char} (h : decide (Choice.english.lc c = [c] ∧ Choice.english.lc c.toUpper = [c]) = true) : Choice.FitChar Choice.english c := by
  simp only [decide_eq_true_eq] at h
  exact ⟨h.1, c.toUpper, rfl, h.2⟩

/-- The keys of a parser are not empty, and of characters whose cases go together. -/
def keysB (x : Rx) : Bool := (keys Choice.english x.expr).all fun k => !k.isEmpty && k.all fun c => decide (Choice.english.lc c = [c] ∧ Choice.english.lc c.toUpper = [c])

/-- **C93, the SQL grammar, alternatives**: strings, quoted names and numbers as alternatives; the table finds what trying them one after the other finds, for every text. -/
theorem C93_sql_choice (t : List Char) :
    choose Choice.english (fun x => x.parse t) t (faster (expectingOf fun x => keys Choice.english x.expr) sqlRx) = .ok (Choice.first (fun x => x.parse t) sqlRx) := by
  have hk : sqlRx.all keysB = true := by decide +kernel
  have hc : sqlRx.all (fun x => covers 12 (keys Choice.english x.expr) [x.regex]) = true := by decide +kernel
  rw [List.all_eq_true] at hk hc
  have hk' : ∀ x ∈ sqlRx, ∀ k ∈ keys Choice.english x.expr, k ≠ [] ∧ ∀ c ∈ k, decide (Choice.english.lc c = [c] ∧ Choice.english.lc c.toUpper = [c]) = true := by
    intro x hx k hkk
    have := hk x hx
    unfold keysB at this
    rw [List.all_eq_true] at this
    have := this k hkk
    rw [Bool.and_eq_true, List.all_eq_true] at this
    refine ⟨?_, this.2⟩
    intro e
    rw [e] at this
    simp at this
  refine C93_regex_choice_partial t sqlRx 12 hc ?_ ?_ ?_
  · intro x hx k hkk
    exact ⟨(hk' x hx k hkk).1, fun c hcc => fit_english ((hk' x hx k hkk).2 c hcc)⟩
  · intro x hx k hkk c hcc
    exact own_english ((hk' x hx k hkk).2 c hcc)
  · exact Choice.ordered_of (by decide +kernel)

/-- There are seven of them, and there is a table. -/
example : sqlRx.length = 7 ∧ (faster (expectingOf fun x => keys Choice.english x.expr) sqlRx).length = 1 := by decide +kernel

end EulerDB.Expect
