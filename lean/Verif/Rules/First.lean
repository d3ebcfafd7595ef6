/-
The first word of a statement is a token.
-/
import Verif.Rules.Lexed

namespace EulerDB.Rules

open EulerDB.Lex EulerDB.Group

/-! ### How far a rule can get on a known word -/

/-- The set has no letter of one case only. -/
def Set1.caseless : Set1 → Bool
  | .one c => !c.isAlpha
  | .or a b => a.caseless && b.caseless
  | .not a => a.caseless
  | _ => true

/-- Only characters that go on with a name, or a quote. -/
def Set1.nameLike : Set1 → Bool
  | .one c => asciiWord c || c == '$' || c == '#' || c == '\''
  | .lit c => c.isAlpha
  | .word | .letter | .digit => true
  | .or a b => a.nameLike && b.nameLike
  | _ => false

/-- The places a repetition can end; the places are counted from the beginning of the word, `n + 1` is anywhere past it. -/
def reachStar (step : Nat → List Nat) : Nat → Nat → List Nat
  | 0, i => [i]
  | m + 1, i => i :: (step i).flatMap fun j => if i < j then reachStar step m j else []

/-- The places a match of the expression that begins at `i` can end in the word `w`, written in capitals, which is
followed by no character of a name and preceded by blanks. -/
def Re.reach (w : List Char) (r : Re) (i : Nat) : List Nat :=
  if w.length < i then [i]
  else
    match r with
    | .eps => [i]
    | .chr s => match w[i]? with
      | some c => if s.has ascii c || !s.caseless then [i + 1] else []
      | none => if s.nameLike then [] else [i + 1]
    | .seq a b => (a.reach w i).flatMap fun j => b.reach w j
    | .alt a b => a.reach w i ++ b.reach w i
    | .star a => reachStar (fun j => a.reach w j) (w.length + 1 - i) i
    | .lazy a => reachStar (fun j => a.reach w j) (w.length + 1 - i) i
    | .ahead a => if (a.reach w i).isEmpty then [] else [i]
    | .nahead _ => [i]
    | .behind s => if i = 0 && s == .one '.' then [] else [i]
    | .nbehind _ => [i]
    | .bound => if 0 < i && decide (i < w.length) then [] else [i]
    | .eot => if i < w.length then [] else [i]
    | .again a => if (a.reach w i).isEmpty then [] else List.range (w.length + 2)

/-- A property of ASCII characters, one by one. -/
theorem ascii_all {P : Char → Prop} (h : ∀ n < 128, P (Char.ofNat n)) {c : Char} (hc : c.toNat < 128) : P c := by
  have := h c.toNat hc
  rwa [Char.ofNat_toNat] at this

theorem alpha_ascii {c : Char} (h : c.isAlpha = true) : c.toNat < 128 := by
  simp only [Char.isAlpha, Char.isUpper, Char.isLower, Bool.or_eq_true, Bool.and_eq_true, decide_eq_true_eq, UInt32.le_iff_toNat_le, ge_iff_le] at h
  have : c.toNat = c.val.toNat := rfl
  rcases h with h | h
  · have : c.val.toNat ≤ 90 := h.2
    omega
  · have : c.val.toNat ≤ 122 := h.2
    omega

theorem alpha_facts {c : Char} (h : c.isAlpha = true) : c.toUpper.isAlpha = true ∧ c.toUpper.toUpper = c.toUpper ∧
    asciiSpace c = false ∧ asciiSpace c.toUpper = false ∧ c.isDigit = false ∧ c.toUpper.isDigit = false ∧
    asciiWord c = true ∧ asciiWord c.toUpper = true ∧ c ≠ '\'' ∧ c ≠ '`' ∧ c ≠ '"' :=
  ascii_all (P := fun c => c.isAlpha = true → c.toUpper.isAlpha = true ∧ c.toUpper.toUpper = c.toUpper ∧
    asciiSpace c = false ∧ asciiSpace c.toUpper = false ∧ c.isDigit = false ∧ c.toUpper.isDigit = false ∧
    asciiWord c = true ∧ asciiWord c.toUpper = true ∧ c ≠ '\'' ∧ c ≠ '`' ∧ c ≠ '"') (by decide +kernel) (alpha_ascii h) h

theorem Set1.has_upper {c : Char} (hc : c.isAlpha = true) : ∀ (s : Set1), s.caseless = true → s.has ascii c = s.has ascii c.toUpper := by
  obtain ⟨h1, h2, h3, h4, h5, h6, h7, h8, _⟩ := alpha_facts hc
  intro s
  induction s with
  | one d =>
    intro hs
    rw [caseless, Bool.not_eq_true'] at hs
    have n1 : c ≠ d := fun e => by rw [e, hs] at hc; cases hc
    have n2 : c.toUpper ≠ d := fun e => by rw [e, hs] at h1; cases h1
    simp [has, n1, n2]
  | lit d => intro _; simp only [has, ascii, h2]
  | word => intro _; simp only [has, ascii, h7, h8]
  | space => intro _; simp only [has, ascii, h3, h4]
  | letter => intro _; simp only [has, ascii, hc, h1]
  | digit => intro _; simp only [has, ascii, h5, h6]
  | any => intro _; rfl
  | or a b iha ihb =>
    intro hs
    rw [caseless, Bool.and_eq_true] at hs
    simp only [has, iha hs.1, ihb hs.2]
  | not a ih =>
    intro hs
    rw [caseless] at hs
    simp only [has, ih hs]

/-- A character that ends a name: ASCII, and none of `\w`, `$`, `#`, `'` and the dot. -/
def ender (d : Char) : Bool := decide (d.toNat < 128) && !(asciiWord d || d == '$' || d == '#' || d == '\'' || d == '.')

theorem Set1.nameLike_end {d : Char} (hd : ender d = true) : ∀ (s : Set1), s.nameLike = true → s.has ascii d = false := by
  simp only [ender, Bool.and_eq_true, decide_eq_true_eq, Bool.not_eq_true', Bool.or_eq_false_iff] at hd
  obtain ⟨hd, ⟨⟨⟨hw, h1⟩, h2⟩, h3⟩, _⟩ := hd
  have hu : d.toUpper.isAlpha = false ∧ d.isAlpha = false ∧ d.isDigit = false :=
    ascii_all (P := fun d => asciiWord d = false → d.toUpper.isAlpha = false ∧ d.isAlpha = false ∧ d.isDigit = false) (by decide +kernel) hd hw
  intro s
  induction s with
  | one c =>
    intro hs
    simp only [nameLike, Bool.or_eq_true, beq_iff_eq] at hs
    simp only [has, beq_eq_false_iff_ne]
    rintro rfl
    rcases hs with ((hs | hs) | hs) | hs
    · rw [hw] at hs; cases hs
    · rw [hs] at h1; cases h1
    · rw [hs] at h2; cases h2
    · rw [hs] at h3; cases h3
  | lit c =>
    intro hs
    simp only [nameLike] at hs
    simp only [has, ascii, beq_eq_false_iff_ne]
    intro e
    rw [e, hs] at hu
    cases hu.1
  | word => intro _; exact hw
  | letter => intro _; exact hu.2.1
  | digit => intro _; exact hu.2.2
  | or a b iha ihb =>
    intro hs
    rw [nameLike, Bool.and_eq_true] at hs
    rw [has, iha hs.1, ihb hs.2]
    rfl
  | _ => intro hs; cases hs

/-- Where a match is: at a place of the word, or somewhere past it. -/
def At (w b0 rest : List Char) (i : Nat) (b a : List Char) : Prop :=
  i ≤ w.length → b = (w.take i).reverse ++ b0 ∧ a = w.drop i ++ rest

theorem reachStar_sound {w b0 rest : List Char} {run : List Char → List Char → Then → Option Place} {step : Nat → List Nat} {greedy : Bool}
    (ht : ∀ n b a f z, repeated run greedy n b a f = some z → ∃ b' a', f b' a' = some z)
    (hs : ∀ i b a f z, At w b0 rest i b a → run b a f = some z → ∃ j ∈ step i, ∃ b' a', At w b0 rest j b' a' ∧ f b' a' = some z) :
    ∀ (n m i : Nat) (b a : List Char) (f : Then) (z : Place), i ≤ w.length → w.length + 1 - i ≤ m → At w b0 rest i b a →
      repeated run greedy n b a f = some z → ∃ j ∈ reachStar step m i, ∃ b' a', At w b0 rest j b' a' ∧ f b' a' = some z := by
  intro n
  induction n with
  | zero =>
    intro m i b a f z _ _ hat h
    refine ⟨i, ?_, b, a, hat, h⟩
    cases m with
    | zero => exact List.mem_singleton.2 rfl
    | succ m => rw [reachStar]; exact List.mem_cons_self ..
  | succ n ih =>
    intro m i b a f z hi hm hat h
    cases m with
    | zero => omega
    | succ m =>
      have stop : f b a = some z → ∃ j ∈ reachStar step (m + 1) i, ∃ b' a', At w b0 rest j b' a' ∧ f b' a' = some z :=
        fun h => ⟨i, by rw [reachStar]; exact List.mem_cons_self .., b, a, hat, h⟩
      have more : (run b a fun b' a' => if a'.length < a.length then repeated run greedy n b' a' f else none) = some z →
          ∃ j ∈ reachStar step (m + 1) i, ∃ b' a', At w b0 rest j b' a' ∧ f b' a' = some z := by
        intro h
        obtain ⟨j, hj, b', a', hat', h⟩ := hs _ _ _ _ _ hat h
        split at h
        · rename_i hlt
          have hij : i < j := by
            by_contra hno
            have h1 := (hat hi).2
            have h2 := (hat' (by omega)).2
            rw [h1, h2] at hlt
            simp only [List.length_append, List.length_drop] at hlt
            omega
          by_cases hjw : j ≤ w.length
          · obtain ⟨j', hj', hh⟩ := ih m j b' a' f z hjw (by omega) hat' h
            refine ⟨j', ?_, hh⟩
            rw [reachStar]
            exact List.mem_cons_of_mem _ (List.mem_flatMap.2 ⟨j, hj, by rw [if_pos hij]; exact hj'⟩)
          · -- past the word
            obtain ⟨b'', a'', h'⟩ := ht _ _ _ _ _ h
            refine ⟨j, ?_, b'', a'', fun hh => absurd hh hjw, h'⟩
            rw [reachStar]
            refine List.mem_cons_of_mem _ (List.mem_flatMap.2 ⟨j, hj, ?_⟩)
            rw [if_pos hij]
            cases m with
            | zero => exact List.mem_singleton.2 rfl
            | succ m => rw [reachStar]; exact List.mem_cons_self ..
        · cases h
      rw [repeated] at h
      cases greedy with
      | true =>
        simp only [if_true] at h
        split at h
        · rename_i r hr
          cases h
          exact more hr
        · exact stop h
      | false =>
        simp only [Bool.false_eq_true, if_false] at h
        split at h
        · rename_i r hr
          cases h
          exact stop hr
        · exact more h

theorem ender_facts {d : Char} (hd : ender d = true) : d.toNat < 128 ∧ asciiWord d = false ∧ d ≠ '.' := by
  simp only [ender, Bool.and_eq_true, decide_eq_true_eq, Bool.not_eq_true', Bool.or_eq_false_iff] at hd
  exact ⟨hd.1, hd.2.1.1.1.1, by simpa using hd.2.2⟩

theorem get_upper {w : List Char} {i : Nat} {c : Char} (h : w[i]? = some c) : (w.map Char.toUpper)[i]? = some c.toUpper := by
  rw [List.getElem?_map, h]; rfl

/-- The places are right: if a match succeeds, it ends in one of them. -/
theorem Re.reach_sound {k : Classes} (hk : k.Ok) {w b0 rest : List Char} (hw : ∀ c ∈ w, c.isAlpha = true)
    (hr : ∀ d ∈ rest.head?, ender d = true) (hb : headIs (· == '.') b0 = false) :
    ∀ (r : Re) (i : Nat) (b a : List Char) (f : Then) (z : Place), At w b0 rest i b a → r.run k b a f = some z →
      ∃ j ∈ r.reach (w.map Char.toUpper) i, ∃ b' a', At w b0 rest j b' a' ∧ f b' a' = some z := by
  intro r
  have hlen : (w.map Char.toUpper).length = w.length := List.length_map ..
  have past : ∀ (r : Re) (i : Nat) (b a : List Char) (f : Then) (z : Place), w.length < i → r.run k b a f = some z →
      ∃ j ∈ r.reach (w.map Char.toUpper) i, ∃ b' a', At w b0 rest j b' a' ∧ f b' a' = some z := by
    intro r i b a f z hi h
    obtain ⟨v, a', t⟩ := r.took k _ _ _ _ h
    refine ⟨i, ?_, _, _, fun hh => by omega, t.then'⟩
    rw [reach.eq_def, if_pos (by rw [hlen]; exact hi)]
    exact List.mem_singleton.2 rfl
  have rep : ∀ (r : Re) (g : Bool) (n : Nat) (b a : List Char) (f : Then) (z : Place), repeated (r.run k) g n b a f = some z →
      ∃ b' a', f b' a' = some z := by
    intro r g n b a f z h
    obtain ⟨v, a', t⟩ := repeated_took (r.took k) g n b a f z h
    exact ⟨_, _, t.then'⟩
  induction r with
  | eps =>
    intro i b a f z hat h
    by_cases hi : w.length < i
    · exact past _ _ _ _ _ _ hi h
    · exact ⟨i, by rw [reach, if_neg (by rw [hlen]; exact hi)]; exact List.mem_singleton.2 rfl, b, a, hat, h⟩
  | chr s =>
    intro i b a f z hat h
    by_cases hi : w.length < i
    · exact past _ _ _ _ _ _ hi h
    · obtain ⟨e1, e2⟩ := hat (by omega)
      cases hg : w[i]? with
      | some c =>
        have hil : i < w.length := by
          rw [List.getElem?_eq_some_iff] at hg
          exact hg.1
        have hd : w.drop i = c :: w.drop (i + 1) := by
          rw [List.getElem?_eq_some_iff] at hg
          obtain ⟨_, rfl⟩ := hg
          exact List.drop_eq_getElem_cons hil
        have hc : c.isAlpha = true := hw c (List.mem_of_getElem? hg)
        rw [e2, hd, List.cons_append, run] at h
        split at h
        · rename_i hs
          refine ⟨i + 1, ?_, _, _, ?_, h⟩
          · rw [reach, if_neg (by rw [hlen]; exact hi)]
            simp only [get_upper hg]
            rw [if_pos]
            · exact List.mem_singleton.2 rfl
            · rw [Bool.or_eq_true, Bool.not_eq_true']
              cases hcl : s.caseless with
              | false => exact .inr rfl
              | true =>
                left
                rw [← Set1.has_upper hc s hcl, ← Set1.has_ascii hk s (alpha_ascii hc)]
                exact hs
          · intro _
            refine ⟨?_, rfl⟩
            rw [e1, List.take_add_one, hg]
            simp
        · cases h
      | none =>
        have hge : w.length ≤ i := by rwa [List.getElem?_eq_none_iff] at hg
        rw [e2, List.drop_of_length_le hge, List.nil_append] at h
        cases rest with
        | nil => rw [run] at h; cases h
        | cons d t =>
          rw [run] at h
          split at h
          · rename_i hs
            refine ⟨i + 1, ?_, _, _, fun hh => by omega, h⟩
            rw [reach, if_neg (by rw [hlen]; exact hi)]
            have : (w.map Char.toUpper)[i]? = none := by rw [List.getElem?_map, hg]; rfl
            simp only [this]
            have hd := hr d rfl
            rw [Set1.has_ascii hk s (ender_facts hd).1] at hs
            rw [if_neg]
            · exact List.mem_singleton.2 rfl
            · intro hn
              rw [s.nameLike_end hd hn] at hs
              cases hs
          · cases h
  | seq x y ihx ihy =>
    intro i b a f z hat h
    by_cases hi : w.length < i
    · exact past _ _ _ _ _ _ hi h
    · rw [run] at h
      obtain ⟨j, hj, b', a', hat', h'⟩ := ihx _ _ _ _ _ hat h
      obtain ⟨j', hj', hh⟩ := ihy _ _ _ _ _ hat' h'
      refine ⟨j', ?_, hh⟩
      rw [reach, if_neg (by rw [hlen]; exact hi)]
      exact List.mem_flatMap.2 ⟨j, hj, hj'⟩
  | alt x y ihx ihy =>
    intro i b a f z hat h
    by_cases hi : w.length < i
    · exact past _ _ _ _ _ _ hi h
    · rw [run] at h
      rw [reach, if_neg (by rw [hlen]; exact hi)]
      split at h
      · rename_i r hr
        cases h
        obtain ⟨j, hj, hh⟩ := ihx _ _ _ _ _ hat hr
        exact ⟨j, List.mem_append_left _ hj, hh⟩
      · obtain ⟨j, hj, hh⟩ := ihy _ _ _ _ _ hat h
        exact ⟨j, List.mem_append_right _ hj, hh⟩
  | star x ih =>
    intro i b a f z hat h
    by_cases hi : w.length < i
    · exact past _ _ _ _ _ _ hi h
    · rw [run] at h
      rw [reach, if_neg (by rw [hlen]; exact hi)]
      exact reachStar_sound (rep x true) ih _ _ i b a f z (by omega) (by rw [hlen]; omega) hat h
  | lazy x ih =>
    intro i b a f z hat h
    by_cases hi : w.length < i
    · exact past _ _ _ _ _ _ hi h
    · rw [run] at h
      rw [reach, if_neg (by rw [hlen]; exact hi)]
      exact reachStar_sound (rep x false) ih _ _ i b a f z (by omega) (by rw [hlen]; omega) hat h
  | ahead x ih =>
    intro i b a f z hat h
    by_cases hi : w.length < i
    · exact past _ _ _ _ _ _ hi h
    · rw [run] at h
      split at h
      · rename_i hx
        obtain ⟨z', hz'⟩ := Option.isSome_iff_exists.1 hx
        obtain ⟨j, hj, _⟩ := ih _ _ _ _ _ hat hz'
        refine ⟨i, ?_, b, a, hat, h⟩
        rw [reach, if_neg (by rw [hlen]; exact hi), if_neg]
        · exact List.mem_singleton.2 rfl
        · intro he
          rw [List.isEmpty_iff] at he
          rw [he] at hj
          cases hj
      · cases h
  | nahead x =>
    intro i b a f z hat h
    by_cases hi : w.length < i
    · exact past _ _ _ _ _ _ hi h
    · rw [run] at h
      split at h
      · cases h
      · exact ⟨i, by rw [reach, if_neg (by rw [hlen]; exact hi)]; exact List.mem_singleton.2 rfl, b, a, hat, h⟩
  | behind s =>
    intro i b a f z hat h
    by_cases hi : w.length < i
    · exact past _ _ _ _ _ _ hi h
    · rw [run] at h
      split at h
      · rename_i hs
        refine ⟨i, ?_, b, a, hat, h⟩
        rw [reach, if_neg (by rw [hlen]; exact hi), if_neg]
        · exact List.mem_singleton.2 rfl
        · intro hc
          rw [Bool.and_eq_true, decide_eq_true_eq, beq_iff_eq] at hc
          obtain ⟨rfl, rfl⟩ := hc
          have e := (hat (Nat.zero_le _)).1
          rw [List.take_zero, List.reverse_nil, List.nil_append] at e
          rw [e] at hs
          have : headIs (Set1.has k (.one '.')) b0 = headIs (· == '.') b0 := rfl
          rw [this, hb] at hs
          cases hs
      · cases h
  | nbehind s =>
    intro i b a f z hat h
    by_cases hi : w.length < i
    · exact past _ _ _ _ _ _ hi h
    · rw [run] at h
      split at h
      · cases h
      · exact ⟨i, by rw [reach, if_neg (by rw [hlen]; exact hi)]; exact List.mem_singleton.2 rfl, b, a, hat, h⟩
  | bound =>
    intro i b a f z hat h
    by_cases hi : w.length < i
    · exact past _ _ _ _ _ _ hi h
    · rw [run] at h
      split at h
      · cases h
      · rename_i hbd
        refine ⟨i, ?_, b, a, hat, h⟩
        rw [reach, if_neg (by rw [hlen]; exact hi), if_neg]
        · exact List.mem_singleton.2 rfl
        · intro hc
          rw [Bool.and_eq_true, decide_eq_true_eq, decide_eq_true_eq, hlen] at hc
          obtain ⟨h0, h1⟩ := hc
          obtain ⟨e1, e2⟩ := hat (by omega)
          apply hbd
          have word : ∀ c, c.isAlpha = true → k.word c = true := fun c hc => by
            rw [hk.word c (alpha_ascii hc)]
            exact (alpha_facts hc).2.2.2.2.2.2.1
          have ha : headIs k.word a = true := by
            rw [e2, List.drop_eq_getElem_cons h1]
            exact word _ (hw _ (List.getElem_mem _))
          have hbb : headIs k.word b = true := by
            rw [e1]
            obtain ⟨i, rfl⟩ : ∃ i', i = i' + 1 := ⟨i - 1, by omega⟩
            rw [List.take_add_one, List.getElem?_eq_getElem (by omega)]
            simp only [Option.toList_some, List.reverse_append, List.reverse_cons, List.reverse_nil, List.nil_append, List.cons_append]
            exact word _ (hw _ (List.getElem_mem _))
          rw [ha, hbb]
          rfl
  | eot =>
    intro i b a f z hat h
    by_cases hi : w.length < i
    · exact past _ _ _ _ _ _ hi h
    · rw [run] at h
      split at h
      · rename_i he
        refine ⟨i, ?_, b, a, hat, h⟩
        rw [reach, if_neg (by rw [hlen]; exact hi), if_neg]
        · exact List.mem_singleton.2 rfl
        · intro hc
          rw [hlen] at hc
          rw [(hat (by omega)).2, List.drop_eq_getElem_cons hc] at he
          have ha := hw _ (List.getElem_mem hc)
          simp only [List.cons_append, Bool.or_eq_true, beq_iff_eq, reduceCtorEq, false_or, List.cons.injEq] at he
          rw [he.1] at ha
          cases ha
      · cases h
  | again x ih =>
    intro i b a f z hat h
    by_cases hi : w.length < i
    · exact past _ _ _ _ _ _ hi h
    · have hrun := h
      rw [run] at h
      obtain ⟨j, hj, b', a', _, h'⟩ := ih _ _ _ _ _ hat h
      obtain ⟨v, a'', t⟩ := (Re.again x).took k _ _ _ _ hrun
      refine ⟨w.length + 1, ?_, _, _, fun hh => by omega, t.then'⟩
      rw [reach, if_neg (by rw [hlen]; exact hi), if_neg]
      · rw [hlen, List.mem_range]; omega
      · intro he
        rw [List.isEmpty_iff] at he
        rw [he] at hj
        cases hj

/-! ### The word is a token -/

theorem chrStar_run {k : Classes} {s : Set1} {v r : List Char} (hv : ∀ c ∈ v, s.has k c = true) (hr : ∀ d ∈ r.head?, s.has k d = false) :
    ∀ (n : Nat) (b : List Char) (f : Then) (z : Place), v.length ≤ n → f (v.reverse ++ b) r = some z →
      repeated ((Re.chr s).run k) true n b (v ++ r) f = some z := by
  induction v with
  | nil =>
    intro n b f z _ h
    rw [List.nil_append, repeated_stop]
    · exact h
    · intro g
      cases r with
      | nil => rfl
      | cons d r => rw [Re.run, hr d rfl]; rfl
  | cons c v ih =>
    intro n b f z hn h
    cases n with
    | zero => simp at hn
    | succ n =>
      refine repeated_more ?_
      rw [List.cons_append, Re.run, if_pos (hv c (List.mem_cons_self ..)), if_pos (by simp)]
      exact ih (fun x hx => hv x (List.mem_cons_of_mem _ hx)) n _ _ _ (by simpa using hn) (by simpa using h)

def identifier : Re :=
  .seq (.chr (.or (oneOf "0123456789".toList) (.or (.one '_') .letter))) (.star (.chr (.or (oneOf ['_', '$', '#']) .word)))

theorem identifier_match {k : Classes} (hk : k.Ok) {w rest : List Char} (hne : w ≠ []) (hw : ∀ c ∈ w, c.isAlpha = true)
    (hr : ∀ d ∈ rest.head?, ender d = true) (b : List Char) : identifier.match' k b (w ++ rest) = some w.length := by
  cases w with
  | nil => exact absurd rfl hne
  | cons c w =>
    have h1 : Set1.has k (.or (oneOf "0123456789".toList) (.or (.one '_') .letter)) c = true := by
      have hc := hw c (List.mem_cons_self ..)
      rw [Set1.has, Set1.has, Set1.has, Set1.has, hk.letter c (alpha_ascii hc), hc]
      simp
    have h2 : ∀ d ∈ w, Set1.has k (.or (oneOf ['_', '$', '#']) .word) d = true := by
      intro d hd
      have hc := hw d (List.mem_cons_of_mem _ hd)
      rw [Set1.has, Set1.has, hk.word d (alpha_ascii hc), (alpha_facts hc).2.2.2.2.2.2.1]
      simp
    have h3 : ∀ d ∈ rest.head?, Set1.has k (.or (oneOf ['_', '$', '#']) .word) d = false := by
      intro d hd
      have := hr d hd
      rw [Set1.has_ascii hk _ (ender_facts this).1]
      exact Set1.nameLike_end this _ (by decide)
    have : identifier.run k b (c :: w ++ rest) (fun b' a' => some (b', a')) = some (w.reverse ++ c :: b, rest) := by
      rw [identifier, Re.run, List.cons_append, Re.run, if_pos h1, Re.run]
      exact chrStar_run h2 h3 _ _ _ _ (by simp) rfl
    rw [Re.match', this]
    simp only [List.cons_append, List.length_cons, List.length_append, Option.some.injEq]
    omega

/-- The words a statement begins with. -/
def starters : List String := ["SELECT", "INSERT", "REPLACE", "UPDATE", "DELETE", "WITH", "DROP"]

theorem starters_reach : ∀ w ∈ starters, ∀ e ∈ entries.take 43,
    e.1.reach w.toList 0 = [] ∨ (e.1.reach w.toList 0 = [w.toList.length] ∧ e.2 = some Name) := by decide +kernel

theorem firstMatch_all {k : Classes} {kw : List Char → TType} {b a : List Char} {n : Nat} : ∀ {es : List Entry} {e : Entry} {post : List Entry},
    (∀ x ∈ es, ∀ m, x.1.match' k b a = some m → m = n ∧ x.2 = some Name) → e.1.match' k b a = some n →
      ∃ act, firstMatch ((es ++ e :: post).map (toRule k kw)) b a = some (n, act) ∧
        ∀ v, act v = Name ∨ act v = (toRule k kw e).action v
  | [], e, post, _, h => by
    refine ⟨(toRule k kw e).action, ?_, fun _ => .inr rfl⟩
    rw [List.nil_append, List.map_cons, firstMatch]
    have : (toRule k kw e).match' b a = some n := h
    rw [this]
  | x :: es, e, post, hx, h => by
    rw [List.cons_append, List.map_cons, firstMatch]
    cases hm : (toRule k kw x).match' b a with
    | some m =>
      obtain ⟨rfl, h2⟩ := hx x (List.mem_cons_self ..) m hm
      refine ⟨_, rfl, fun v => .inl ?_⟩
      simp only [toRule, h2]
    | none => exact firstMatch_all (fun y hy => hx y (List.mem_cons_of_mem _ hy)) h

theorem first_word {k : Classes} (hk : k.Ok) (kw : List Char → TType) {w rest b : List Char} (hw : upper w ∈ starters)
    (ha : ∀ c ∈ w, c.isAlpha = true) (hr : ∀ d ∈ rest.head?, ender d = true) (hb : headIs (· == '.') b = false) :
    ∃ act, firstMatch (rules k kw) b (w ++ rest) = some (w.length, act) ∧ ∀ v, act v = Name ∨ act v = kw v := by
  have e : entries = entries.take 43 ++ (identifier, none) :: entries.drop 44 := by decide +kernel
  have hup : (upper w).toList = w.map Char.toUpper := by rw [upper, String.toList_ofList]
  have hne : w ≠ [] := by
    rintro rfl
    exact absurd hw (by decide)
  rw [rules_eq, e]
  refine firstMatch_all ?_ (identifier_match hk hne ha hr b)
  intro x hx m hm
  have hs := starters_reach _ hw x hx
  rw [hup, List.length_map] at hs
  obtain ⟨v, a', h1, h2, _, _, _, h6⟩ := Re.match'_took hm
  obtain ⟨j, hj, b', a'', hat, h7⟩ := Re.reach_sound hk ha hr hb x.1 0 b (w ++ rest) _ _ (fun _ => ⟨rfl, rfl⟩) h6
  rcases hs with hs | ⟨hs, ht⟩
  · rw [hs] at hj; cases hj
  · rw [hs, List.mem_singleton] at hj
    refine ⟨?_, ht⟩
    have := (hat (by omega)).2
    rw [hj, List.drop_length, List.nil_append] at this
    simp only [Option.some.injEq, Prod.mk.injEq] at h7
    rw [← h7.2, this] at h1
    have := congrArg List.length h1
    simp only [List.length_append] at this
    omega

/-! ### Blanks before it -/

theorem firstMatch_some {k : Classes} {kw : List Char → TType} {b a : List Char} : ∀ {es : List Entry}, (∃ e ∈ es, (e.1.match' k b a).isSome = true) →
    firstMatch (es.map (toRule k kw)) b a ≠ none
  | [], h => by obtain ⟨_, h, _⟩ := h; cases h
  | e :: es, h => by
    rw [List.map_cons, firstMatch]
    cases hm : (toRule k kw e).match' b a with
    | some m => simp
    | none =>
      obtain ⟨x, hx, hs⟩ := h
      rcases List.mem_cons.1 hx with rfl | hx
      · have hm : x.1.match' k b a = none := hm
        rw [hm] at hs; cases hs
      · exact firstMatch_some ⟨x, hx, hs⟩

theorem space_match {k : Classes} {c : Char} (hc : k.space c = true) (b t : List Char) :
    (Re.match' k (.seq (.chr .space) (.lazy (.chr .space))) b (c :: t)).isSome = true := by
  have : Re.run k (.seq (.chr .space) (.lazy (.chr .space))) b (c :: t) (fun b' a' => some (b', a')) = some (c :: b, t) := by
    rw [Re.run, Re.run, if_pos (by exact hc), Re.run]
    cases t <;> rfl
  rw [Re.match', this]
  rfl

theorem space_rules : ∀ n < 128, asciiSpace (Char.ofNat n) = true → ∀ e ∈ entries, e.1.starts ascii (Char.ofNat n) = true →
    e.2 = some Newline ∨ e.2 = some Whitespace := by decide +kernel

theorem prefix_of_spaces {p : Char → Bool} : ∀ {v bl w a : List Char}, (∀ x ∈ v, p x = true) → (∀ c ∈ w.head?, p c = false) → w ≠ [] →
    v <+: bl ++ (w ++ a) → ∃ bl', bl = v ++ bl'
  | [], bl, _, _, _, _, _, _ => ⟨bl, rfl⟩
  | x :: v, [], w, a, hv, hw, hne, h => by
    cases w with
    | nil => exact absurd rfl hne
    | cons c w =>
      rw [List.nil_append, List.cons_append, List.cons_prefix_cons] at h
      have h1 := hv x (List.mem_cons_self ..)
      rw [h.1, hw c rfl] at h1
      cases h1
  | x :: v, y :: bl, w, a, hv, hw, hne, h => by
    rw [List.cons_append, List.cons_prefix_cons] at h
    obtain ⟨bl', e⟩ := prefix_of_spaces (fun x hx => hv x (List.mem_cons_of_mem _ hx)) hw hne h.2
    exact ⟨bl', by rw [h.1, e]; rfl⟩

/-- Blanks and the first word: blank tokens, and the word as a token. -/
theorem lex_first {k : Classes} (hk : k.Ok) {kw : List Char → TType} {w rest : List Char} (hw : upper w ∈ starters)
    (ha : ∀ c ∈ w, c.isAlpha = true) (hr : ∀ d ∈ rest.head?, ender d = true) :
    ∀ (m : Nat) (bl : List Char), bl.length ≤ m → (∀ c ∈ bl, asciiSpace c = true ∧ c.toNat < 128) →
      ∀ (n : Nat) (b : List Char) (l : List Token), headIs (· == '.') b = false → lexFrom (rules k kw) n b (bl ++ (w ++ rest)) = .ok l →
        ∃ pre ty post, l = pre ++ ⟨ty, w⟩ :: post ∧ (∀ t ∈ pre, isBlank t = true) ∧ (ty = Name ∨ ty = kw w) ∧
          ∀ t ∈ post.head?, isDot t = false := by
  have hne : w ≠ [] := by
    rintro rfl
    exact absurd hw (by decide)
  intro m
  induction m with
  | zero =>
    intro bl hbl _ n b l hb h
    have : bl = [] := List.length_eq_zero_iff.1 (Nat.le_zero.1 hbl)
    subst this
    rw [List.nil_append] at h
    obtain ⟨act, h1, h2⟩ := first_word hk kw hw ha hr hb
    cases w with
    | nil => exact absurd rfl hne
    | cons c w =>
      rw [List.cons_append] at h1 h
      obtain ⟨v, a', ty, l', m', e, hv, rfl, hl', hh⟩ := lexFrom_step (rules_positive k kw) h
      rcases hh with ⟨_, _, hh⟩ | ⟨n', act', hm, e', ht⟩
      · rw [hh] at h1; cases h1
      · rw [hm, Option.some.injEq, Prod.mk.injEq] at h1
        obtain ⟨rfl, rfl⟩ := h1
        have ev : v = c :: w := by rw [e', ← List.cons_append, List.take_left]
        refine ⟨[], ty, l', by rw [ev]; rfl, by simp, ?_⟩
        refine ⟨by rw [ht, ev]; exact h2 _, ?_⟩
        intro t ht
        have ea : a' = rest := by
          rw [ev, ← List.cons_append] at e
          exact (List.append_cancel_left e).symm
        cases l' with
        | nil => cases ht
        | cons u l' =>
          cases ht
          obtain ⟨g1, g2⟩ := lexFrom_text hl'
          cases hd : isDot t with
          | false => rfl
          | true =>
            rw [isDot, beq_iff_eq] at hd
            rw [List.flatMap_cons, hd, ea] at g1
            have := hr '.' (by rw [← g1]; rfl)
            exact absurd rfl (ender_facts this).2.2
  | succ m ih =>
    intro bl hbl hsp n b l hb h
    cases bl with
    | nil => exact ih [] (by simp) (by simp) n b l hb h
    | cons c bl =>
      obtain ⟨hc, hc'⟩ := hsp c (List.mem_cons_self ..)
      rw [List.cons_append] at h
      obtain ⟨v, a', ty, l', m', e, hv, rfl, hl', hh⟩ := lexFrom_step (rules_positive k kw) h
      have hks : k.space c = true := by rw [hk.space c hc', hc]
      rcases hh with ⟨_, _, hh⟩ | ⟨n', act', hm, e', ht⟩
      · exact absurd hh (firstMatch_some ⟨_, (by decide +kernel : ((Re.seq (.chr .space) (.lazy (.chr .space)), some Whitespace) : Entry) ∈ entries), space_match hks _ _⟩)
      · obtain ⟨en, he, hm', hact⟩ := firstMatch_mem hm
        have hst : en.1.starts ascii c = true := by
          cases hx : en.1.starts ascii c with
          | true => rfl
          | false =>
            rw [no_match hk hc' hx ((show ∀ e ∈ entries, 1 ≤ e.1.least by decide +kernel) en he)] at hm'
            cases hm'
        have hty : en.2 = some Newline ∨ en.2 = some Whitespace :=
          ascii_all (P := fun c => asciiSpace c = true → ∀ e ∈ entries, e.1.starts ascii c = true →
            e.2 = some Newline ∨ e.2 = some Whitespace) space_rules hc' hc en he hst
        have hty' : ty = Newline ∨ ty = Whitespace := by
          rw [ht, hact]
          rcases hty with h | h
          · left; simp only [toRule, h]
          · right; simp only [toRule, h]
        have hbl' : isBlank ⟨ty, v⟩ = true := by rcases hty' with rfl | rfl <;> rfl
        have hall : ∀ x ∈ v, k.space x = true := by
          rw [e']
          refine space_of_blank hk ?_ hm'
          rcases hty with h | h
          · exact blank_rules en he _ h (by decide)
          · exact blank_rules en he _ h (by decide)
        have hwh : ∀ x ∈ w.head?, k.space x = false := by
          intro x hx
          have := ha x (List.mem_of_head? hx)
          rw [hk.space x (alpha_ascii this)]
          exact (alpha_facts this).2.2.1
        obtain ⟨bl', eb⟩ := prefix_of_spaces (bl := c :: bl) (a := rest) hall hwh hne ⟨a', e.symm⟩
        have ea : a' = bl' ++ (w ++ rest) := by
          rw [← List.cons_append, eb, List.append_assoc] at e
          exact (List.append_cancel_left e).symm
        rw [ea] at hl'
        have hlv : 0 < v.length := List.length_pos_iff.2 hv
        obtain ⟨pre, ty', post, e1, e2, e3⟩ := ih bl' (by
            have := congrArg List.length eb
            rw [List.length_append] at this
            simp only [List.length_cons] at this hbl
            omega) (fun x hx => hsp x (by rw [eb]; exact List.mem_append_right _ hx)) m' (v.reverse ++ b) l' (by
            obtain ⟨u, x, ev, _⟩ := after_some v none hv
            have hx : k.space x = true := hall x (by rw [ev]; simp)
            rw [ev]
            simp only [List.reverse_append, List.reverse_cons, List.reverse_nil, List.nil_append, List.cons_append, headIs,
              beq_eq_false_iff_ne]
            rintro rfl
            rw [hk.space _ (by decide)] at hx
            cases hx) hl'
        refine ⟨⟨ty, v⟩ :: pre, ty', post, by rw [e1]; rfl, ?_, e3⟩
        intro t ht
        rcases List.mem_cons.1 ht with rfl | ht
        · exact hbl'
        · exact e2 t ht

end EulerDB.Rules
