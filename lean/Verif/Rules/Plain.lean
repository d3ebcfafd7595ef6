/-
Statements whose literals the lexer reads as MySQL does: what tokens it makes of them.
-/
import Verif.Rules.Model

namespace EulerDB.Rules

open EulerDB.Lex EulerDB.Group

/-! ### The text of a match, its first characters known -/

/-- What is known of the beginning of the text a match takes: characters, and whether they are all of it. -/
def Re.begins : Re → List (List Char × Bool)
  | .eps => [([], true)]
  | .chr (.one c) => [([c], true)]
  | .seq a b => a.begins.flatMap fun p => if p.2 then b.begins.map fun q => (p.1 ++ q.1, q.2) else [p]
  | .alt a b => a.begins ++ b.begins
  | .ahead _ | .nahead _ | .behind _ | .nbehind _ | .bound | .eot => [([], true)]
  | .again a => a.begins.map fun p => (p.1, false)
  | .chr _ | .star _ | .lazy _ => [([], false)]

theorem Re.begins_run (k : Classes) : ∀ (r : Re) (b a : List Char) (f : Then) (z : Place), r.run k b a f = some z →
    ∃ p ∈ r.begins, p.1 <+: a ∧ (p.2 = true → ∃ a', a = p.1 ++ a' ∧ f (p.1.reverse ++ b) a' = some z) := by
  intro r
  have stay : ∀ (b a : List Char) (f : Then) (z : Place), f b a = some z → ∃ p ∈ [(([] : List Char), true)],
      p.1 <+: a ∧ (p.2 = true → ∃ a', a = p.1 ++ a' ∧ f (p.1.reverse ++ b) a' = some z) :=
    fun b a f z h => ⟨_, List.mem_singleton.2 rfl, List.nil_prefix, fun _ => ⟨a, rfl, h⟩⟩
  have dunno : ∀ (b a : List Char) (f : Then) (z : Place), ∃ p ∈ [(([] : List Char), false)],
      p.1 <+: a ∧ (p.2 = true → ∃ a', a = p.1 ++ a' ∧ f (p.1.reverse ++ b) a' = some z) :=
    fun b a f z => ⟨_, List.mem_singleton.2 rfl, List.nil_prefix, fun h => by cases h⟩
  induction r with
  | eps => intro b a f z h; exact stay _ _ _ _ h
  | chr s =>
    intro b a f z h
    cases s with
    | one c =>
      cases a with
      | nil => cases h
      | cons d t =>
        rw [run] at h
        split at h
        · rename_i hd
          have hd : d = c := by simpa [Set1.has] using hd
          subst hd
          exact ⟨_, List.mem_singleton.2 rfl, ⟨t, rfl⟩, fun _ => ⟨t, rfl, h⟩⟩
        · cases h
    | _ => exact dunno _ _ _ _
  | seq x y ihx ihy =>
    intro b a f z h
    rw [run] at h
    obtain ⟨p, hp, hpa, hc⟩ := ihx _ _ _ _ h
    by_cases h2 : p.2 = true
    · obtain ⟨a', e, h3⟩ := hc h2
      obtain ⟨q, hq, hqa, hqc⟩ := ihy _ _ _ _ h3
      refine ⟨(p.1 ++ q.1, q.2), ?_, ?_, ?_⟩
      · rw [begins]
        exact List.mem_flatMap.2 ⟨p, hp, by rw [if_pos h2]; exact List.mem_map.2 ⟨q, hq, rfl⟩⟩
      · rw [e]
        exact (List.prefix_append_right_inj _).2 hqa
      · intro h4
        obtain ⟨a'', e', h5⟩ := hqc h4
        exact ⟨a'', by rw [e, e', List.append_assoc], by rw [List.reverse_append, List.append_assoc]; exact h5⟩
    · refine ⟨p, ?_, hpa, fun h => absurd h h2⟩
      rw [begins]
      exact List.mem_flatMap.2 ⟨p, hp, by rw [if_neg h2]; exact List.mem_singleton.2 rfl⟩
  | alt x y ihx ihy =>
    intro b a f z h
    rw [run] at h
    split at h
    · rename_i r hr
      cases h
      obtain ⟨p, hp, hh⟩ := ihx _ _ _ _ hr
      exact ⟨p, by rw [begins]; exact List.mem_append_left _ hp, hh⟩
    · obtain ⟨p, hp, hh⟩ := ihy _ _ _ _ h
      exact ⟨p, by rw [begins]; exact List.mem_append_right _ hp, hh⟩
  | star x _ => intro b a f z h; exact dunno _ _ _ _
  | lazy x _ => intro b a f z h; exact dunno _ _ _ _
  | ahead x =>
    intro b a f z h
    rw [run] at h
    split at h
    · exact stay _ _ _ _ h
    · cases h
  | nahead x =>
    intro b a f z h
    rw [run] at h
    split at h
    · cases h
    · exact stay _ _ _ _ h
  | behind s =>
    intro b a f z h
    rw [run] at h
    split at h
    · exact stay _ _ _ _ h
    · cases h
  | nbehind s =>
    intro b a f z h
    rw [run] at h
    split at h
    · cases h
    · exact stay _ _ _ _ h
  | bound =>
    intro b a f z h
    rw [run] at h
    split at h
    · cases h
    · exact stay _ _ _ _ h
  | eot =>
    intro b a f z h
    rw [run] at h
    split at h
    · exact stay _ _ _ _ h
    · cases h
  | again x ih =>
    intro b a f z h
    rw [run] at h
    obtain ⟨p, hp, hpa, _⟩ := ih _ _ _ _ h
    exact ⟨(p.1, false), by rw [begins]; exact List.mem_map.2 ⟨p, hp, rfl⟩, hpa, fun h => by cases h⟩

/-! ### Literals and quoted names -/

/-- The inside of a string of MySQL, with `'` doubled or after a backslash. -/
inductive Body : List Char → Prop
  | nil : Body []
  | double {v : List Char} : Body v → Body ('\'' :: '\'' :: v)
  | escaped (c : Char) {v : List Char} : Body v → Body ('\\' :: c :: v)
  | char {c : Char} {v : List Char} : c ≠ '\'' → c ≠ '\\' → Body v → Body (c :: v)

/-- The inside of a quoted name, with the quote doubled. -/
inductive Quoted : List Char → Prop
  | nil : Quoted []
  | double {v : List Char} : Quoted v → Quoted ('`' :: '`' :: v)
  | char {c : Char} {v : List Char} : c ≠ '`' → Quoted v → Quoted (c :: v)

def strStep (q : Char) : Re := anyOf [.seq (one q) (one q), .seq (one '\\') (one '\\'), .seq (one '\\') (one q), .chr (.not (.one q))]
def nameStep (q : Char) : Re := .alt (.seq (one q) (one q)) (.chr (.not (.one q)))

theorem string_eq (q : Char) : string q = all [one q, .star (strStep q), one q] := rfl
theorem quoted_eq (q : Char) : quoted q = all [one q, .star (nameStep q), one q] := rfl

/-- One more of a repetition. -/
theorem repeated_more {step : List Char → List Char → Then → Option Place} {n : Nat} {b a : List Char} {f : Then} {z : Place}
    (h : (step b a fun b' a' => if a'.length < a.length then repeated step true n b' a' f else none) = some z) :
    repeated step true (n + 1) b a f = some z := by
  rw [repeated]
  simp only [if_true, h]

/-- No more of it. -/
theorem repeated_stop {step : List Char → List Char → Then → Option Place} {n : Nat} {b a : List Char} {f : Then}
    (h : ∀ g, step b a g = none) : repeated step true n b a f = f b a := by
  cases n with
  | zero => rfl
  | succ n =>
    rw [repeated]
    simp only [if_true, h]

theorem run_one {k : Classes} {q : Char} {b t : List Char} {f : Then} : (one q).run k b (q :: t) f = f (q :: b) t := by
  simp [one, Re.run, Set1.has]

theorem run_one_ne {k : Classes} {q c : Char} {b t : List Char} {f : Then} (h : c ≠ q) : (one q).run k b (c :: t) f = none := by
  simp [one, Re.run, Set1.has, h]

theorem run_one_nil {k : Classes} {q : Char} {b : List Char} {f : Then} : (one q).run k b [] f = none := rfl

theorem strStep_end {k : Classes} {r b : List Char} (hr : r.head? ≠ some '\'') (g : Then) :
    (strStep '\'').run k b ('\'' :: r) g = none := by
  have h1 : ∀ b', (one '\'').run k b' r g = none := by
    intro b'
    cases r with
    | nil => rfl
    | cons c r => exact run_one_ne (by simpa using hr)
  have h2 : ∀ g, (one '\\').run k b ('\'' :: r) g = none := fun g => run_one_ne (by decide)
  unfold strStep anyOf anyOf anyOf anyOf
  simp only [Re.run, run_one, h1, h2]
  simp [Set1.has]

theorem nameStep_end {k : Classes} {r b : List Char} (hr : r.head? ≠ some '`') (g : Then) :
    (nameStep '`').run k b ('`' :: r) g = none := by
  have h1 : ∀ b', (one '`').run k b' r g = none := by
    intro b'
    cases r with
    | nil => rfl
    | cons c r => exact run_one_ne (by simpa using hr)
  unfold nameStep
  simp only [Re.run, run_one, h1]
  simp [Set1.has]

theorem strStep_char {k : Classes} {c : Char} {b t : List Char} {g : Then} (h1 : c ≠ '\'') (h2 : c ≠ '\\') :
    (strStep '\'').run k b (c :: t) g = g (c :: b) t := by
  unfold strStep anyOf anyOf anyOf anyOf
  simp only [Re.run, run_one_ne h1, run_one_ne h2]
  simp [Set1.has, h1]

theorem nameStep_char {k : Classes} {c : Char} {b t : List Char} {g : Then} (h1 : c ≠ '`') :
    (nameStep '`').run k b (c :: t) g = g (c :: b) t := by
  unfold nameStep
  simp only [Re.run, run_one_ne h1]
  simp [Set1.has, h1]

theorem strStep_double {k : Classes} {b t : List Char} {g : Then} {z : Place} (h : g ('\'' :: '\'' :: b) t = some z) :
    (strStep '\'').run k b ('\'' :: '\'' :: t) g = some z := by
  unfold strStep anyOf
  simp only [Re.run, run_one, h]

theorem nameStep_double {k : Classes} {b t : List Char} {g : Then} {z : Place} (h : g ('`' :: '`' :: b) t = some z) :
    (nameStep '`').run k b ('`' :: '`' :: t) g = some z := by
  unfold nameStep
  simp only [Re.run, run_one, h]

/-- A backslash and a backslash or a quote. -/
theorem strStep_escaped {k : Classes} {c : Char} (hc : c = '\\' ∨ c = '\'') {b t : List Char} {g : Then} {z : Place}
    (h : g (c :: '\\' :: b) t = some z) : (strStep '\'').run k b ('\\' :: c :: t) g = some z := by
  have h0 : ∀ g, (one '\'').run k b ('\\' :: c :: t) g = none := fun g => run_one_ne (by decide)
  rcases hc with rfl | rfl
  · unfold strStep anyOf anyOf
    simp only [Re.run, h0, run_one, h]
  · have h1 : (one '\\').run k ('\\' :: b) ('\'' :: t) g = none := run_one_ne (by decide)
    unfold strStep anyOf anyOf anyOf
    simp only [Re.run, h0, run_one, h1, h]

/-- A backslash and something else. -/
theorem strStep_backslash {k : Classes} {c : Char} (h1 : c ≠ '\\') (h2 : c ≠ '\'') {b t : List Char} {g : Then} :
    (strStep '\'').run k b ('\\' :: c :: t) g = g ('\\' :: b) (c :: t) := by
  have h0 : ∀ g, (one '\'').run k b ('\\' :: c :: t) g = none := fun g => run_one_ne (by decide)
  have e1 : (one '\\').run k ('\\' :: b) (c :: t) g = none := run_one_ne h1
  have e2 : (one '\'').run k ('\\' :: b) (c :: t) g = none := run_one_ne h2
  unfold strStep anyOf anyOf anyOf anyOf
  simp only [Re.run, h0, run_one, e1, e2]
  simp [Set1.has]

theorem body_run {k : Classes} {v : List Char} (h : Body v) {r : List Char} (hr : r.head? ≠ some '\'') :
    ∀ (n : Nat) (b : List Char) (f : Then) (z : Place), v.length ≤ n → f (v.reverse ++ b) ('\'' :: r) = some z →
      repeated ((strStep '\'').run k) true n b (v ++ '\'' :: r) f = some z := by
  induction h with
  | nil =>
    intro n b f z _ h
    rw [List.nil_append, repeated_stop (strStep_end hr)]
    exact h
  | @double v _ ih =>
    intro n b f z hn h
    cases n with
    | zero => simp at hn
    | succ n =>
      refine repeated_more (strStep_double ?_)
      rw [if_pos (by simp; omega)]
      exact ih n _ _ _ (by simp at hn; omega) (by simpa using h)
  | @escaped c v _ ih =>
    intro n b f z hn h
    cases n with
    | zero => simp at hn
    | succ n =>
      by_cases hc : c = '\\' ∨ c = '\''
      · refine repeated_more (strStep_escaped hc ?_)
        rw [if_pos (by simp; omega)]
        exact ih n _ _ _ (by simp at hn; omega) (by simpa using h)
      · rw [not_or] at hc
        cases n with
        | zero => simp at hn
        | succ n =>
          refine repeated_more ?_
          rw [List.cons_append, List.cons_append, strStep_backslash hc.1 hc.2, if_pos (by simp)]
          refine repeated_more ?_
          rw [strStep_char hc.2 hc.1, if_pos (by simp)]
          exact ih n _ _ _ (by simp at hn; omega) (by simpa using h)
  | @char c v h1 h2 _ ih =>
    intro n b f z hn h
    cases n with
    | zero => simp at hn
    | succ n =>
      refine repeated_more ?_
      rw [List.cons_append, strStep_char h1 h2, if_pos (by simp)]
      exact ih n _ _ _ (by simpa using hn) (by simpa using h)

theorem quoted_run {k : Classes} {v : List Char} (h : Quoted v) {r : List Char} (hr : r.head? ≠ some '`') :
    ∀ (n : Nat) (b : List Char) (f : Then) (z : Place), v.length ≤ n → f (v.reverse ++ b) ('`' :: r) = some z →
      repeated ((nameStep '`').run k) true n b (v ++ '`' :: r) f = some z := by
  induction h with
  | nil =>
    intro n b f z _ h
    rw [List.nil_append, repeated_stop (nameStep_end hr)]
    exact h
  | @double v _ ih =>
    intro n b f z hn h
    cases n with
    | zero => simp at hn
    | succ n =>
      refine repeated_more (nameStep_double ?_)
      rw [if_pos (by simp; omega)]
      exact ih n _ _ _ (by simp at hn; omega) (by simpa using h)
  | @char c v h1 _ ih =>
    intro n b f z hn h
    cases n with
    | zero => simp at hn
    | succ n =>
      refine repeated_more ?_
      rw [List.cons_append, nameStep_char h1, if_pos (by simp)]
      exact ih n _ _ _ (by simpa using hn) (by simpa using h)

/-- The rule for strings takes a literal of MySQL, all of it and no more. -/
theorem string_match (k : Classes) {v : List Char} (h : Body v) {r : List Char} (hr : r.head? ≠ some '\'') (b : List Char) :
    (string '\'').match' k b ('\'' :: (v ++ '\'' :: r)) = some (v.length + 2) := by
  have : (string '\'').run k b ('\'' :: (v ++ '\'' :: r)) (fun b' a' => some (b', a')) =
      some ('\'' :: (v.reverse ++ '\'' :: b), r) := by
    rw [string_eq]
    simp only [all, Re.run, run_one]
    exact body_run h hr _ _ _ _ (by simp) run_one
  rw [Re.match', this]
  simp only [Option.some.injEq, List.length_cons, List.length_append]
  omega

theorem quoted_match (k : Classes) {v : List Char} (h : Quoted v) {r : List Char} (hr : r.head? ≠ some '`') (b : List Char) :
    (quoted '`').match' k b ('`' :: (v ++ '`' :: r)) = some (v.length + 2) := by
  have : (quoted '`').run k b ('`' :: (v ++ '`' :: r)) (fun b' a' => some (b', a')) =
      some ('`' :: (v.reverse ++ '`' :: b), r) := by
    rw [quoted_eq]
    simp only [all, Re.run, run_one]
    exact quoted_run h hr _ _ _ _ (by simp) run_one
  rw [Re.match', this]
  simp only [Option.some.injEq, List.length_cons, List.length_append]
  omega

end EulerDB.Rules
