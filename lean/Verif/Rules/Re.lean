/-
Regular expressions as Python's `re` matches them, as far as the lexer uses them.

The rules of /repo/scheduler/compile/parse/keywords.py 24-96 are matched by `re.compile(rx, FLAGS).match`
(97-98) at a position of the text (lexer.py 61).  A match tries the alternatives in order and goes back
when the rest does not match; the first way that leads to the end is the match.

Simplifications:
  * character classes of non-ASCII characters (`\w`, `\s`, `\d`, the letters `[A-ZÀ-Ü]`, and which of
    them match a letter when case is ignored) are a parameter, `Classes`;
  * a repetition whose body matches nothing ends there; no rule has such a body;
  * `$` and look-behind are only those the rules use: end of the text, one character.
-/
import Verif.Lex.Model

namespace EulerDB.Rules

/-- The character classes.  For ASCII characters they are known. -/
structure Classes where
  word : Char → Bool
  space : Char → Bool
  letter : Char → Bool
  digit : Char → Bool
  /-- Does the letter of the pattern match the character when case is ignored? -/
  same : Char → Char → Bool

def asciiWord (c : Char) : Bool := c.isAlphanum || c == '_'
def asciiSpace (c : Char) : Bool := c == ' ' || (9 ≤ c.toNat && c.toNat ≤ 13) || (28 ≤ c.toNat && c.toNat ≤ 31)

/-- What is known of the classes. -/
structure Classes.Ok (k : Classes) : Prop where
  word : ∀ c : Char, c.toNat < 128 → k.word c = asciiWord c
  space : ∀ c : Char, c.toNat < 128 → k.space c = asciiSpace c
  letter : ∀ c : Char, c.toNat < 128 → k.letter c = c.isAlpha
  digit : ∀ c : Char, c.toNat < 128 → k.digit c = c.isDigit
  same : ∀ p c : Char, c.toNat < 128 → k.same p c = (c.toUpper == p)

/-- The classes of ASCII text. -/
def ascii : Classes := ⟨asciiWord, asciiSpace, Char.isAlpha, Char.isDigit, fun p c => c.toUpper == p⟩

theorem ascii_ok : ascii.Ok := ⟨fun _ _ => rfl, fun _ _ => rfl, fun _ _ => rfl, fun _ _ => rfl, fun _ _ _ => rfl⟩

/-- A set of characters. -/
inductive Set1
  | one (c : Char)
  | lit (c : Char)
  | word | space | letter | digit | any
  | or (a b : Set1)
  | not (a : Set1)
  deriving DecidableEq

def Set1.has (k : Classes) : Set1 → Char → Bool
  | .one d, c => c == d
  | .lit d, c => k.same d c
  | .word, c => k.word c
  | .space, c => k.space c
  | .letter, c => k.letter c
  | .digit, c => k.digit c
  | .any, _ => true
  | .or a b, c => a.has k c || b.has k c
  | .not a, c => !a.has k c

theorem Set1.has_ascii {k : Classes} (hk : k.Ok) (s : Set1) {c : Char} (hc : c.toNat < 128) :
    s.has k c = s.has ascii c := by
  induction s with
  | one => rfl
  | lit d => exact hk.same d c hc
  | word => exact hk.word c hc
  | space => exact hk.space c hc
  | letter => exact hk.letter c hc
  | digit => exact hk.digit c hc
  | any => rfl
  | or a b iha ihb => simp [has, iha, ihb]
  | not a ih => simp [has, ih]

inductive Re
  | eps
  | chr (s : Set1)
  | seq (a b : Re)
  | alt (a b : Re)
  | star (a : Re)
  | lazy (a : Re)
  | ahead (a : Re)
  | nahead (a : Re)
  | behind (s : Set1)
  | nbehind (s : Set1)
  | bound
  | eot
  /-- `(a)[\s\S]*?\1` -/
  | again (a : Re)
  deriving DecidableEq

/-- A place in the text: the characters before, nearest first, and those after. -/
abbrev Place := List Char × List Char

abbrev Then := List Char → List Char → Option Place

/-- `a*`: as often as possible, or `a*?`: as seldom as possible. -/
def repeated (step : List Char → List Char → Then → Option Place) (greedy : Bool) :
    Nat → List Char → List Char → Then → Option Place
  | 0, b, a, k => k b a
  | n + 1, b, a, k =>
    let more := fun (_ : Unit) => step b a fun b' a' => if a'.length < a.length then repeated step greedy n b' a' k else none
    if greedy then
      match more () with
      | some r => some r
      | none => k b a
    else
      match k b a with
      | some r => some r
      | none => more ()

/-- `[\s\S]*?` and the text `v` again, the case of letters ignored. -/
def recur (k : Classes) (v : List Char) : List Char → List Char → Then → Option Place
  | b, [], f => if v.isEmpty then f b [] else none
  | b, c :: a, f =>
    let here := if v.length ≤ (c :: a).length ∧ (List.zipWith (fun x y => x == y || k.same x.toUpper y) v (c :: a)).all id = true
      then f (((c :: a).take v.length).reverse ++ b) ((c :: a).drop v.length) else none
    match here with
    | some r => some r
    | none => recur k v (c :: b) a f

def headIs (p : Char → Bool) : List Char → Bool
  | [] => false
  | c :: _ => p c

def Re.run (k : Classes) : Re → List Char → List Char → Then → Option Place
  | .eps, b, a, f => f b a
  | .chr s, b, a, f =>
    match a with
    | [] => none
    | c :: t => if s.has k c then f (c :: b) t else none
  | .seq x y, b, a, f => x.run k b a fun b' a' => y.run k b' a' f
  | .alt x y, b, a, f =>
    match x.run k b a f with
    | some r => some r
    | none => y.run k b a f
  | .star x, b, a, f => repeated (x.run k) true a.length b a f
  | .lazy x, b, a, f => repeated (x.run k) false a.length b a f
  | .ahead x, b, a, f => if (x.run k b a fun b' a' => some (b', a')).isSome then f b a else none
  | .nahead x, b, a, f => if (x.run k b a fun b' a' => some (b', a')).isSome then none else f b a
  | .behind s, b, a, f => if headIs (s.has k) b then f b a else none
  | .nbehind s, b, a, f => if headIs (s.has k) b then none else f b a
  | .bound, b, a, f => if headIs k.word b == headIs k.word a then none else f b a
  | .eot, b, a, f => if a == [] || a == ['\n'] then f b a else none
  | .again x, b, a, f => x.run k b a fun b' a' => recur k (a.take (a.length - a'.length)) b' a' f

/-- `pattern.match(text, pos)`: the number of characters matched. -/
def Re.match' (k : Classes) (r : Re) (b a : List Char) : Option Nat :=
  match r.run k b a fun b' a' => some (b', a') with
  | none => none
  | some (_, a') => some (a.length - a'.length)

/-! ### What a match takes -/

/-- The least number of characters it takes. -/
def Re.least : Re → Nat
  | .chr _ => 1
  | .seq a b => a.least + b.least
  | .alt a b => min a.least b.least
  | .again a => a.least
  | _ => 0

/-- Can it take this character at all? -/
def Re.takes (k : Classes) : Re → Char → Bool
  | .chr s, c => s.has k c
  | .seq a b, c => a.takes k c || b.takes k c
  | .alt a b, c => a.takes k c || b.takes k c
  | .star a, c => a.takes k c
  | .lazy a, c => a.takes k c
  | .again _, _ => true
  | _, _ => false

/-- Can it take this character first? -/
def Re.starts (k : Classes) : Re → Char → Bool
  | .chr s, c => s.has k c
  | .seq a b, c => a.starts k c || (a.least == 0 && b.starts k c)
  | .alt a b, c => a.starts k c || b.starts k c
  | .star a, c => a.starts k c
  | .lazy a, c => a.starts k c
  | .again a, c => a.starts k c || a.least == 0
  | _, _ => false

theorem Re.takes_ascii {k : Classes} (hk : k.Ok) (r : Re) {c : Char} (hc : c.toNat < 128) :
    r.takes k c = r.takes ascii c := by
  induction r with
  | chr s => exact s.has_ascii hk hc
  | seq a b iha ihb => simp [takes, iha, ihb]
  | alt a b iha ihb => simp [takes, iha, ihb]
  | star a ih => simp [takes, ih]
  | lazy a ih => simp [takes, ih]
  | _ => rfl

theorem Re.starts_ascii {k : Classes} (hk : k.Ok) (r : Re) {c : Char} (hc : c.toNat < 128) :
    r.starts k c = r.starts ascii c := by
  induction r with
  | chr s => exact s.has_ascii hk hc
  | seq a b iha ihb => simp [starts, iha, ihb]
  | alt a b iha ihb => simp [starts, iha, ihb]
  | star a ih => simp [starts, ih]
  | lazy a ih => simp [starts, ih]
  | again a ih => simp [starts, ih]
  | _ => rfl

/-- The text taken, and that it is of the kind. -/
structure Took (least : Nat) (takes starts : Char → Bool) (b a : List Char) (f : Then) (z : Place) (v a' : List Char) : Prop where
  text : a = v ++ a'
  then' : f (v.reverse ++ b) a' = some z
  len : least ≤ v.length
  all : ∀ c ∈ v, takes c = true
  first : ∀ c ∈ v.head?, starts c = true

theorem repeated_took {step : List Char → List Char → Then → Option Place} {least : Nat} {takes starts : Char → Bool}
    (hs : ∀ b a f z, step b a f = some z → ∃ v a', Took least takes starts b a f z v a') (greedy : Bool) :
    ∀ (n : Nat) (b a : List Char) (f : Then) (z : Place), repeated step greedy n b a f = some z →
      ∃ v a', Took 0 takes starts b a f z v a'
  | 0, b, a, f, z, h => ⟨[], a, rfl, h, Nat.le_refl _, by simp, by simp⟩
  | n + 1, b, a, f, z, h => by
    have stop : f b a = some z → ∃ v a', Took 0 takes starts b a f z v a' :=
      fun h => ⟨[], a, rfl, h, Nat.le_refl _, by simp, by simp⟩
    have more : (step b a fun b' a' => if a'.length < a.length then repeated step greedy n b' a' f else none) = some z →
        ∃ v a', Took 0 takes starts b a f z v a' := by
      intro h
      obtain ⟨v, a', h1, h2, _, h4, h5⟩ := hs _ _ _ _ h
      split at h2
      · rename_i hl
        obtain ⟨w, a'', g1, g2, _, g4, g5⟩ := repeated_took hs greedy n _ _ _ _ h2
        have hv : v ≠ [] := by
          rintro rfl
          rw [h1] at hl
          simp at hl
        refine ⟨v ++ w, a'', ?_, ?_, Nat.zero_le _, ?_, ?_⟩
        · rw [h1, g1, List.append_assoc]
        · rw [List.reverse_append, List.append_assoc]
          exact g2
        · intro c hc
          rcases List.mem_append.1 hc with hc | hc
          · exact h4 c hc
          · exact g4 c hc
        · intro c hc
          cases v with
          | nil => exact absurd rfl hv
          | cons x v => exact h5 c hc
      · cases h2
    rw [repeated] at h
    cases greedy with
    | true =>
      simp only [if_true] at h
      split at h
      · rename_i r hr
        cases h
        exact more hr
      · exact stop h
    | false =>
      simp only [Bool.false_eq_true, if_false] at h
      split at h
      · rename_i r hr
        cases h
        exact stop hr
      · exact more h

theorem recur_took (k : Classes) (v : List Char) : ∀ (a b : List Char) (f : Then) (z : Place),
    recur k v b a f = some z → ∃ w a', a = w ++ a' ∧ f (w.reverse ++ b) a' = some z
  | [], b, f, z, h => by
    rw [recur] at h
    split at h
    · exact ⟨[], [], rfl, h⟩
    · cases h
  | c :: a, b, f, z, h => by
    rw [recur] at h
    split at h
    · rename_i r hr
      cases h
      split at hr
      · exact ⟨(c :: a).take v.length, (c :: a).drop v.length, (List.take_append_drop _ _).symm, hr⟩
      · cases hr
    · obtain ⟨w, a', h1, h2⟩ := recur_took k v a (c :: b) f z h
      refine ⟨c :: w, a', by rw [h1]; rfl, ?_⟩
      rw [List.reverse_cons, List.append_assoc]
      exact h2

theorem Took.weak {least least' : Nat} {takes starts takes' starts' : Char → Bool} {b a : List Char} {f : Then} {z : Place}
    {v a' : List Char} (h : Took least takes starts b a f z v a') (hl : least' ≤ least) (ht : ∀ c, takes c = true → takes' c = true)
    (hs : ∀ c, starts c = true → starts' c = true) : Took least' takes' starts' b a f z v a' :=
  ⟨h.text, h.then', Nat.le_trans hl h.len, fun c hc => ht c (h.all c hc), fun c hc => hs c (h.first c hc)⟩

theorem Re.took (k : Classes) : ∀ (r : Re) (b a : List Char) (f : Then) (z : Place), r.run k b a f = some z →
    ∃ v a', Took r.least (r.takes k) (r.starts k) b a f z v a' := by
  intro r
  have stay : ∀ (b a : List Char) (f : Then) (z : Place) (p q : Char → Bool), f b a = some z →
      ∃ v a', Took 0 p q b a f z v a' :=
    fun b a f z p q h => ⟨[], a, rfl, h, Nat.le_refl _, by simp, by simp⟩
  induction r with
  | eps => intro b a f z h; exact stay _ _ _ _ _ _ h
  | chr s =>
    intro b a f z h
    cases a with
    | nil => cases h
    | cons c t =>
      rw [run] at h
      split at h
      · rename_i hc
        exact ⟨[c], t, rfl, h, Nat.le_refl _, by simpa [takes] using hc, by simpa [starts] using hc⟩
      · cases h
  | seq x y ihx ihy =>
    intro b a f z h
    rw [run] at h
    obtain ⟨v, a', h1, h2, h3, h4, h5⟩ := ihx _ _ _ _ h
    obtain ⟨w, a'', g1, g2, g3, g4, g5⟩ := ihy _ _ _ _ h2
    refine ⟨v ++ w, a'', by rw [h1, g1, List.append_assoc], by rw [List.reverse_append, List.append_assoc]; exact g2, ?_, ?_, ?_⟩
    · rw [least, List.length_append]
      omega
    · intro c hc
      rw [takes]
      rcases List.mem_append.1 hc with hc | hc
      · rw [h4 c hc, Bool.true_or]
      · rw [g4 c hc, Bool.or_true]
    · intro c hc
      rw [starts]
      cases v with
      | nil =>
        have hx : x.least = 0 := by simpa using h3
        rw [List.nil_append] at hc
        simp [hx, g5 c hc]
      | cons d v => rw [h5 c hc, Bool.true_or]
  | alt x y ihx ihy =>
    intro b a f z h
    rw [run] at h
    split at h
    · rename_i r hr
      cases h
      obtain ⟨v, a', hv⟩ := ihx _ _ _ _ hr
      exact ⟨v, a', hv.weak (Nat.min_le_left _ _) (fun c hc => by rw [takes, hc, Bool.true_or]) fun c hc => by rw [starts, hc, Bool.true_or]⟩
    · obtain ⟨v, a', hv⟩ := ihy _ _ _ _ h
      exact ⟨v, a', hv.weak (Nat.min_le_right _ _) (fun c hc => by rw [takes, hc, Bool.or_true]) fun c hc => by rw [starts, hc, Bool.or_true]⟩
  | star x ih =>
    intro b a f z h
    rw [run] at h
    exact repeated_took ih true _ _ _ _ _ h
  | lazy x ih =>
    intro b a f z h
    rw [run] at h
    exact repeated_took ih false _ _ _ _ _ h
  | ahead x =>
    intro b a f z h
    rw [run] at h
    split at h
    · exact stay _ _ _ _ _ _ h
    · cases h
  | nahead x =>
    intro b a f z h
    rw [run] at h
    split at h
    · cases h
    · exact stay _ _ _ _ _ _ h
  | behind s =>
    intro b a f z h
    rw [run] at h
    split at h
    · exact stay _ _ _ _ _ _ h
    · cases h
  | nbehind s =>
    intro b a f z h
    rw [run] at h
    split at h
    · cases h
    · exact stay _ _ _ _ _ _ h
  | bound =>
    intro b a f z h
    rw [run] at h
    split at h
    · cases h
    · exact stay _ _ _ _ _ _ h
  | eot =>
    intro b a f z h
    rw [run] at h
    split at h
    · exact stay _ _ _ _ _ _ h
    · cases h
  | again x ih =>
    intro b a f z h
    rw [run] at h
    obtain ⟨v, a', h1, h2, h3, h4, h5⟩ := ih _ _ _ _ h
    obtain ⟨w, a'', g1, g2⟩ := recur_took _ _ _ _ _ _ h2
    refine ⟨v ++ w, a'', by rw [h1, g1, List.append_assoc], by rw [List.reverse_append, List.append_assoc]; exact g2, ?_, ?_, ?_⟩
    · rw [least, List.length_append]
      omega
    · intro c _
      rfl
    · intro c hc
      rw [starts]
      cases v with
      | nil =>
        have hx : x.least = 0 := by simpa using h3
        simp [hx]
      | cons d v => rw [h5 c hc, Bool.true_or]

/-- A match, seen from outside. -/
theorem Re.match'_took {k : Classes} {r : Re} {b a : List Char} {n : Nat} (h : r.match' k b a = some n) :
    ∃ v a', a = v ++ a' ∧ v.length = n ∧ r.least ≤ n ∧ (∀ c ∈ v, r.takes k c = true) ∧ (∀ c ∈ v.head?, r.starts k c = true) ∧
      (r.run k b a fun b' a' => some (b', a')) = some (v.reverse ++ b, a') := by
  unfold match' at h
  split at h
  · cases h
  · rename_i b' a' hr
    cases h
    obtain ⟨v, a'', h1, h2, h3, h4, h5⟩ := r.took k _ _ _ _ hr
    simp only [Option.some.injEq, Prod.mk.injEq] at h2
    obtain ⟨rfl, rfl⟩ := h2
    have hl : a.length - a''.length = v.length := by rw [h1, List.length_append]; omega
    exact ⟨v, a'', h1, hl.symm, by omega, h4, h5, hr⟩

end EulerDB.Rules
