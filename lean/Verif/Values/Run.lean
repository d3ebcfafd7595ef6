/-
The loop over the tokens of a statement without dots, and what it leaves in the tokens.
-/
import Verif.Values.Model

namespace EulerDB.Values

open EulerDB.Lex EulerDB.Group EulerDB.Rules

/-- The loop for tokens none of which is a part of a longer name. -/
def run (pos : Nat) (made : List PTok) (bk : Book) : List Token → Except PyErr (List VTok × Book)
  | [] => .ok ([], bk)
  | t :: r =>
    match onToken t (unquote t.value) pos made bk with
    | .error e => .error e
    | .ok (p, bk') =>
      match run (pos + 1) (p :: made) bk' r with
      | .error e => .error e
      | .ok (l, bk'') => .ok (⟨p, t.ttype⟩ :: l, bk'')

theorem isPart_dotless {t : Token} {r : List Token} (h : ∀ u ∈ t :: r, isDot u = false) : isPart t r = false := by
  rw [isPart.eq_def, h t (List.mem_cons_self ..), Bool.false_or]
  cases r with
  | nil => rfl
  | cons u r => exact h u (List.mem_cons_of_mem _ (List.mem_cons_self ..))

theorem tokensFrom_run : ∀ (l before : List Token) (made : List PTok) (bk : Book), (∀ t ∈ l, isDot t = false) →
    (made = [] → before = []) → tokensFrom before false made bk l = (run before.length made bk l).map fun x => x.1.map VTok.p
  | [], _, _, _, _, _ => rfl
  | t :: r, before, made, bk, hd, hm => by
    rw [tokensFrom, isPart_dotless hd, if_neg (by simp), if_neg (by rintro ⟨a, b⟩; exact b (hm a)), run]
    simp only [Bool.false_eq_true, if_false]
    cases h : onToken t (unquote t.value) before.length made bk with
    | error e => rfl
    | ok x =>
      obtain ⟨p, bk'⟩ := x
      have ih := tokensFrom_run r (t :: before) (p :: made) bk' (fun u hu => hd u (List.mem_cons_of_mem _ hu)) (by simp)
      rw [List.length_cons] at ih
      simp only [ih]
      cases run (before.length + 1) (p :: made) bk' r with
      | error e => rfl
      | ok y => rfl

theorem run_append : ∀ (a : List Token) (pos : Nat) (made : List PTok) (bk : Book) (b : List Token) {va : List VTok} {bk1 : Book},
    run pos made bk a = .ok (va, bk1) → run pos made bk (a ++ b) =
      (run (pos + a.length) ((va.map VTok.p).reverse ++ made) bk1 b).map fun x => (va ++ x.1, x.2)
  | [], pos, made, bk, b, va, bk1, h => by
    cases h
    rw [List.nil_append, List.length_nil, Nat.add_zero]
    show run pos made bk b = (run pos made bk b).map fun x => ([] ++ x.1, x.2)
    cases run pos made bk b <;> rfl
  | t :: a, pos, made, bk, b, va, bk1, h => by
    rw [run] at h
    rw [List.cons_append, run]
    cases h1 : onToken t (unquote t.value) pos made bk with
    | error e => rw [h1] at h; cases h
    | ok x =>
      obtain ⟨p, bk'⟩ := x
      rw [h1] at h
      dsimp only at h ⊢
      cases h2 : run (pos + 1) (p :: made) bk' a with
      | error e => rw [h2] at h; cases h
      | ok y =>
        obtain ⟨l, bk''⟩ := y
        rw [h2] at h
        cases h
        rw [run_append a (pos + 1) (p :: made) bk' b h2]
        have e1 : pos + 1 + a.length = pos + (t :: a).length := by rw [List.length_cons]; omega
        have e2 : (l.map VTok.p).reverse ++ p :: made = ((⟨p, t.ttype⟩ :: l : List VTok).map VTok.p).reverse ++ made := by simp
        rw [e1, e2]
        cases run (pos + (t :: a).length) (((⟨p, t.ttype⟩ :: l : List VTok).map VTok.p).reverse ++ made) bk1 b <;> rfl

theorem onToken_position {t : Token} {v : List Char} {pos : Nat} {made : List PTok} {bk bk' : Book} {p : PTok}
    (h : onToken t v pos made bk = .ok (p, bk')) : p.position = pos := by
  unfold onToken at h
  dsimp only at h
  split at h
  · cases h; rfl
  · split at h
    · split at h
      · cases h
      · cases h; rfl
    · cases h; rfl

/-- The types are found again by the positions. -/
theorem run_typed : ∀ (l : List Token) (pos : Nat) (made : List PTok) (bk : Book) (whole : List Token) {vs : List VTok} {bk' : Book},
    run pos made bk l = .ok (vs, bk') → whole.drop pos = l → typed whole (vs.map VTok.p) = vs
  | [], _, _, _, _, _, _, h, _ => by cases h; rfl
  | t :: r, pos, made, bk, whole, vs, bk', h, hw => by
    rw [run] at h
    cases h1 : onToken t (unquote t.value) pos made bk with
    | error e => rw [h1] at h; cases h
    | ok x =>
      obtain ⟨p, bk1⟩ := x
      rw [h1] at h
      dsimp only at h
      cases h2 : run (pos + 1) (p :: made) bk1 r with
      | error e => rw [h2] at h; cases h
      | ok y =>
        obtain ⟨l, bk''⟩ := y
        rw [h2] at h
        cases h
        have ht : whole[pos]? = some t := by
          rw [← List.head?_drop, hw]; rfl
        have hr : whole.drop (pos + 1) = r := by
          rw [← List.tail_drop, hw]; rfl
        have ih := run_typed r (pos + 1) _ _ whole h2 hr
        rw [typed] at ih ⊢
        rw [List.map_cons, List.map_cons, ih]
        dsimp only
        rw [onToken_position h1, ht]
        rfl

/-! ### The keyword before a token and the open parentheses -/

/-- How many parentheses are open after the characters; none if one is closed that was not opened. -/
def closes : Nat → List Char → Option Nat
  | n, [] => some n
  | n, c :: r => if c = '(' then closes (n + 1) r else if c = ')' then (match n with | 0 => none | n + 1 => closes n r) else closes n r

/-- What the loop keeps true. -/
def Book.Even (bk : Book) : Prop := bk.level = (bk.opens.length : Int)

theorem onToken_even {t : Token} {v : List Char} {pos : Nat} {made : List PTok} {bk bk' : Book} {p : PTok} (hb : Book.Even bk)
    (h : onToken t v pos made bk = .ok (p, bk')) : Book.Even bk' ∧ p.level = bk'.level := by
  unfold Book.Even at hb ⊢
  unfold onToken at h
  dsimp only at h
  split at h
  · cases h; refine ⟨?_, rfl⟩; simp only [Book.opening, List.length_cons]; omega
  · split at h
    · unfold Book.closing at h
      cases ho : bk.opens with
      | nil => rw [ho] at h; cases h
      | cons kd r =>
        rw [ho] at h
        cases h
        refine ⟨?_, rfl⟩
        rw [ho] at hb
        simp only [List.length_cons] at hb ⊢
        omega
    · cases h; exact ⟨hb, rfl⟩

/-- The keywords that change what `last_keyword` is. -/
def keyed (w : String) (t : Token) : Bool := isKeywordTok t && normalized (unquote t.value) == w

theorem lastKeyword_or (t : Token) (v : List Char) (made : List PTok) (bk : Book) :
    lastKeyword t v made bk = bk.last ∨ (lastKeyword t v made bk = normalized v ∧ isKeywordTok t = true) := by
  unfold lastKeyword
  dsimp only
  generalize hc : (_ && _ && _ && _ && _ : Bool) = c
  cases c with
  | true =>
    simp only [Bool.and_eq_true] at hc
    exact .inr ⟨rfl, hc.1.1.1.1⟩
  | false => exact .inl rfl

theorem lastKeyword_not {t : Token} {w : String} (h : keyed w t = false) {made : List PTok} {bk : Book} (hb : bk.last ≠ w) :
    lastKeyword t (unquote t.value) made bk ≠ w := by
  rcases lastKeyword_or t (unquote t.value) made bk with e | ⟨e, e'⟩
  · rw [e]; exact hb
  · rw [e]
    intro he
    rw [keyed, e', he] at h
    simp at h

theorem lastKeyword_none {t : Token} {v : List Char} (h : isKeywordTok t = false) {made : List PTok} {bk : Book} :
    lastKeyword t v made bk = bk.last := by
  rcases lastKeyword_or t v made bk with e | ⟨_, e⟩
  · exact e
  · rw [h] at e; cases e

theorem opening_last (bk : Book) (kd : Kind) : (bk.opening kd).last = bk.last := rfl

/-- The keyword of a token is the last before it. -/
theorem onToken_last {t : Token} {v : List Char} {pos : Nat} {made : List PTok} {bk bk' : Book} {p : PTok}
    (h : onToken t v pos made bk = .ok (p, bk')) : p.lastKeyword = bk.last ∧ p.value = v ∧ p.left = (t.value == ['(']) ∧
      p.right = (t.value == [')']) ∧ ∃ bk1 : Book, bk1.last = bk.last ∧ bk'.last = lastKeyword t v made bk1 := by
  unfold onToken at h
  dsimp only at h
  split at h
  · cases h; exact ⟨rfl, rfl, rfl, rfl, bk.opening _, rfl, rfl⟩
  · split at h
    · unfold Book.closing at h
      cases ho : bk.opens with
      | nil => rw [ho] at h; cases h
      | cons kd r => rw [ho] at h; cases h; exact ⟨rfl, rfl, rfl, rfl, ⟨r, _, _, _, _, bk.last⟩, rfl, rfl⟩
    · cases h; exact ⟨rfl, rfl, rfl, rfl, bk, rfl, rfl⟩

theorem onToken_opens {t : Token} (v : List Char) (pos : Nat) (made : List PTok) (bk : Book) {d : Nat}
    (h : closes bk.opens.length (if parenTok t then t.value else []) = some d) :
    ∃ p bk', onToken t v pos made bk = .ok (p, bk') ∧ bk'.opens.length = d := by
  cases hp : parenTok t with
  | false =>
    obtain ⟨p, bk', h1, h2, _⟩ := onToken_plain hp v pos made bk
    rw [hp] at h
    cases h
    exact ⟨p, bk', h1, by rw [h2]⟩
  | true =>
    have hp' := hp
    rw [parenTok, Bool.or_eq_true, beq_iff_eq, beq_iff_eq] at hp'
    rw [hp, if_pos rfl] at h
    rcases hp' with hv | hv
    · obtain ⟨p, bk', h1, h2⟩ := onToken_open hv v pos made bk
      rw [hv] at h
      cases h
      exact ⟨p, bk', h1, h2⟩
    · rw [hv] at h
      rcases onToken_close hv v pos made bk with ⟨h1, h2⟩ | ⟨p, bk', h1, h2⟩
      · rw [h1] at h
        cases h
      · refine ⟨p, bk', h1, ?_⟩
        rw [← h2] at h
        cases h
        rfl

theorem closes_append : ∀ (a b : List Char) (n : Nat), closes n (a ++ b) = (closes n a).bind fun m => closes m b
  | [], _, _ => rfl
  | c :: a, b, n => by
    rw [List.cons_append, closes.eq_def n (c :: (a ++ b)), closes.eq_def n (c :: a)]
    dsimp only
    split
    · exact closes_append a b _
    · split
      · cases n with
        | zero => rfl
        | succ n => exact closes_append a b _
      · exact closes_append a b _

/-- The loop ends without an error and leaves as many open parentheses as the characters do. -/
theorem run_closes : ∀ (l : List Token) (pos : Nat) (made : List PTok) (bk : Book) {d : Nat},
    closes bk.opens.length (parens l) = some d → ∃ vs bk', run pos made bk l = .ok (vs, bk') ∧ bk'.opens.length = d
  | [], pos, made, bk, d, h => by cases h; exact ⟨[], bk, rfl, rfl⟩
  | t :: r, pos, made, bk, d, h => by
    rw [parens_cons, closes_append] at h
    cases hc : closes bk.opens.length (if parenTok t then t.value else []) with
    | none => rw [hc] at h; cases h
    | some m =>
      rw [hc, Option.bind_some] at h
      obtain ⟨p, bk', h1, h2⟩ := onToken_opens (unquote t.value) pos made bk hc
      rw [← h2] at h
      obtain ⟨vs, bk'', h3, h4⟩ := run_closes r (pos + 1) (p :: made) bk' h
      exact ⟨⟨p, t.ttype⟩ :: vs, bk'', by rw [run, h1]; simp only [h3], h4⟩

/-- Taking the loop apart. -/
theorem run_cons {t : Token} {r : List Token} {pos : Nat} {made : List PTok} {bk bk' : Book} {vs : List VTok}
    (h : run pos made bk (t :: r) = .ok (vs, bk')) : ∃ p bk1 l, onToken t (unquote t.value) pos made bk = .ok (p, bk1) ∧
      run (pos + 1) (p :: made) bk1 r = .ok (l, bk') ∧ vs = ⟨p, t.ttype⟩ :: l := by
  rw [run] at h
  cases h1 : onToken t (unquote t.value) pos made bk with
  | error e => rw [h1] at h; cases h
  | ok x =>
    obtain ⟨p, bk1⟩ := x
    rw [h1] at h
    dsimp only at h
    cases h2 : run (pos + 1) (p :: made) bk1 r with
    | error e => rw [h2] at h; cases h
    | ok y =>
      obtain ⟨l, bk''⟩ := y
      rw [h2] at h
      cases h
      exact ⟨p, bk1, l, rfl, h2, rfl⟩

theorem run_even : ∀ (l : List Token) (pos : Nat) (made : List PTok) (bk bk' : Book) (vs : List VTok), Book.Even bk →
    run pos made bk l = .ok (vs, bk') → Book.Even bk'
  | [], _, _, _, _, _, hb, h => by cases h; exact hb
  | t :: r, pos, made, bk, bk', vs, hb, h => by
    obtain ⟨p, bk1, l, h1, h2, _⟩ := run_cons h
    exact run_even r _ _ _ _ _ (onToken_even hb h1).1 h2

/-- Without the keyword `w` no token has it as its keyword. -/
theorem run_not : ∀ (l : List Token) (w : String) (pos : Nat) (made : List PTok) (bk bk' : Book) (vs : List VTok), bk.last ≠ w →
    (∀ t ∈ l, keyed w t = false) → run pos made bk l = .ok (vs, bk') → bk'.last ≠ w ∧ ∀ v ∈ vs, v.p.lastKeyword ≠ w
  | [], _, _, _, _, _, _, hb, _, h => by cases h; exact ⟨hb, by simp⟩
  | t :: r, w, pos, made, bk, bk', vs, hb, hk, h => by
    obtain ⟨p, bk1, l, h1, h2, rfl⟩ := run_cons h
    obtain ⟨g1, _, _, _, b, g2, g3⟩ := onToken_last h1
    have hb1 : bk1.last ≠ w := by
      rw [g3]
      exact lastKeyword_not (hk t (List.mem_cons_self ..)) (by rw [g2]; exact hb)
    obtain ⟨i1, i2⟩ := run_not r w _ _ _ _ _ hb1 (fun u hu => hk u (List.mem_cons_of_mem _ hu)) h2
    refine ⟨i1, fun v hv => ?_⟩
    rcases List.mem_cons.1 hv with rfl | hv
    · rw [g1]; exact hb
    · exact i2 v hv

/-- The tokens that come out are those that go in, with their own types and values. -/
theorem run_forall : ∀ (l : List Token) (pos : Nat) (made : List PTok) (bk bk' : Book) (vs : List VTok),
    run pos made bk l = .ok (vs, bk') → List.Forall₂ (fun t v => v.ttype = t.ttype ∧ v.p.value = unquote t.value ∧
      v.open' = !parenTok t) l vs
  | [], _, _, _, _, _, h => by cases h; exact .nil
  | t :: r, pos, made, bk, bk', vs, h => by
    obtain ⟨p, bk1, l, h1, h2, rfl⟩ := run_cons h
    obtain ⟨_, g1, g2, g3, _⟩ := onToken_last h1
    refine .cons ⟨rfl, g1, ?_⟩ (run_forall r _ _ _ _ _ h2)
    rw [VTok.open', parenTok]
    simp only [g2, g3, Bool.not_or]

end EulerDB.Values
