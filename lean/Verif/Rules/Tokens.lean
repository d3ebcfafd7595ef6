/-
The loop over the tokens and its bookkeeping of parentheses: when it raises.
-/
import Verif.Rules.First

namespace EulerDB.Rules

open EulerDB.Lex EulerDB.Group

/-- No closing parenthesis without one to close; `n` are open. -/
def balanced : Nat → List Char → Bool
  | _, [] => true
  | n, c :: r =>
    if c = '(' then balanced (n + 1) r
    else if c = ')' then (n != 0 && balanced (n - 1) r)
    else balanced n r

theorem balanced_filter : ∀ (s : List Char) (n : Nat), balanced n (s.filter isParen) = balanced n s
  | [], _ => rfl
  | c :: s, n => by
    by_cases h1 : c = '('
    · rw [List.filter_cons_of_pos (by rw [h1]; rfl), balanced, balanced, if_pos h1, if_pos h1, balanced_filter]
    · by_cases h2 : c = ')'
      · rw [List.filter_cons_of_pos (by rw [h2]; rfl), balanced, balanced, if_neg h1, if_neg h1, if_pos h2, if_pos h2, balanced_filter]
      · rw [List.filter_cons_of_neg (by simp [isParen, h1, h2]), balanced, if_neg h1, if_neg h2, balanced_filter]

theorem balanced_prefix : ∀ (a b : List Char) (n : Nat), balanced n (a ++ b) = true → balanced n a = true
  | [], _, _, _ => rfl
  | c :: a, b, n, h => by
    rw [List.cons_append, balanced] at h
    rw [balanced]
    split at h
    · rename_i h1
      rw [if_pos h1]
      exact balanced_prefix a b _ h
    · rename_i h1
      rw [if_neg h1]
      split at h
      · rename_i h2
        rw [if_pos h2, Bool.and_eq_true]
        rw [Bool.and_eq_true] at h
        exact ⟨h.1, balanced_prefix a b _ h.2⟩
      · rename_i h2
        rw [if_neg h2]
        exact balanced_prefix a b _ h

theorem parens_append (a b : List Token) : parens (a ++ b) = parens a ++ parens b := by simp [parens]

theorem parens_cons (t : Token) (l : List Token) : parens (t :: l) = (if parenTok t then t.value else []) ++ parens l := by
  rw [parens, parens, List.filter_cons]
  split <;> simp

/-- A parenthesis is not skipped as a part of a name. -/
def Seen (t u : Token) : Prop := isDot u = true → parenTok t = false

/-- What the loop does with a token changes what is open only for a parenthesis. -/
theorem onToken_plain {t : Token} (h : parenTok t = false) (v : List Char) (pos : Nat) (made : List PTok) (bk : Book) :
    ∃ p bk', onToken t v pos made bk = .ok (p, bk') ∧ bk'.opens = bk.opens ∧ p.sql = ⟨v, false, isCommentType t.ttype, pos⟩ := by
  rw [parenTok, Bool.or_eq_false_iff] at h
  simp only [onToken, h.1, h.2, Bool.false_eq_true, if_false]
  exact ⟨_, _, rfl, rfl, rfl⟩

theorem onToken_open {t : Token} (h : t.value = ['(']) (v : List Char) (pos : Nat) (made : List PTok) (bk : Book) :
    ∃ p bk', onToken t v pos made bk = .ok (p, bk') ∧ bk'.opens.length = bk.opens.length + 1 := by
  simp only [onToken, h, beq_self_eq_true, if_true]
  exact ⟨_, _, rfl, rfl⟩

theorem onToken_close {t : Token} (h : t.value = [')']) (v : List Char) (pos : Nat) (made : List PTok) (bk : Book) :
    (bk.opens = [] ∧ onToken t v pos made bk = .error .indexError) ∨
      ∃ p bk', onToken t v pos made bk = .ok (p, bk') ∧ bk'.opens.length + 1 = bk.opens.length := by
  have h1 : (t.value == ['(']) = false := by rw [h]; decide
  have h2 : (t.value == [')']) = true := by rw [h]; decide
  simp only [onToken, h1, h2, Bool.false_eq_true, if_false, if_true, Book.closing]
  cases bk.opens with
  | nil => exact .inl ⟨rfl, rfl⟩
  | cons kd r => exact .inr ⟨_, _, rfl, rfl⟩

theorem part_not_paren {t : Token} {r : List Token} (h : (t :: r).IsChain Seen) (hp : isPart t r = true) : parenTok t = false := by
  rw [isPart.eq_def, Bool.or_eq_true] at hp
  rcases hp with hd | hd
  · rw [isDot, beq_iff_eq] at hd
    rw [parenTok, hd]
    rfl
  · cases r with
    | nil => cases hd
    | cons u r => exact (List.isChain_cons_cons.1 h).1 hd

theorem chain_tail {R : Token → Token → Prop} {t : Token} {r : List Token} (h : (t :: r).IsChain R) : r.IsChain R := by
  cases r with
  | nil => exact .nil
  | cons u r => exact (List.isChain_cons_cons.1 h).2

theorem chain_left {R : Token → Token → Prop} : ∀ (a : List Token) {b : List Token}, (a ++ b).IsChain R → a.IsChain R
  | [], _, _ => .nil
  | [x], _, _ => .singleton x
  | x :: y :: a, b, h => List.isChain_cons_cons.2 ⟨(List.isChain_cons_cons.1 h).1, chain_left (y :: a) (List.isChain_cons_cons.1 h).2⟩

/-- The loop raises an `IndexError` if a parenthesis is closed that was not opened, and no error otherwise. -/
theorem tokensFrom_spec : ∀ (r before : List Token) (flag : Bool) (made : List PTok) (bk : Book), made ≠ [] → r.IsChain Seen →
    (balanced bk.opens.length (parens r) = true ∧ ∃ l, tokensFrom before flag made bk r = .ok l) ∨
    (balanced bk.opens.length (parens r) = false ∧ tokensFrom before flag made bk r = .error .indexError)
  | [], before, flag, made, bk, _, _ => .inl ⟨rfl, _, rfl⟩
  | t :: r, before, flag, made, bk, hm, hc => by
    have hc' := chain_tail hc
    by_cases hp : isPart t r = true
    · have hn := part_not_paren hc hp
      rw [parens_cons, hn, tokensFrom, if_pos hp]
      exact tokensFrom_spec r _ _ _ _ hm hc'
    · have go : ∀ p bk', onToken t (if flag then combine before (unquote t.value) else unquote t.value) before.length made bk = .ok (p, bk') →
          balanced bk'.opens.length (parens r) = balanced bk.opens.length (parens (t :: r)) →
          (balanced bk.opens.length (parens (t :: r)) = true ∧ ∃ l, tokensFrom before flag made bk (t :: r) = .ok l) ∨
          (balanced bk.opens.length (parens (t :: r)) = false ∧ tokensFrom before flag made bk (t :: r) = .error .indexError) := by
        intro p bk' h1 h2
        rw [tokensFrom, if_neg hp, if_neg (by simp [hm]), h1]
        rcases tokensFrom_spec r (t :: before) false (p :: made) bk' (by simp) hc' with ⟨h3, l, h4⟩ | ⟨h3, h4⟩
        · exact .inl ⟨by rw [← h2, h3], p :: l, by simp only [h4]⟩
        · exact .inr ⟨by rw [← h2, h3], by simp only [h4]⟩
      cases hpt : parenTok t with
      | false =>
        obtain ⟨p, bk', h1, h2, _⟩ := onToken_plain hpt (if flag then combine before (unquote t.value) else unquote t.value) before.length made bk
        exact go p bk' h1 (by rw [h2, parens_cons, hpt]; rfl)
      | true =>
        have hpt' := hpt
        rw [parenTok, Bool.or_eq_true, beq_iff_eq, beq_iff_eq] at hpt'
        rcases hpt' with hv | hv
        · obtain ⟨p, bk', h1, h2⟩ := onToken_open hv (if flag then combine before (unquote t.value) else unquote t.value) before.length made bk
          refine go p bk' h1 ?_
          rw [h2, parens_cons, hpt, if_pos rfl, hv, List.singleton_append, balanced, if_pos rfl]
        · rcases onToken_close hv (if flag then combine before (unquote t.value) else unquote t.value) before.length made bk with ⟨h1, h2⟩ | ⟨p, bk', h1, h2⟩
          · right
            rw [parens_cons, hpt, if_pos rfl, hv, List.singleton_append, balanced, if_neg (by decide), if_pos rfl, h1]
            refine ⟨rfl, ?_⟩
            rw [tokensFrom, if_neg hp, if_neg (by simp [hm]), h2]
          · refine go p bk' h1 ?_
            rw [parens_cons, hpt, if_pos rfl, hv, List.singleton_append, balanced, if_neg (by decide), if_pos rfl, ← h2]
            rfl

/-! ### From the lexer to the loop -/

/-- What is needed of the tokens. -/
structure Fine (l : List Token) : Prop where
  chain : l.IsChain BeforeDot
  kind : ∀ t ∈ l, parenTok t = true → t.ttype ≠ Integer ∧ t.ttype ≠ Name ∧ isBlank t = false
  full : ∀ t ∈ l, t.value ≠ []

theorem Shaped.fine {k : Classes} {p : Option Char} {s : List Char} {l : List Token} (h : Shaped k p s l) : Fine l :=
  ⟨h.chain, h.kind, h.full⟩

theorem Fine.left {a b : List Token} (h : Fine (a ++ b)) : Fine a :=
  ⟨chain_left a h.chain, fun t ht => h.kind t (List.mem_append_left _ ht), fun t ht => h.full t (List.mem_append_left _ ht)⟩

theorem kin_paren {a b : Token} (h : Kin a b) : parenTok b = parenTok a := by rw [parenTok, parenTok, h.1]

theorem kin_dot {a b : Token} (h : Kin a b) : isDot b = isDot a := by rw [isDot, isDot, h.1]

theorem kin_fine {l m : List Token} (h : List.Forall₂ Kin l m) (hf : Fine l) : Fine m ∧ parens m = parens l := by
  induction h with
  | nil => exact ⟨hf, rfl⟩
  | @cons a b l m hab hlm ih =>
    obtain ⟨⟨c1, c2, c3⟩, c4⟩ := ih ⟨chain_tail hf.chain, fun t ht => hf.kind t (List.mem_cons_of_mem _ ht),
      fun t ht => hf.full t (List.mem_cons_of_mem _ ht)⟩
    refine ⟨⟨?_, ?_, ?_⟩, ?_⟩
    · cases hlm with
      | nil => exact .singleton _
      | @cons a2 b2 _ _ h2 _ =>
        refine List.isChain_cons_cons.2 ⟨?_, c1⟩
        have := (List.isChain_cons_cons.1 hf.chain).1
        intro hd
        rw [kin_dot h2] at hd
        rw [kin_blank hab, kin_paren hab]
        exact this hd
    · intro t ht hp
      rcases List.mem_cons.1 ht with rfl | ht
      · rw [kin_paren hab] at hp
        have := hf.kind a (List.mem_cons_self ..) hp
        rw [kin_blank hab]
        rcases hab.2 with e | ⟨_, e⟩
        · rw [e]; exact this
        · rw [e]; exact ⟨by decide, by decide, this.2.2⟩
      · exact c2 t ht hp
    · intro t ht
      rcases List.mem_cons.1 ht with rfl | ht
      · rw [hab.1]; exact hf.full a (List.mem_cons_self ..)
      · exact c3 t ht
    · rw [parens_cons, parens_cons, kin_paren hab, hab.1, c4]

theorem joined_head {l m : List Token} (h : Joined l m) (hf : Fine l) : ∀ y ∈ m.head?, isDot y = true → l.head? = some y := by
  cases h with
  | nil => simp
  | same a _ =>
    intro y hy _
    simpa using hy
  | join v w _ =>
    intro y hy hd
    exfalso
    simp only [List.head?_cons, Option.mem_some_iff] at hy
    subst hy
    have h1 := hf.full ⟨Integer, v⟩ (by simp)
    have h2 := hf.full ⟨Name, w⟩ (by simp)
    rw [isDot, beq_iff_eq] at hd
    have := congrArg List.length hd
    rw [List.length_append, List.length_singleton] at this
    have l1 := List.length_pos_iff.2 h1
    have l2 := List.length_pos_iff.2 h2
    simp only at l1 l2
    omega

theorem joined_fine {l m : List Token} (h : Joined l m) (hf : Fine l) : Fine m ∧ parens m = parens l := by
  induction h with
  | nil => exact ⟨hf, rfl⟩
  | @same a l m hlm ih =>
    have hl : Fine l := ⟨chain_tail hf.chain, fun t ht => hf.kind t (List.mem_cons_of_mem _ ht), fun t ht => hf.full t (List.mem_cons_of_mem _ ht)⟩
    obtain ⟨⟨c1, c2, c3⟩, c4⟩ := ih hl
    refine ⟨⟨?_, ?_, ?_⟩, ?_⟩
    · cases m with
      | nil => exact .singleton _
      | cons y m =>
        refine List.isChain_cons_cons.2 ⟨?_, c1⟩
        intro hd
        have := joined_head hlm hl y rfl hd
        cases l with
        | nil => cases this
        | cons x l =>
          cases this
          exact (List.isChain_cons_cons.1 hf.chain).1 hd
    · intro t ht hp
      rcases List.mem_cons.1 ht with rfl | ht
      · exact hf.kind t (List.mem_cons_self ..) hp
      · exact c2 t ht hp
    · intro t ht
      rcases List.mem_cons.1 ht with rfl | ht
      · exact hf.full t (List.mem_cons_self ..)
      · exact c3 t ht
    · rw [parens_cons, parens_cons, c4]
  | @join v w l m hlm ih =>
    have hl : Fine l := ⟨chain_tail (chain_tail hf.chain), fun t ht => hf.kind t (List.mem_cons_of_mem _ (List.mem_cons_of_mem _ ht)),
      fun t ht => hf.full t (List.mem_cons_of_mem _ (List.mem_cons_of_mem _ ht))⟩
    obtain ⟨⟨c1, c2, c3⟩, c4⟩ := ih hl
    have l1 : 0 < v.length := List.length_pos_iff.2 (hf.full ⟨Integer, v⟩ (by simp))
    have l2 : 0 < w.length := List.length_pos_iff.2 (hf.full ⟨Name, w⟩ (by simp))
    have hnp : parenTok ⟨Name, v ++ w⟩ = false := by
      rw [parenTok, Bool.or_eq_false_iff, beq_eq_false_iff_ne, beq_eq_false_iff_ne]
      constructor
      · intro e
        have := congrArg List.length e
        simp only [List.length_append, List.length_singleton] at this
        omega
      · intro e
        have := congrArg List.length e
        simp only [List.length_append, List.length_singleton] at this
        omega
    have p1 : parenTok ⟨Integer, v⟩ = false := by
      cases hp : parenTok ⟨Integer, v⟩ with
      | false => rfl
      | true => exact absurd rfl (hf.kind ⟨Integer, v⟩ (by simp) hp).1
    have p2 : parenTok ⟨Name, w⟩ = false := by
      cases hp : parenTok ⟨Name, w⟩ with
      | false => rfl
      | true => exact absurd rfl (hf.kind ⟨Name, w⟩ (by simp) hp).2.1
    refine ⟨⟨?_, ?_, ?_⟩, ?_⟩
    · cases m with
      | nil => exact .singleton _
      | cons y m => exact List.isChain_cons_cons.2 ⟨fun _ => ⟨by simp [isBlank, Name, Whitespace], hnp⟩, c1⟩
    · intro t ht hp
      rcases List.mem_cons.1 ht with rfl | ht
      · rw [hnp] at hp; cases hp
      · exact c2 t ht hp
    · intro t ht
      rcases List.mem_cons.1 ht with rfl | ht
      · simp only [ne_eq, List.append_eq_nil_iff, not_and]
        intro e
        rw [e] at l1
        simp at l1
      · exact c3 t ht
    · rw [parens_cons, parens_cons, parens_cons, hnp, p1, p2, c4]
      rfl

/-- Dropping blanks. -/
theorem filter_blank {l : List Token} (hf : Fine l) : (l.filter fun t => !isBlank t).IsChain Seen ∧
    parens (l.filter fun t => !isBlank t) = parens l ∧
    ∀ u ∈ (l.filter fun t => !isBlank t).head?, isDot u = true → l.head? = some u := by
  induction l with
  | nil => exact ⟨.nil, rfl, by simp⟩
  | cons t l ih =>
    obtain ⟨i1, i2, i3⟩ := ih ⟨chain_tail hf.chain, fun t ht => hf.kind t (List.mem_cons_of_mem _ ht), fun t ht => hf.full t (List.mem_cons_of_mem _ ht)⟩
    have hbd : ∀ u, l.head? = some u → isDot u = true → isBlank t = false ∧ parenTok t = false := by
      intro u hu hd
      cases l with
      | nil => cases hu
      | cons x l =>
        cases hu
        exact (List.isChain_cons_cons.1 hf.chain).1 hd
    cases hb : isBlank t with
    | true =>
      rw [List.filter_cons_of_neg (by simp [hb])]
      have hp : parenTok t = false := by
        cases hp : parenTok t with
        | false => rfl
        | true => rw [(hf.kind t (List.mem_cons_self ..) hp).2.2] at hb; cases hb
      refine ⟨i1, ?_, ?_⟩
      · rw [i2, parens_cons, hp]; rfl
      · intro u hu hd
        have := (hbd u (i3 u hu hd) hd).1
        rw [hb] at this
        cases this
    | false =>
      rw [List.filter_cons_of_pos (by simp [hb])]
      refine ⟨?_, ?_, ?_⟩
      · generalize hfl : (l.filter fun t => !isBlank t) = fl at i1 i3
        cases fl with
        | nil => exact .singleton _
        | cons u fl => exact List.isChain_cons_cons.2 ⟨fun hd => (hbd u (i3 u rfl hd) hd).2, i1⟩
      · rw [parens_cons, parens_cons, i2]
      · intro u hu _
        simpa using hu

/-- The first statement of a stream: what has been read and more of the stream. -/
theorem splitFrom_head : ∀ (r : List Token) (s : State), s.tokens.all isSpace = false →
    ∃ x more, splitFrom s r = (s.tokens ++ x) :: more ∧ x <+: r
  | [], s, h => by
    have hne : s.tokens ≠ [] := by intro e; rw [e] at h; cases h
    exact ⟨[], [], by rw [splitFrom, if_pos ⟨hne, h⟩, List.append_nil], List.nil_prefix⟩
  | t :: r, s, h => by
    rw [splitFrom]
    split
    · exact ⟨[], _, by rw [List.append_nil], List.nil_prefix⟩
    · obtain ⟨x, more, h1, h2⟩ := splitFrom_head r (addToken s t) (by rw [addToken_tokens, List.all_append, h]; rfl)
      rw [addToken_tokens] at h1
      exact ⟨t :: x, more, by rw [h1]; simp, (List.prefix_cons_inj t).2 h2⟩

/-- A token before which are only blanks stays a token when numbers and names are joined. -/
theorem joined_first : ∀ (pre : List Token) {t : Token} {x k : List Token}, (∀ y ∈ pre, isBlank y = true) → t.ttype ≠ Integer →
    Joined (pre ++ t :: x) k → ∃ x', k = pre ++ t :: x' ∧ Joined x x'
  | [], t, x, k, _, ht, h => by
    rw [List.nil_append] at h
    cases h with
    | same _ h => exact ⟨_, rfl, h⟩
    | join => exact absurd rfl ht
  | p :: pre, t, x, k, hp, ht, h => by
    rw [List.cons_append] at h
    generalize he : p :: (pre ++ t :: x) = l at h
    cases h with
    | nil => cases he
    | same a h =>
      rw [List.cons.injEq] at he
      obtain ⟨rfl, rfl⟩ := he
      obtain ⟨x', e, h'⟩ := joined_first pre (fun y hy => hp y (List.mem_cons_of_mem _ hy)) ht h
      exact ⟨x', by rw [e]; rfl, h'⟩
    | join v w h =>
      rw [List.cons.injEq] at he
      have := hp p (List.mem_cons_self ..)
      rw [he.1] at this
      exact absurd this (by simp [isBlank, Integer, Whitespace])

end EulerDB.Rules
