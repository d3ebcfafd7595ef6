/-
C101: an expression written by the formatter of the second SQL grammar is read again as the same expression.
-/
import Verif.Presto.Model
import Mathlib.Logic.Function.Iterate
import Mathlib.Tactic.Ring

namespace EulerDB.Presto

/-! ### Expressions that are read again -/

def isSign : Ex → Bool
  | .sign _ _ => true
  | _ => false

/-- Values with no minus sign, no sign before a sign and no quote in a string. -/
def plain : Ex → Prop
  | .null | .num _ | .name _ => True
  | .str s => '\'' ∉ s
  | .sign m e => m = false ∧ isSign e = false ∧ plain e
  | .arith _ l r => plain l ∧ plain r
  | _ => False

theorem dbl_of_no_quote : ∀ s : List Char, '\'' ∉ s → dbl s = s
  | [], _ => rfl
  | c :: r, h => by
    have hc : c ≠ '\'' := fun e => h (by simp [e])
    have := dbl_of_no_quote r (fun e => h (List.mem_cons_of_mem _ e))
    simp only [dbl, List.flatMap_cons, if_neg hc] at this ⊢
    simp [this]

theorem reads_plain : ∀ e : Ex, plain e →
    Reads .factor (fmt e) e ∧ (isSign e = false → Reads .prim (fmt e) e) := by
  intro e
  induction e with
  | null => exact fun _ => ⟨.unsigned .null, fun _ => .null⟩
  | num n => exact fun _ => ⟨.unsigned (.num n), fun _ => .num n⟩
  | str s =>
    intro h
    have : fmt (.str s) = [.str s] := by simp [fmt, dbl_of_no_quote s h]
    rw [this]; exact ⟨.unsigned (.str s), fun _ => .str s⟩
  | name p => exact fun _ => ⟨.unsigned (.name p), fun _ => .name p⟩
  | sign m e ih =>
    intro h
    obtain ⟨hm, hs, hp⟩ := h
    subst hm
    exact ⟨.plus ((ih hp).2 hs), fun c => by simp [isSign] at c⟩
  | arith op l r ihl ihr =>
    intro h
    have hl := (ihl h.1).1
    have hr := (ihr h.2).1
    have key : Reads .value (fmt l ++ aTok op :: fmt r) (.arith op l r) := by
      by_cases h1 : op = .add
      · subst h1; exact .add (.term (.factor hl)) (.factor hr)
      · by_cases h2 : op = .sub
        · subst h2; exact .sub (.term (.factor hl)) (.factor hr)
        · exact .term (.mul op h1 h2 (.factor hl) hr)
    have : Reads .prim (fmt (.arith op l r)) (.arith op l r) := by
      have := Reads.paren key
      simpa [fmt] using this
    exact ⟨.unsigned this, fun _ => this⟩
  | _ => intro h; exact h.elim

theorem C101_value_partial (e : Ex) (h : plain e) : Reads .value (fmt e) e :=
  .term (.factor (reads_plain e h).1)

/-- Conditions whose parts are plain values. -/
def flat : Ex → Prop
  | .cmp _ l r => plain l ∧ plain r
  | .isNull _ e => plain e
  | .between v a b => plain v ∧ plain a ∧ plain b
  | .like v p => plain v ∧ plain p
  | .not e => plain e
  | .logic _ l r => plain l ∧ plain r
  | _ => False

theorem C101_where_partial (e : Ex) (h : flat e) : Reads .where_ (fmt e) e := by
  cases e with
  | cmp op l r =>
    have := Reads.whereParen (.termB (.test (.cmp op (C101_value_partial l h.1) (C101_value_partial r h.2))))
    simpa [fmt] using this
  | isNull b e =>
    cases b with
    | false =>
      have := Reads.whereParen (.termB (.test (.isNull (C101_value_partial e h))))
      simpa [fmt] using this
    | true =>
      have := Reads.whereParen (.termB (.test (.isNotNull (C101_value_partial e h))))
      simpa [fmt] using this
  | between v a b =>
    have := Reads.whereParen (.termB (.test (.between (C101_value_partial v h.1) (C101_value_partial a h.2.1)
      (C101_value_partial b h.2.2))))
    simpa [fmt] using this
  | like v p =>
    have := Reads.whereParen (.termB (.test (.like (C101_value_partial v h.1) (C101_value_partial p h.2))))
    simpa [fmt] using this
  | not e =>
    have := Reads.whereParen (.termB (.not (.value (C101_value_partial e h))))
    simpa [fmt] using this
  | logic c l r =>
    have hl := C101_value_partial l h.1
    have hr := C101_value_partial r h.2
    cases c with
    | true =>
      have := Reads.whereParen (.termB (.and (.test (.value hl)) (.test (.value hr))))
      simpa [fmt] using this
    | false =>
      have := Reads.whereParen (.or (.termB (.test (.value hl))) (.test (.value hr)))
      simpa [fmt] using this
  | _ => exact h.elim

example : plain (.arith .mul (.name [['a']]) (.sign false (.num 3))) := by simp [plain, isSign]
example : flat (.cmp .lt (.name [['a']]) (.str ['x'])) := by simp [flat, plain]

/-! ### The text of two expressions -/

/-- No sign is a minus. -/
def noMinus : Ex → Prop
  | .null | .num _ | .name _ | .str _ => True
  | .sign m e => m = false ∧ noMinus e
  | .not e | .isNull _ e => noMinus e
  | .arith _ l r | .cmp _ l r | .logic _ l r | .like l r => noMinus l ∧ noMinus r
  | .between v a b => noMinus v ∧ noMinus a ∧ noMinus b

theorem dbl_inj : ∀ s t : List Char, dbl s = dbl t → s = t
  | [], [], _ => rfl
  | [], c :: r, h => by
    exfalso; by_cases hc : c = '\'' <;> simp [dbl, hc] at h
  | c :: r, [], h => by
    exfalso; by_cases hc : c = '\'' <;> simp [dbl, hc] at h
  | c :: r, d :: u, h => by
    have ih := dbl_inj r u
    simp only [dbl, List.flatMap_cons] at h ih
    by_cases hc : c = '\'' <;> by_cases hd : d = '\''
    · simp only [hc, hd, if_true, List.cons_append, List.nil_append, List.cons.injEq, true_and] at h
      rw [hc, hd, ih h]
    · simp only [hc, hd, if_true, if_false, List.cons_append, List.nil_append, List.cons.injEq] at h
      exact absurd h.1.symm hd
    · simp only [hc, hd, if_true, if_false, List.cons_append, List.nil_append, List.cons.injEq] at h
      exact h.1.elim
    · simp only [hc, hd, if_false, List.cons_append, List.nil_append, List.cons.injEq] at h
      rw [h.1, ih h.2]

theorem aTok_inj (a b : AOp) (h : aTok a = aTok b) : a = b := by
  cases a <;> cases b <;> simp_all [aTok]

theorem fmt_ne_not (e : Ex) (r u : List Tok) : fmt e ++ r ≠ .not :: u := by
  cases e with
  | isNull b e => cases b <;> simp [fmt]
  | _ => simp [fmt]

/-- The left operand of what is written in parentheses, and what follows it. -/
def left : Ex → Option (Ex × List Tok)
  | .arith op l r => some (l, aTok op :: (fmt r ++ [.rp]))
  | .cmp op l r => some (l, .cmp op :: (fmt r ++ [.rp]))
  | .logic c l r => some (l, (if c then .and else .or) :: (fmt r ++ [.rp]))
  | .isNull false e => some (e, [.is, .null, .rp])
  | .isNull true e => some (e, [.is, .not, .null, .rp])
  | .between v a b => some (v, .between :: (fmt a ++ .and :: (fmt b ++ [.rp])))
  | .like v p => some (v, .like :: (fmt p ++ [.rp]))
  | _ => none

theorem fmt_left (f l : Ex) (t : List Tok) (h : left f = some (l, t)) : fmt f = .lp :: (fmt l ++ t) := by
  cases f with
  | isNull b e => cases b <;> simp [left] at h <;> obtain ⟨rfl, rfl⟩ := h <;> simp [fmt]
  | _ => simp [left] at h <;> obtain ⟨rfl, rfl⟩ := h <;> simp [fmt]

theorem noMinus_left (f l : Ex) (t : List Tok) (h : left f = some (l, t)) (hf : noMinus f) : noMinus l := by
  cases f with
  | isNull b e => cases b <;> simp [left] at h <;> obtain ⟨rfl, rfl⟩ := h <;> simpa [noMinus] using hf
  | _ => simp [left] at h <;> obtain ⟨rfl, rfl⟩ := h <;> simp only [noMinus] at hf <;> exact hf.1

/-- An expression whose text begins with a parenthesis and then an expression. -/
theorem left_of_text (f : Ex) (x : Ex) (y u : List Tok) (h : fmt f ++ u = .lp :: (fmt x ++ y)) :
    ∃ l t, left f = some (l, t) ∧ fmt l ++ (t ++ u) = fmt x ++ y := by
  cases f with
  | isNull b e => cases b <;> exact ⟨_, _, rfl, by simpa [fmt] using h⟩
  | not e =>
    exfalso
    simp only [fmt, List.cons_append, List.cons.injEq, true_and] at h
    exact fmt_ne_not x y _ h.symm
  | null => simp [fmt] at h
  | num n => simp [fmt] at h
  | str n => simp [fmt] at h
  | name n => simp [fmt] at h
  | sign m e => simp [fmt] at h
  | _ => exact ⟨_, _, rfl, by simpa [fmt] using h⟩

theorem fmt_prefix : ∀ e f : Ex, noMinus e → noMinus f → ∀ r u, fmt e ++ r = fmt f ++ u → e = f ∧ r = u := by
  intro e
  induction e with
  | null =>
    intro f _ _ r u h
    cases f with
    | isNull b e => cases b <;> simp [fmt] at h
    | _ => simp_all [fmt]
  | num n =>
    intro f _ _ r u h
    cases f with
    | isNull b e => cases b <;> simp [fmt] at h
    | _ => simp_all [fmt]
  | name n =>
    intro f _ _ r u h
    cases f with
    | isNull b e => cases b <;> simp [fmt] at h
    | _ => simp_all [fmt]
  | str n =>
    intro f _ _ r u h
    cases f with
    | isNull b e => cases b <;> simp [fmt] at h
    | str s =>
      simp only [fmt, List.cons_append, List.nil_append, List.cons.injEq, Tok.str.injEq] at h
      exact ⟨by rw [dbl_inj _ _ h.1], h.2⟩
    | _ => simp_all [fmt]
  | sign m e ih =>
    intro f he hf r u h
    cases f with
    | isNull b e => cases b <;> simp [fmt] at h
    | sign m' f =>
      simp only [fmt, List.cons_append, List.cons.injEq, true_and] at h
      obtain ⟨h1, h2⟩ := ih f he.2 hf.2 r u h
      exact ⟨by rw [h1, he.1, hf.1], h2⟩
    | _ => simp_all [fmt]
  | not e ih =>
    intro f he hf r u h
    cases hl : left f with
    | some p =>
      exfalso
      rw [fmt_left f p.1 p.2 hl] at h
      simp only [fmt, List.cons_append, List.append_assoc, List.cons.injEq, true_and] at h
      exact fmt_ne_not _ _ _ h.symm
    | none =>
      cases f with
      | isNull b e => cases b <;> simp [left] at hl
      | not f =>
        simp only [fmt, List.cons_append, List.append_assoc, List.cons.injEq, true_and] at h
        obtain ⟨h1, h2⟩ := ih f he hf _ _ h
        simp only [List.nil_append, List.cons.injEq, true_and] at h2
        exact ⟨by rw [h1], h2⟩
      | _ => simp_all [fmt, left]
  | arith op l r' ihl ihr =>
    intro f he hf r u h
    obtain ⟨x, t, hx, hq⟩ := left_of_text f l (aTok op :: (fmt r' ++ .rp :: r)) u (by rw [← h]; simp [fmt])
    obtain ⟨h1, h2⟩ := ihl x he.1 (noMinus_left f x t hx hf) _ _ hq.symm
    cases f with
    | arith op2 l2 r2 =>
      simp only [left, Option.some.injEq, Prod.mk.injEq] at hx
      obtain ⟨rfl, rfl⟩ := hx
      simp only [List.cons_append, List.append_assoc, List.cons.injEq] at h2
      obtain ⟨h3, h4⟩ := ihr r2 he.2 hf.2 _ _ h2.2
      simp only [List.nil_append, List.cons.injEq, true_and] at h4
      exact ⟨by rw [h1, h3, aTok_inj _ _ h2.1], h4⟩
    | isNull b e => cases b <;> simp [left] at hx <;> obtain ⟨rfl, rfl⟩ := hx <;> cases op <;> simp [aTok] at h2
    | logic c l2 r2 =>
      simp [left] at hx; obtain ⟨rfl, rfl⟩ := hx
      cases op <;> cases c <;> simp [aTok] at h2
    | _ => simp [left] at hx <;> obtain ⟨rfl, rfl⟩ := hx <;> cases op <;> simp [aTok] at h2
  | cmp op l r' ihl ihr =>
    intro f he hf r u h
    obtain ⟨x, t, hx, hq⟩ := left_of_text f l (.cmp op :: (fmt r' ++ .rp :: r)) u (by rw [← h]; simp [fmt])
    obtain ⟨h1, h2⟩ := ihl x he.1 (noMinus_left f x t hx hf) _ _ hq.symm
    cases f with
    | cmp op2 l2 r2 =>
      simp only [left, Option.some.injEq, Prod.mk.injEq] at hx
      obtain ⟨rfl, rfl⟩ := hx
      simp only [List.cons_append, List.append_assoc, List.cons.injEq, Tok.cmp.injEq] at h2
      obtain ⟨h3, h4⟩ := ihr r2 he.2 hf.2 _ _ h2.2
      simp only [List.nil_append, List.cons.injEq, true_and] at h4
      exact ⟨by rw [h1, h3, h2.1], h4⟩
    | arith op2 l2 r2 =>
      simp [left] at hx; obtain ⟨rfl, rfl⟩ := hx
      cases op2 <;> simp [aTok] at h2
    | isNull b e => cases b <;> simp [left] at hx <;> obtain ⟨rfl, rfl⟩ := hx <;> simp at h2
    | logic c l2 r2 =>
      simp [left] at hx; obtain ⟨rfl, rfl⟩ := hx
      cases c <;> simp at h2
    | _ => simp [left] at hx <;> obtain ⟨rfl, rfl⟩ := hx <;> simp at h2
  | logic c l r' ihl ihr =>
    intro f he hf r u h
    obtain ⟨x, t, hx, hq⟩ := left_of_text f l ((if c then .and else .or) :: (fmt r' ++ .rp :: r)) u
      (by rw [← h]; simp [fmt])
    obtain ⟨h1, h2⟩ := ihl x he.1 (noMinus_left f x t hx hf) _ _ hq.symm
    cases f with
    | logic c2 l2 r2 =>
      simp only [left, Option.some.injEq, Prod.mk.injEq] at hx
      obtain ⟨rfl, rfl⟩ := hx
      simp only [List.cons_append, List.append_assoc, List.cons.injEq] at h2
      obtain ⟨h3, h4⟩ := ihr r2 he.2 hf.2 _ _ h2.2
      simp only [List.nil_append, List.cons.injEq, true_and] at h4
      have hc : c = c2 := by
        have := h2.1
        cases c <;> cases c2 <;> simp at this ⊢
      exact ⟨by rw [h1, h3, hc], h4⟩
    | arith op2 l2 r2 =>
      simp [left] at hx; obtain ⟨rfl, rfl⟩ := hx
      cases c <;> cases op2 <;> simp [aTok] at h2
    | isNull b e => cases b <;> simp [left] at hx <;> obtain ⟨rfl, rfl⟩ := hx <;> cases c <;> simp at h2
    | _ => simp [left] at hx <;> obtain ⟨rfl, rfl⟩ := hx <;> cases c <;> simp at h2
  | like l r' ihl ihr =>
    intro f he hf r u h
    obtain ⟨x, t, hx, hq⟩ := left_of_text f l (.like :: (fmt r' ++ .rp :: r)) u (by rw [← h]; simp [fmt])
    obtain ⟨h1, h2⟩ := ihl x he.1 (noMinus_left f x t hx hf) _ _ hq.symm
    cases f with
    | like l2 r2 =>
      simp only [left, Option.some.injEq, Prod.mk.injEq] at hx
      obtain ⟨rfl, rfl⟩ := hx
      simp only [List.cons_append, List.append_assoc, List.cons.injEq, true_and] at h2
      obtain ⟨h3, h4⟩ := ihr r2 he.2 hf.2 _ _ h2
      simp only [List.nil_append, List.cons.injEq, true_and] at h4
      exact ⟨by rw [h1, h3], h4⟩
    | arith op2 l2 r2 =>
      simp [left] at hx; obtain ⟨rfl, rfl⟩ := hx
      cases op2 <;> simp [aTok] at h2
    | isNull b e => cases b <;> simp [left] at hx <;> obtain ⟨rfl, rfl⟩ := hx <;> simp at h2
    | logic c l2 r2 =>
      simp [left] at hx; obtain ⟨rfl, rfl⟩ := hx
      cases c <;> simp at h2
    | _ => simp [left] at hx <;> obtain ⟨rfl, rfl⟩ := hx <;> simp at h2
  | between v a b ihv iha ihb =>
    intro f he hf r u h
    obtain ⟨x, t, hx, hq⟩ := left_of_text f v (.between :: (fmt a ++ .and :: (fmt b ++ .rp :: r))) u
      (by rw [← h]; simp [fmt])
    obtain ⟨h1, h2⟩ := ihv x he.1 (noMinus_left f x t hx hf) _ _ hq.symm
    cases f with
    | between v2 a2 b2 =>
      simp only [left, Option.some.injEq, Prod.mk.injEq] at hx
      obtain ⟨rfl, rfl⟩ := hx
      simp only [List.cons_append, List.append_assoc, List.cons.injEq, true_and] at h2
      obtain ⟨h3, h4⟩ := iha a2 he.2.1 hf.2.1 _ _ h2
      simp only [List.cons.injEq, true_and] at h4
      obtain ⟨h5, h6⟩ := ihb b2 he.2.2 hf.2.2 _ _ h4
      simp only [List.nil_append, List.cons.injEq, true_and] at h6
      exact ⟨by rw [h1, h3, h5], h6⟩
    | arith op2 l2 r2 =>
      simp [left] at hx; obtain ⟨rfl, rfl⟩ := hx
      cases op2 <;> simp [aTok] at h2
    | isNull b e => cases b <;> simp [left] at hx <;> obtain ⟨rfl, rfl⟩ := hx <;> simp at h2
    | logic c l2 r2 =>
      simp [left] at hx; obtain ⟨rfl, rfl⟩ := hx
      cases c <;> simp at h2
    | _ => simp [left] at hx <;> obtain ⟨rfl, rfl⟩ := hx <;> simp at h2
  | isNull b e ih =>
    intro f he hf r u h
    obtain ⟨x, t, hx, hq⟩ := left_of_text f e ((if b then [.is, .not, .null, .rp] else [.is, .null, .rp]) ++ r) u
      (by rw [← h]; cases b <;> simp [fmt])
    obtain ⟨h1, h2⟩ := ih x he (noMinus_left f x t hx hf) _ _ hq.symm
    cases f with
    | isNull b2 e2 =>
      cases b <;> cases b2 <;> simp [left] at hx <;> obtain ⟨rfl, rfl⟩ := hx <;> simp at h2 <;> exact ⟨by rw [h1], h2⟩
    | arith op2 l2 r2 =>
      simp [left] at hx; obtain ⟨rfl, rfl⟩ := hx
      cases b <;> cases op2 <;> simp [aTok] at h2
    | logic c l2 r2 =>
      simp [left] at hx; obtain ⟨rfl, rfl⟩ := hx
      cases b <;> cases c <;> simp at h2
    | _ => simp [left] at hx <;> obtain ⟨rfl, rfl⟩ := hx <;> cases b <;> simp at h2

theorem C101_text_partial (e f : Ex) (he : noMinus e) (hf : noMinus f) (h : fmt e = fmt f) : e = f :=
  (fmt_prefix e f he hf [] [] (by simpa using h)).1

example : noMinus (.logic true (.cmp .eq (.name [['a']]) (.str ['\''])) (.not (.isNull true (.sign false (.num 1))))) := by
  simp [noMinus]

/-! ### Strings -/

theorem C101_string_read (s : List Char) (e : Ex) (h : Reads .prim (fmt (.str s)) e) : e = .str (dbl s) := by
  simp only [fmt] at h
  cases h with
  | str => rfl

theorem dbl_count (s : List Char) : (dbl s).count '\'' = 2 * s.count '\'' := by
  induction s with
  | nil => rfl
  | cons c r ih =>
    have : dbl (c :: r) = (if c = '\'' then ['\'', '\''] else [c]) ++ dbl r := by simp [dbl]
    rw [this, List.count_append, ih]
    by_cases hc : c = '\''
    · simp [hc]; ring
    · simp [hc, List.count_cons_of_ne]

theorem C101_string_partial (s : List Char) : Reads .prim (fmt (.str s)) (.str s) ↔ '\'' ∉ s := by
  constructor
  · intro h hq
    have h1 := C101_string_read s _ h
    have h2 : s.count '\'' = 2 * s.count '\'' := by
      rw [← dbl_count]; exact congrArg _ (Ex.str.inj h1)
    have h3 := List.count_pos_iff.mpr hq
    omega
  · intro h
    have : fmt (.str s) = [.str s] := by simp [fmt, dbl_of_no_quote s h]
    rw [this]; exact .str s

/-- Each time a string is read and written again its quotes double. -/
theorem C101_fails_string_grows (s : List Char) (n : Nat) : (dbl^[n] s).count '\'' = 2 ^ n * s.count '\'' := by
  induction n with
  | zero => simp
  | succ n ih => rw [Function.iterate_succ_apply', dbl_count, ih]; ring

end EulerDB.Presto
