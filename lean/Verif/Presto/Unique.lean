/-
C101: the text of a plain value has no other reading.
-/
import Verif.Presto.Fails

namespace EulerDB.Presto

/-- No closing parenthesis comes before the one it closes. -/
def Nonneg (t : List Tok) : Prop := ∀ p q, t = p ++ q → 0 ≤ depth p

theorem Nonneg.append {a b : List Tok} (ha : Nonneg a) (hd : depth a = 0) (hb : Nonneg b) : Nonneg (a ++ b) := by
  intro p q h
  rcases List.append_eq_append_iff.mp h with ⟨c, rfl, h2⟩ | ⟨c, h2, rfl⟩
  · rw [depth_append, hd]
    have := hb c q h2
    omega
  · exact ha p c h2

theorem Nonneg.single {a : Tok} (ha : depth [a] = 0) : Nonneg [a] := by
  intro p q h
  cases p with
  | nil => simp [depth]
  | cons x p =>
    simp only [List.cons_append, List.cons.injEq] at h
    obtain ⟨rfl, h⟩ := h
    have : p = [] := (List.append_eq_nil_iff.mp h.symm).1
    rw [this, ha]

theorem Nonneg.cons {a : Tok} {t : List Tok} (ha : depth [a] = 0) (h : Nonneg t) : Nonneg (a :: t) :=
  Nonneg.append (Nonneg.single ha) ha h

/-- A text that is in no parentheses only at its two ends. -/
def Block (b : List Tok) : Prop := b ≠ [] ∧ depth b = 0 ∧ ∀ p q, b = p ++ q → p ≠ [] → q ≠ [] → 1 ≤ depth p

theorem Block.single {a : Tok} (ha : depth [a] = 0) : Block [a] := by
  refine ⟨by simp, ha, fun p q h hp hq => ?_⟩
  have := congrArg List.length h
  have h1 := List.length_pos_iff.mpr hp
  have h2 := List.length_pos_iff.mpr hq
  simp only [List.length_cons, List.length_nil, List.length_append] at this
  omega

theorem Block.paren {t : List Tok} (h : Nonneg t) (hd : depth t = 0) : Block (.lp :: (t ++ [.rp])) := by
  refine ⟨by simp, by simp [depth_cons, depth_append, hd, depth_nil], fun p q e hp hq => ?_⟩
  cases p with
  | nil => exact absurd rfl hp
  | cons x p =>
    simp only [List.cons_append, List.cons.injEq] at e
    obtain ⟨rfl, e⟩ := e
    have : 0 ≤ depth p := by
      rcases List.append_eq_append_iff.mp e with ⟨c, rfl, h2⟩ | ⟨c, h2, rfl⟩
      · cases c with
        | nil => rw [List.append_nil, hd]
        | cons y c =>
          simp only [List.cons_append, List.cons.injEq] at h2
          exact absurd (List.append_eq_nil_iff.mp h2.2.symm).2 hq
      · exact h p c h2
    rw [depth_cons]
    simp only [if_true]
    omega

theorem Block.nonneg {b : List Tok} (h : Block b) : Nonneg b := by
  intro p q e
  by_cases hp : p = []
  · rw [hp]; simp [depth]
  · by_cases hq : q = []
    · rw [hq, List.append_nil] at e; rw [← e, h.2.1]
    · have := h.2.2 p q e hp hq
      omega

theorem depth_op (op : AOp) : depth [aTok op] = 0 := by rw [depth_aTok]; rfl

theorem reads_nonneg {n : NT} {t : List Tok} {e : Ex} (h : Reads n t e) (hn : isValueNT n = true) : Nonneg t := by
  induction h with
  | null => exact Nonneg.single rfl
  | num n => exact Nonneg.single rfl
  | str s => exact Nonneg.single rfl
  | name p => exact Nonneg.single rfl
  | paren h ih => exact (Block.paren (ih rfl) (reads_depth h)).nonneg
  | unsigned _ ih => exact ih rfl
  | plus _ ih => exact Nonneg.cons rfl (ih rfl)
  | minus _ ih => exact Nonneg.cons rfl (ih rfl)
  | factor _ ih => exact ih rfl
  | term _ ih => exact ih rfl
  | mul op _ _ h1 _ ih1 ih2 => exact Nonneg.append (ih1 rfl) (reads_depth h1) (Nonneg.cons (depth_op op) (ih2 rfl))
  | add h1 _ ih1 ih2 => exact Nonneg.append (ih1 rfl) (reads_depth h1) (Nonneg.cons rfl (ih2 rfl))
  | sub h1 _ ih1 ih2 => exact Nonneg.append (ih1 rfl) (reads_depth h1) (Nonneg.cons rfl (ih2 rfl))
  | _ => simp [isValueNT] at hn

theorem prim_block {t : List Tok} {e : Ex} (h : Reads .prim t e) : Block t := by
  cases h with
  | null => exact Block.single rfl
  | num n => exact Block.single rfl
  | str s => exact Block.single rfl
  | name p => exact Block.single rfl
  | paren h => exact Block.paren (reads_nonneg h rfl) (reads_depth h)

/-- Operators and signs. -/
def isOp : Tok → Bool
  | .plus | .minus | .aop _ => true
  | _ => false

/-- The last token is no operator. -/
def Ends (t : List Tok) : Prop := ∃ u x, t = u ++ [x] ∧ isOp x = false

theorem Ends.append {t : List Tok} (s : List Tok) (h : Ends t) : Ends (s ++ t) := by
  obtain ⟨u, x, rfl, hx⟩ := h
  exact ⟨s ++ u, x, by simp, hx⟩

theorem Ends.cons {t : List Tok} (a : Tok) (h : Ends t) : Ends (a :: t) := h.append [a]

theorem not_ends {t : List Tok} {x : Tok} (hx : isOp x = true) : ¬ Ends (t ++ [x]) := by
  rintro ⟨u, y, h, hy⟩
  have := (List.append_inj' h rfl).2
  simp only [List.cons.injEq, and_true] at this
  rw [← this, hx] at hy
  cases hy

theorem reads_ends {n : NT} {t : List Tok} {e : Ex} (h : Reads n t e) (hn : isValueNT n = true) : Ends t := by
  induction h with
  | null => exact ⟨[], _, rfl, rfl⟩
  | num n => exact ⟨[], _, rfl, rfl⟩
  | str s => exact ⟨[], _, rfl, rfl⟩
  | name p => exact ⟨[], _, rfl, rfl⟩
  | paren _ ih => rename_i t _ _; exact ⟨.lp :: t, .rp, rfl, rfl⟩
  | unsigned _ ih => exact ih rfl
  | plus _ ih => exact (ih rfl).cons _
  | minus _ ih => exact (ih rfl).cons _
  | factor _ ih => exact ih rfl
  | term _ ih => exact ih rfl
  | mul op _ _ _ _ _ ih2 => exact ((ih2 rfl).cons _).append _
  | add _ _ _ ih2 => exact ((ih2 rfl).cons _).append _
  | sub _ _ _ ih2 => exact ((ih2 rfl).cons _).append _
  | _ => simp [isValueNT] at hn

/-- A value is a factor or two values around an operator. -/
theorem reads_split {n : NT} {t : List Tok} {e : Ex} (h : Reads n t e) (hn : isValueNT n = true) :
    Reads .factor t e ∨ ∃ t1 op u l r, t = t1 ++ aTok op :: u ∧ e = .arith op l r ∧ Reads .value t1 l ∧ Reads .value u r := by
  induction h with
  | null => exact .inl (.unsigned .null)
  | num n => exact .inl (.unsigned (.num n))
  | str s => exact .inl (.unsigned (.str s))
  | name p => exact .inl (.unsigned (.name p))
  | paren h _ => exact .inl (.unsigned (.paren h))
  | unsigned h _ => exact .inl (.unsigned h)
  | plus h _ => exact .inl (.plus h)
  | minus h _ => exact .inl (.minus h)
  | factor h _ => exact .inl h
  | term _ ih => exact ih rfl
  | mul op _ _ h1 h2 _ _ => exact .inr ⟨_, op, _, _, _, rfl, rfl, .term h1, .term (.factor h2)⟩
  | add h1 h2 _ _ => exact .inr ⟨_, .add, _, _, _, rfl, rfl, h1, .term h2⟩
  | sub h1 h2 _ _ => exact .inr ⟨_, .sub, _, _, _, rfl, rfl, h1, .term h2⟩
  | _ => simp [isValueNT] at hn

/-- The text of a factor: a sign or none, and a block. -/
theorem factor_text {t : List Tok} {e : Ex} (h : Reads .factor t e) :
    ∃ s b, t = s ++ b ∧ Block b ∧ (s = [] ∨ s = [.plus] ∨ s = [.minus]) := by
  cases h with
  | unsigned h => exact ⟨[], _, rfl, prim_block h, .inl rfl⟩
  | plus h => exact ⟨[.plus], _, rfl, prim_block h, .inr (.inl rfl)⟩
  | minus h => exact ⟨[.minus], _, rfl, prim_block h, .inr (.inr rfl)⟩

/-- A beginning of the text of a factor that is itself read is the whole of it. -/
theorem factor_prefix {t p q : List Tok} {e f : Ex} (h : Reads .factor t e) (hp : Reads .value p f) (ht : t = p ++ q) :
    q = [] := by
  obtain ⟨s, b, rfl, hb, hs⟩ := factor_text h
  have h0 := reads_depth hp
  have hst := reads_noStart hp
  have hsd : depth s = 0 := by rcases hs with rfl | rfl | rfl <;> rfl
  rcases List.append_eq_append_iff.mp ht with ⟨c, rfl, h2⟩ | ⟨c, h2, rfl⟩
  · by_contra hq
    by_cases hc : c = []
    · subst hc
      rcases hs with rfl | rfl | rfl <;> simp [noStart] at hst
    · have := hb.2.2 c q h2 hc hq
      rw [depth_append, hsd] at h0
      omega
  · exfalso
    rcases hs with rfl | rfl | rfl
    · rw [(List.append_eq_nil_iff.mp h2.symm).1] at hst; simp [noStart] at hst
    all_goals
      cases p with
      | nil => simp [noStart] at hst
      | cons x p =>
        simp only [List.cons_append, List.cons.injEq] at h2
        rw [← h2.1, (List.append_eq_nil_iff.mp h2.2.symm).1] at hst
        simp [noStart] at hst

/-- The text of a factor is read as a factor only. -/
theorem factor_only {n : NT} {t : List Tok} {e f : Ex} (h : Reads .factor t e) (hf : Reads n t f)
    (hn : isValueNT n = true) : Reads .factor t f := by
  rcases reads_split hf hn with h1 | ⟨t1, op, u, l, r, ht, -, h1, -⟩
  · exact h1
  · exact absurd (factor_prefix h h1 ht) (by simp)

/-- Two factors around an operator are read in one way. -/
theorem two_factors {t u : List Tok} {l r f : Ex} (op : AOp) (hl : Reads .factor t l) (hr : Reads .factor u r)
    (hf : Reads .value (t ++ aTok op :: u) f) :
    ∃ l' r', f = .arith op l' r' ∧ Reads .value t l' ∧ Reads .value u r' := by
  have hop : isOp (aTok op) = true := by cases op <;> rfl
  rcases reads_split hf rfl with h1 | ⟨t1, op', u1, l', r', ht, rfl, h1, h2⟩
  · exact absurd (factor_prefix h1 (.term (.factor hl)) rfl) (by simp)
  · rcases List.append_eq_append_iff.mp ht with ⟨c, rfl, h3⟩ | ⟨c, h3, h4⟩
    · cases c with
      | nil =>
        simp only [List.nil_append, List.cons.injEq] at h3
        obtain ⟨h5, rfl⟩ := h3
        rw [List.append_nil] at h1
        exact ⟨l', r', by rw [aTok_inj _ _ h5], h1, h2⟩
      | cons x c =>
        exfalso
        simp only [List.cons_append, List.cons.injEq] at h3
        obtain ⟨rfl, h3⟩ := h3
        -- `t1 = t ++ op :: c`, and `u = c ++ op' :: u1`
        obtain ⟨s, b, hu, hb, hs⟩ := factor_text hr
        have hd := reads_depth h1
        have hsd : depth s = 0 := by rcases hs with rfl | rfl | rfl <;> rfl
        rw [depth_append, depth_aTok, reads_depth hl, zero_add] at hd
        have he := reads_ends h1 rfl
        rw [hu] at h3
        rcases List.append_eq_append_iff.mp h3 with ⟨d, rfl, h5⟩ | ⟨d, h5, -⟩
        · by_cases hdn : d = []
          · subst hdn
            rw [List.append_nil] at he
            rcases hs with rfl | rfl | rfl
            · exact not_ends hop he
            · exact not_ends (t := t ++ [aTok op]) (x := .plus) rfl (by simpa using he)
            · exact not_ends (t := t ++ [aTok op]) (x := .minus) rfl (by simpa using he)
          · have := hb.2.2 d _ h5 hdn (by simp)
            rw [depth_append, hsd] at hd
            omega
        · have hc : c = [] ∨ c = s := by
            rcases hs with rfl | rfl | rfl
            · exact .inl (List.append_eq_nil_iff.mp h5.symm).1
            all_goals
              cases c with
              | nil => exact .inl rfl
              | cons y c =>
                simp only [List.cons_append, List.cons.injEq] at h5
                right
                rw [← h5.1, (List.append_eq_nil_iff.mp h5.2.symm).1]
          rcases hc with rfl | rfl
          · exact not_ends hop he
          · rcases hs with rfl | rfl | rfl
            · exact not_ends hop he
            · exact not_ends (t := t ++ [aTok op]) (x := .plus) rfl (by simpa using he)
            · exact not_ends (t := t ++ [aTok op]) (x := .minus) rfl (by simpa using he)
    · have hc := factor_prefix hl h1 h3
      subst hc
      rw [List.append_nil] at h3
      simp only [List.nil_append, List.cons.injEq] at h4
      obtain ⟨h5, rfl⟩ := h4
      exact ⟨l', r', by rw [aTok_inj _ _ h5], h3 ▸ h1, h2⟩

/-- The text of a plain value is read as that value and no other. -/
theorem C101_unique_partial : ∀ e : Ex, plain e → ∀ n, isValueNT n = true → ∀ f, Reads n (fmt e) f → f = e := by
  intro e
  induction e with
  | null =>
    intro h n hn f hf
    have := factor_only (reads_plain _ h).1 hf hn
    simp only [fmt] at this
    cases this with
    | unsigned h => cases h; rfl
  | num k =>
    intro h n hn f hf
    have := factor_only (reads_plain _ h).1 hf hn
    simp only [fmt] at this
    cases this with
    | unsigned h => cases h; rfl
  | name k =>
    intro h n hn f hf
    have := factor_only (reads_plain _ h).1 hf hn
    simp only [fmt] at this
    cases this with
    | unsigned h => cases h; rfl
  | str s =>
    intro h n hn f hf
    have := factor_only (reads_plain _ h).1 hf hn
    simp only [fmt, dbl_of_no_quote s h] at this
    cases this with
    | unsigned h => cases h; rfl
  | sign m e ih =>
    intro h n hn f hf
    have := factor_only (reads_plain _ h).1 hf hn
    simp only [fmt] at this
    obtain ⟨rfl, hs, hp⟩ := h
    cases this with
    | unsigned h =>
      obtain ⟨a, r, h1, h2, -⟩ := prim_start h rfl
      simp only [List.cons.injEq] at h1
      exact absurd h1.1.symm h2
    | plus h => rw [ih hp .prim rfl _ h]
  | arith op l r ihl ihr =>
    intro h n hn f hf
    have := factor_only (reads_plain _ h).1 hf hn
    generalize ht : fmt (.arith op l r) = t at this
    cases this with
    | plus _ => simp [fmt] at ht
    | minus _ => simp [fmt] at ht
    | unsigned h1 =>
      cases h1 with
      | paren h2 =>
        rename_i u
        have hu : u = fmt l ++ aTok op :: fmt r := by
          have h2 : (fmt l ++ aTok op :: fmt r) ++ [Tok.rp] = u ++ [.rp] := by simpa [fmt] using ht
          exact (List.append_cancel_right h2).symm
        subst hu
        obtain ⟨l', r', rfl, h3, h4⟩ := two_factors op (reads_plain l h.1).1 (reads_plain r h.2).1 h2
        rw [ihl h.1 .value rfl _ h3, ihr h.2 .value rfl _ h4]
      | _ => simp [fmt] at ht
  | _ => intro h; exact h.elim

end EulerDB.Presto
