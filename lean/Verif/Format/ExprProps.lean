/-
C43: the text printed for an expression, read by the backend's grammar, is the same
expression.

The formatter decides on parentheses with the precedences of SQLite and without
regard to associativity on the right, so the property holds for the trees described
by `Safe` (`C43_read_back_partial`), for conditions up to regrouping chains of AND and
of OR (`C43_conditions_partial`), and fails otherwise (`C43_fails_*`).
-/
import Verif.Format.Expr

namespace EulerDB.Format

/-! ### Levels of trees -/

/-- Level of a tree in MySQL's grammar (11: it can stand anywhere). -/
def lev : Ex → Nat
  | .atom _ => 11
  | .bin o _ _ => olev o
  | .post p _ => plev p
  | .btw _ _ _ _ => 5
  | .enot _ => 3
  | .bnot _ => 11
  | .neg _ => 11
  | .call _ _ => 11

/-- Level from which a following operator would be drawn into the last operand. -/
def rb : Ex → Nat
  | .bin o _ _ => rmin o
  | .btw _ _ _ _ => 5
  | .enot _ => 3
  | _ => 100

theorem lev_le_rb : ∀ e, lev e ≤ rb e
  | .atom _ => by simp [lev, rb]
  | .bin o _ _ => by cases o <;> simp [lev, rb, olev, rmin]
  | .post p _ => by cases p <;> simp [lev, rb, plev]
  | .btw _ _ _ _ => by simp [lev, rb]
  | .enot _ => by simp [lev, rb]
  | .bnot _ => by simp [lev, rb]
  | .neg _ => by simp [lev, rb]
  | .call _ _ => by simp [lev, rb]

theorem stop_mono {m n : Nat} (h : m ≤ n) {t : List Tok} (hs : Stop m t) : Stop n t := by
  cases t with
  | nil => trivial
  | cons k t => intro i hi; exact Nat.lt_of_lt_of_le (hs i hi) h

/-- Wherever the formatter leaves an operand bare, the grammar allows it bare. -/
def Safe : Ex → Prop
  | .atom _ => True
  | .bin o l r => mean o = o ∧ Safe l ∧ Safe r ∧ (fprec l ≤ oprec o + 1 → lmin o ≤ lev l)
      ∧ (fprec r ≤ oprec o → rmin o ≤ lev r)
  | .post p e => Safe e ∧ (fprec e ≤ 32 → pmin p ≤ lev e)
  | .btw _ a b c => Safe a ∧ Safe b ∧ Safe c ∧ (fprec a ≤ 32 → 6 ≤ lev a)
      ∧ (fprec b ≤ 32 → 6 ≤ lev b) ∧ (fprec c ≤ 32 → 5 ≤ lev c)
  | .enot e => Safe e
  | .bnot e => Safe e ∧ 11 ≤ lev e
  | .neg _ => False
  | .call _ e => Safe e

/-- An operator the grammar allows after a bare left operand is not drawn into it. -/
theorem left_stop (o : Op) (l : Ex) (h : lmin o ≤ lev l) (t : List Tok) :
    Stop (rb l) (.op o :: t) := by
  intro n hn
  simp only [tlev, Option.some.injEq] at hn
  subst hn
  cases l with
  | bin o' _ _ => revert h; cases o <;> cases o' <;> simp [lmin, olev, lev, rb, rmin]
  | _ => revert h; cases o <;> simp [lmin, olev, lev, rb]

theorem post_stop (p : Post) (e : Ex) (h : pmin p ≤ lev e) (t : List Tok) :
    Stop (rb e) (.post p :: t) := by
  intro n hn
  simp only [tlev, Option.some.injEq] at hn
  subst hn
  cases e with
  | bin o' _ _ => revert h; cases p <;> cases o' <;> simp [pmin, plev, olev, lev, rb, rmin]
  | _ => revert h; cases p <;> simp [pmin, plev, lev, rb]

theorem btw_stop (n : Bool) (e : Ex) (h : 6 ≤ lev e) (t : List Tok) :
    Stop (rb e) (.btw n :: t) := by
  intro i hi
  simp only [tlev, Option.some.injEq] at hi
  have := lev_le_rb e
  omega

theorem olev_lt (o : Op) : olev o < 11 := by cases o <;> decide

theorem plev_lt (p : Post) : plev p < 11 := by cases p <;> simp [plev]

/-- What is to be proved of a tree: its tokens are read as it, wherever its level
allows it to stand and the following token does not get drawn in. -/
def Good (e : Ex) : Prop :=
  ∀ m rest e' r', m ≤ lev e → Stop (rb e) rest → Reads (.loop m e) rest e' r' →
    Reads (.expr m) (fmt e ++ rest) e' r'

/-- The tokens of a tree in parentheses, or of a complete tree. -/
theorem Good.closed {e : Ex} (h : Good e) {rest : List Tok} (hs : Stop 0 rest) :
    Reads (.expr 0) (fmt e ++ rest) e rest :=
  h 0 rest e rest (Nat.zero_le _) (stop_mono (Nat.zero_le _) hs) (.stop hs)

theorem stop_rp (m : Nat) (t : List Tok) : Stop m (.rp :: t) := by
  intro n hn; simp [tlev] at hn

theorem Good.operand {e : Ex} (h : Good e) {q m : Nat} {rest r' : List Tok} {e' : Ex}
    (hm : fprec e ≤ q → m ≤ lev e) (hs : fprec e ≤ q → Stop (rb e) rest)
    (hl : Reads (.loop m e) rest e' r') : Reads (.expr m) (wrap q e (fmt e) ++ rest) e' r' := by
  unfold wrap
  split
  · rename_i hq
    exact h m rest e' r' (hm hq) (hs hq) hl
  · refine .expr (.paren (r := rest) ?_) hl
    have := h.closed (stop_rp 0 rest)
    simpa using this

theorem good (e : Ex) (hs : Safe e) : Good e := by
  induction e with
  | atom s => intro m rest e' r' _ _ hl; exact .expr (.atom s rest) hl
  | bin o l r ihl ihr =>
    obtain ⟨hmean, hl, hr, hlb, hrb⟩ := hs
    intro m rest e' r' hm hst hloop
    have hm' : m ≤ olev o := hm
    have hst' : Stop (rmin o) rest := hst
    have hol : olev o ≤ lmin o := by cases o <;> simp [olev, lmin]
    have hright : Reads (.expr (rmin o)) (wrap (oprec o) r (fmt r) ++ rest) r rest :=
      (ihr hr).operand hrb
        (fun hq => stop_mono (Nat.le_trans (hrb hq) (lev_le_rb r)) hst') (.stop hst')
    have hcont : Reads (.loop m l) (.op o :: (wrap (oprec o) r (fmt r) ++ rest)) e' r' := by
      refine .op hm' hright ?_
      rw [hmean]; exact hloop
    have := (ihl hl).operand (q := oprec o + 1) (m := m)
      (fun hq => Nat.le_trans hm' (Nat.le_trans hol (hlb hq)))
      (fun hq => left_stop o l (hlb hq) _) hcont
    simpa [fmt] using this
  | post p e ih =>
    obtain ⟨he, hb⟩ := hs
    intro m rest e' r' hm hst hloop
    have hm' : m ≤ plev p := hm
    have hpl : plev p ≤ pmin p := by cases p <;> simp [plev, pmin]
    have := (ih he).operand (q := 32) (m := m)
      (fun hq => Nat.le_trans hm' (Nat.le_trans hpl (hb hq)))
      (fun hq => post_stop p e (hb hq) _) (Reads.post hm' hloop)
    simpa [fmt] using this
  | btw n a b c iha ihb ihc =>
    obtain ⟨ha, hb, hc, hab, hbb, hcb⟩ := hs
    intro m rest e' r' hm hst hloop
    have hm' : m ≤ 5 := hm
    have hst' : Stop 5 rest := hst
    have hand : Stop 6 (.op .and :: (wrap 32 c (fmt c) ++ rest)) := by
      intro i hi; simp only [tlev, olev, Option.some.injEq] at hi; omega
    have hB : Reads (.expr 6) (wrap 32 b (fmt b) ++ .op .and :: (wrap 32 c (fmt c) ++ rest)) b
        (.op .and :: (wrap 32 c (fmt c) ++ rest)) :=
      (ihb hb).operand hbb
        (fun hq => stop_mono (Nat.le_trans (hbb hq) (lev_le_rb b)) hand) (.stop hand)
    have hC : Reads (.expr 5) (wrap 32 c (fmt c) ++ rest) c rest :=
      (ihc hc).operand hcb
        (fun hq => stop_mono (Nat.le_trans (hcb hq) (lev_le_rb c)) hst') (.stop hst')
    have := (iha ha).operand (q := 32) (m := m)
      (fun hq => Nat.le_trans hm' (Nat.le_trans (by omega) (hab hq)))
      (fun hq => btw_stop n a (hab hq) _) (Reads.btw (n := n) hm' hB hC hloop)
    simpa [fmt] using this
  | enot e ih =>
    intro m rest e' r' hm hst hloop
    have hst' : Stop 3 rest := hst
    have hin := (ih hs).closed (stop_rp 0 rest)
    have h3 : Reads (.expr 3) (.lp :: (fmt e ++ .rp :: rest)) e rest :=
      .expr (.paren hin) (.stop hst')
    have := Reads.expr (Reads.knot h3) hloop
    simpa [fmt] using this
  | bnot e ih =>
    obtain ⟨he, hl⟩ := hs
    intro m rest e' r' hm hst hloop
    -- an operand of level 11 is read by the rule for primaries
    have hprim : Reads .prim (fmt e ++ rest) e rest := by
      have key := (ih he) 11 rest e rest hl
      have hstop : Stop (rb e) rest → Reads (.expr 11) (fmt e ++ rest) e rest := by
        intro h
        refine key h (.stop ?_)
        cases rest with
        | nil => trivial
        | cons k t => intro i hi; cases k <;> simp [tlev] at hi
                      · rename_i o; cases o <;> simp [olev] at hi <;> omega
                      · rename_i p; cases p <;> simp [plev] at hi <;> omega
                      · omega
      have h100 : rb e = 100 := by
        cases e with
        | bin o _ _ => exact absurd hl (by cases o <;> simp [lev, olev])
        | btw => simp [lev] at hl
        | enot => simp [lev] at hl
        | post p => exact absurd hl (by cases p <;> simp [lev, plev])
        | _ => rfl
      have h := hstop (by rw [h100]; exact hst)
      cases h with
      | expr h1 h2 =>
        cases h2 with
        | stop => exact h1
        | op hm2 => exact absurd hm2 (Nat.not_le.2 (olev_lt _))
        | post hm2 => exact absurd hm2 (Nat.not_le.2 (plev_lt _))
        | btw hm2 => omega
    have := Reads.expr (Reads.tilde hprim) hloop
    simpa [fmt] using this
  | neg e ih => exact absurd hs (by simp [Safe])
  | call f e ih =>
    intro m rest e' r' hm hst hloop
    have hin := (ih hs).closed (stop_rp 0 rest)
    have := Reads.expr (Reads.call (f := f) hin) hloop
    simpa [fmt] using this

/-- The text printed for a tree whose bare operands the grammar allows bare is read
back as that tree, completely, and in no other way. -/
theorem C43_read_back_partial (e : Ex) (hs : Safe e) :
    Reads (.expr 0) (fmt e) e [] ∧
      ∀ e' r, Reads (.expr 0) (fmt e) e' r → e' = e ∧ r = [] := by
  have h : Reads (.expr 0) (fmt e) e [] := by
    have := (good e hs).closed (rest := []) trivial
    simpa using this
  exact ⟨h, fun e' r h' => reads_unique h h'⟩

/-- Two safe trees with the same text are the same tree. -/
theorem C43_text_determines_partial (e e' : Ex) (hs : Safe e) (hs' : Safe e')
    (h : fmt e = fmt e') : e = e' := by
  have h1 := (C43_read_back_partial e hs).1
  rw [h] at h1
  exact ((C43_read_back_partial e' hs').2 e [] h1).1

/-! ### Chains of AND and of OR -/

/-- Operators that are alone on their level and associative. -/
def chain : Op → Bool
  | .and => true | .or => true | .band => true | .bor => true
  | _ => false

/-- Appends the chain `b` to the chain `a`. -/
def attach (o : Op) (a : Ex) : Ex → Ex
  | .bin o' b c => if o' = o then .bin o (attach o a b) c else .bin o a (.bin o' b c)
  | e => .bin o a e

/-- The tree with its chains nested to the left. -/
def regroup : Ex → Ex
  | .atom s => .atom s
  | .bin o l r => if chain o then attach o (regroup l) (regroup r) else .bin o (regroup l) (regroup r)
  | .post p e => .post p (regroup e)
  | .btw n a b c => .btw n (regroup a) (regroup b) (regroup c)
  | .enot e => .enot (regroup e)
  | .bnot e => .bnot (regroup e)
  | .neg e => .neg (regroup e)
  | .call f e => .call f (regroup e)

/-- `Safe`, except that the right operand of a chain operator may be a chain of the
same operator. -/
def SafeChain : Ex → Prop
  | .atom _ => True
  | .bin o l r => mean o = o ∧ SafeChain l ∧ SafeChain r ∧ (fprec l ≤ oprec o + 1 → lmin o ≤ lev l)
      ∧ (fprec r ≤ oprec o → rmin o ≤ lev r ∨ (chain o = true ∧ ∃ b c, r = .bin o b c))
  | .post p e => SafeChain e ∧ (fprec e ≤ 32 → pmin p ≤ lev e)
  | .btw _ a b c => SafeChain a ∧ SafeChain b ∧ SafeChain c ∧ (fprec a ≤ 32 → 6 ≤ lev a)
      ∧ (fprec b ≤ 32 → 6 ≤ lev b) ∧ (fprec c ≤ 32 → 5 ≤ lev c)
  | .enot e => SafeChain e
  | .bnot e => SafeChain e ∧ 11 ≤ lev e
  | .neg _ => False
  | .call _ e => SafeChain e

/-- No tree has a precedence just above that of an operator, so the 0.25 the first
operand gets on top changes nothing. -/
theorem wrap_succ (o : Op) (e : Ex) (t : List Tok) :
    wrap (oprec o + 1) e t = wrap (oprec o) e t := by
  unfold wrap
  have h : fprec e ≤ oprec o + 1 ↔ fprec e ≤ oprec o := by
    cases e with
    | bin o' _ _ => cases o <;> cases o' <;> simp [fprec, oprec]
    | post p _ => cases o <;> cases p <;> simp [fprec, oprec, pprec]
    | _ => cases o <;> simp [fprec, oprec]
  simp [h]

/-- The formatter prints both groupings of a chain of one operator with the same
text, whatever the operator. -/
theorem C43_same_text (o : Op) (a b c : Ex) :
    fmt (.bin o a (.bin o b c)) = fmt (.bin o (.bin o a b) c) := by
  have h1 : wrap (oprec o) (.bin o b c) (fmt (.bin o b c)) = fmt (.bin o b c) := by
    simp [wrap, fprec]
  have h2 : wrap (oprec o + 1) (.bin o a b) (fmt (.bin o a b)) = fmt (.bin o a b) := by
    simp [wrap, fprec]
  have e1 : fmt (.bin o a (.bin o b c)) = wrap (oprec o + 1) a (fmt a) ++
      .op o :: wrap (oprec o) (.bin o b c) (fmt (.bin o b c)) := rfl
  have e2 : fmt (.bin o (.bin o a b) c) = wrap (oprec o + 1) (.bin o a b) (fmt (.bin o a b)) ++
      .op o :: wrap (oprec o) c (fmt c) := rfl
  rw [e1, e2, h1, h2]
  simp [fmt, wrap_succ]

theorem fprec_attach (o : Op) (a b : Ex) : fprec (attach o a b) = oprec o := by
  cases b with
  | bin o' b c => unfold attach; split <;> rfl
  | _ => rfl

theorem lev_attach (o : Op) (a b : Ex) : lev (attach o a b) = olev o := by
  cases b with
  | bin o' b c => unfold attach; split <;> rfl
  | _ => rfl

theorem fmt_congr_bin (o : Op) {l l' r r' : Ex} (h1 : fmt l = fmt l') (h2 : fprec l = fprec l')
    (h3 : fmt r = fmt r') (h4 : fprec r = fprec r') : fmt (.bin o l r) = fmt (.bin o l' r') := by
  simp only [fmt, wrap, h1, h2, h3, h4]

theorem fmt_attach (o : Op) (a : Ex) : ∀ b, fmt (attach o a b) = fmt (.bin o a b)
  | .bin o' b c => by
    unfold attach
    split
    · rename_i h
      subst h
      rw [C43_same_text]
      exact fmt_congr_bin _ (fmt_attach _ a b) (fprec_attach _ a b) rfl rfl
    · rfl
  | .atom _ => rfl
  | .post _ _ => rfl
  | .btw _ _ _ _ => rfl
  | .enot _ => rfl
  | .bnot _ => rfl
  | .neg _ => rfl
  | .call _ _ => rfl

theorem fprec_regroup : ∀ e, fprec (regroup e) = fprec e
  | .bin o l r => by
    unfold regroup
    split
    · rw [fprec_attach]; rfl
    · rfl
  | .atom _ => rfl
  | .post _ _ => rfl
  | .btw _ _ _ _ => rfl
  | .enot _ => rfl
  | .bnot _ => rfl
  | .neg _ => rfl
  | .call _ _ => rfl

theorem lev_regroup : ∀ e, lev (regroup e) = lev e
  | .bin o l r => by
    unfold regroup
    split
    · rw [lev_attach]; rfl
    · rfl
  | .atom _ => rfl
  | .post _ _ => rfl
  | .btw _ _ _ _ => rfl
  | .enot _ => rfl
  | .bnot _ => rfl
  | .neg _ => rfl
  | .call _ _ => rfl

theorem fmt_regroup : ∀ e, fmt (regroup e) = fmt e
  | .atom _ => rfl
  | .bin o l r => by
    have h := fmt_congr_bin o (fmt_regroup l) (fprec_regroup l) (fmt_regroup r) (fprec_regroup r)
    unfold regroup
    split
    · rw [fmt_attach]; exact h
    · exact h
  | .post p e => by simp only [regroup, fmt, wrap, fmt_regroup e, fprec_regroup e]
  | .btw n a b c => by
    simp only [regroup, fmt, wrap, fmt_regroup a, fprec_regroup a, fmt_regroup b,
      fprec_regroup b, fmt_regroup c, fprec_regroup c]
  | .enot e => by simp only [regroup, fmt, fmt_regroup e]
  | .bnot e => by simp only [regroup, fmt, fmt_regroup e]
  | .neg e => by simp only [regroup, fmt, fmt_regroup e]
  | .call f e => by simp only [regroup, fmt, fmt_regroup e]

/-- Left operand of a chain operator, not itself a chain of it: it may stand on the
right as well. -/
theorem chain_level {o : Op} (ho : chain o = true) {e : Ex} (hs : Safe e)
    (hne : ∀ b c, e ≠ .bin o b c) (h : lmin o ≤ lev e) : rmin o ≤ lev e := by
  cases e with
  | bin o' b c =>
    have hmean : mean o' = o' := hs.1
    have : o' ≠ o := fun hh => hne b c (by rw [hh])
    revert this h ho hmean
    cases o <;> cases o' <;> simp [chain, lmin, olev, lev, rmin, mean]
  | post p _ => revert h ho; cases o <;> cases p <;> simp [chain, lmin, olev, lev, rmin, plev]
  | _ => revert h ho; cases o <;> simp [chain, lmin, olev, lev, rmin]

theorem safe_attach {o : Op} (ho : chain o = true) {a : Ex} (ha : Safe a)
    (hla : fprec a ≤ oprec o + 1 → lmin o ≤ lev a) : ∀ {b : Ex}, Safe b →
    (fprec b ≤ oprec o → rmin o ≤ lev b ∨ ∃ x y, b = .bin o x y) → Safe (attach o a b) := by
  have hmean : mean o = o := by revert ho; cases o <;> simp [chain, mean]
  have plain : ∀ b, Safe b → (fprec b ≤ oprec o → rmin o ≤ lev b) → Safe (.bin o a b) :=
    fun b hb h => ⟨hmean, ha, hb, hla, h⟩
  intro b
  induction b with
  | bin o' x y ihx _ =>
    intro hb hcond
    unfold attach
    split
    · rename_i heq
      subst heq
      obtain ⟨_, hx, hy, hlx, hry⟩ := hb
      refine ⟨hmean, ihx hx ?_, hy, ?_, hry⟩
      · intro hq
        by_cases hch : ∃ u v, x = .bin o' u v
        · exact Or.inr hch
        · refine Or.inl (chain_level ho hx (fun u v hh => hch ⟨u, v, hh⟩) (hlx (by omega)))
      · intro _
        rw [lev_attach]
        revert ho
        cases o' <;> simp [chain, lmin, olev]
    · rename_i hne
      refine plain _ hb (fun hq => ?_)
      rcases hcond hq with h | ⟨u, v, h⟩
      · exact h
      · injection h with h1; exact absurd h1 hne
  | _ =>
    intro hb hcond
    unfold attach
    refine plain _ hb (fun hq => ?_)
    rcases hcond hq with h | ⟨u, v, h⟩
    · exact h
    · exact absurd h (by simp)

theorem safe_regroup (e : Ex) (hs : SafeChain e) : Safe (regroup e) := by
  induction e with
  | atom _ => trivial
  | bin o l r ihl ihr =>
    obtain ⟨hmean, hl, hr, hlb, hrb⟩ := hs
    have hL : fprec (regroup l) ≤ oprec o + 1 → lmin o ≤ lev (regroup l) := by
      rw [fprec_regroup, lev_regroup]; exact hlb
    unfold regroup
    split
    · rename_i ho
      refine safe_attach ho (ihl hl) hL (ihr hr) ?_
      rw [fprec_regroup, lev_regroup]
      intro hq
      rcases hrb hq with h | ⟨_, b, c, h⟩
      · exact Or.inl h
      · right
        subst h
        unfold regroup
        rw [if_pos ho]
        generalize regroup b = b'
        generalize regroup c = c'
        cases c' with
        | bin o' x y => unfold attach; split <;> exact ⟨_, _, rfl⟩
        | _ => exact ⟨_, _, rfl⟩
    · rename_i ho
      refine ⟨hmean, ihl hl, ihr hr, hL, ?_⟩
      rw [fprec_regroup, lev_regroup]
      intro hq
      rcases hrb hq with h | ⟨h, _⟩
      · exact h
      · exact absurd h ho
  | post p e ih =>
    refine ⟨ih hs.1, ?_⟩
    rw [fprec_regroup, lev_regroup]; exact hs.2
  | btw n a b c iha ihb ihc =>
    obtain ⟨ha, hb, hc, h1, h2, h3⟩ := hs
    refine ⟨iha ha, ihb hb, ihc hc, ?_, ?_, ?_⟩ <;> rw [fprec_regroup, lev_regroup] <;> assumption
  | enot e ih => exact ih hs
  | bnot e ih => exact ⟨ih hs.1, by rw [lev_regroup]; exact hs.2⟩
  | neg e _ => exact absurd hs (by simp [SafeChain])
  | call f e ih => exact ih hs

/-! ### Values -/

/-- A meaning for the leaves, operators and functions. -/
structure Sem (α : Type) where
  atom : List Char → α
  bin : Op → α → α → α
  post : Post → α → α
  btw : Bool → α → α → α → α
  enot : α → α
  bnot : α → α
  neg : α → α
  call : List Char → α → α

def eval {α : Type} (s : Sem α) : Ex → α
  | .atom t => s.atom t
  | .bin o l r => s.bin o (eval s l) (eval s r)
  | .post p e => s.post p (eval s e)
  | .btw n a b c => s.btw n (eval s a) (eval s b) (eval s c)
  | .enot e => s.enot (eval s e)
  | .bnot e => s.bnot (eval s e)
  | .neg e => s.neg (eval s e)
  | .call f e => s.call f (eval s e)

/-- AND, OR, & and | are associative. -/
def Assoc {α : Type} (s : Sem α) : Prop :=
  ∀ o, chain o = true → ∀ a b c, s.bin o a (s.bin o b c) = s.bin o (s.bin o a b) c

theorem eval_attach {α : Type} (s : Sem α) (hs : Assoc s) {o : Op} (ho : chain o = true) (a : Ex) :
    ∀ b, eval s (attach o a b) = s.bin o (eval s a) (eval s b)
  | .bin o' b c => by
    unfold attach
    split
    · rename_i h
      subst h
      simp only [eval, eval_attach s hs ho a b]
      exact (hs _ ho _ _ _).symm
    · rfl
  | .atom _ => rfl
  | .post _ _ => rfl
  | .btw _ _ _ _ => rfl
  | .enot _ => rfl
  | .bnot _ => rfl
  | .neg _ => rfl
  | .call _ _ => rfl

theorem eval_regroup {α : Type} (s : Sem α) (hs : Assoc s) : ∀ e, eval s (regroup e) = eval s e
  | .atom _ => rfl
  | .bin o l r => by
    unfold regroup
    split
    · rename_i ho
      rw [eval_attach s hs ho, eval_regroup s hs l, eval_regroup s hs r]; rfl
    · simp only [eval, eval_regroup s hs l, eval_regroup s hs r]
  | .post p e => by simp only [regroup, eval, eval_regroup s hs e]
  | .btw n a b c => by
    simp only [regroup, eval, eval_regroup s hs a, eval_regroup s hs b, eval_regroup s hs c]
  | .enot e => by simp only [regroup, eval, eval_regroup s hs e]
  | .bnot e => by simp only [regroup, eval, eval_regroup s hs e]
  | .neg e => by simp only [regroup, eval, eval_regroup s hs e]
  | .call f e => by simp only [regroup, eval, eval_regroup s hs e]

/-- A tree whose chains of AND/OR may be grouped in any way is read back with the
chains grouped to the left, and has the same value. -/
theorem C43_chains_partial (e : Ex) (h : SafeChain e) :
    ∃ e', Reads (.expr 0) (fmt e) e' [] ∧
      (∀ e'' r, Reads (.expr 0) (fmt e) e'' r → e'' = e' ∧ r = []) ∧
      ∀ {α : Type} (s : Sem α), Assoc s → eval s e' = eval s e := by
  have hr := C43_read_back_partial (regroup e) (safe_regroup e h)
  rw [fmt_regroup] at hr
  exact ⟨regroup e, hr.1, hr.2, fun s hs => eval_regroup s hs e⟩

/-! ### Conditions -/

/-- A value in a condition: a leaf, or a function of a safe expression. -/
def Value : Ex → Prop
  | .atom _ => True
  | .call _ e => Safe e
  | _ => False

/-- The comparison operators and pattern matches. -/
def cmp : Op → Bool
  | .lt => true | .lte => true | .gt => true | .gte => true | .eq => true | .neq => true
  | .like => true | .notLike => true | .rlike => true | .notRlike => true
  | _ => false

/-- Conditions: comparisons of values combined with AND, OR and NOT at any depth and
in any grouping. -/
inductive Cond : Ex → Prop
  | cmp (o l r) : cmp o = true → Value l → Value r → Cond (.bin o l r)
  | post (p e) : Value e → Cond (.post p e)
  | btw (n a b c) : Value a → Value b → Value c → Cond (.btw n a b c)
  | and (l r) : Cond l → Cond r → Cond (.bin .and l r)
  | or (l r) : Cond l → Cond r → Cond (.bin .or l r)
  | enot (e) : Cond e → Cond (.enot e)

theorem Safe.chain : ∀ {e : Ex}, Safe e → SafeChain e
  | .atom _, _ => trivial
  | .bin _ _ _, h => ⟨h.1, h.2.1.chain, h.2.2.1.chain, h.2.2.2.1, fun q => Or.inl (h.2.2.2.2 q)⟩
  | .post _ _, h => ⟨h.1.chain, h.2⟩
  | .btw _ _ _ _, h => ⟨h.1.chain, h.2.1.chain, h.2.2.1.chain, h.2.2.2⟩
  | .enot e, h => Safe.chain (e := e) h
  | .bnot _, h => ⟨h.1.chain, h.2⟩
  | .neg _, h => h
  | .call _ e, h => Safe.chain (e := e) h

theorem Value.safe {e : Ex} (h : Value e) : SafeChain e ∧ lev e = 11 := by
  cases e with
  | atom _ => exact ⟨trivial, rfl⟩
  | call f e => exact ⟨Safe.chain (e := e) h, rfl⟩
  | _ => exact absurd h (by simp [Value])

theorem Cond.safe {e : Ex} (h : Cond e) : SafeChain e := by
  induction h with
  | cmp o l r ho hl hr =>
    have ⟨sl, ll⟩ := hl.safe
    have ⟨sr, lr⟩ := hr.safe
    refine ⟨?_, sl, sr, ?_, ?_⟩
    · revert ho; cases o <;> simp [Format.cmp, mean]
    · intro _; rw [ll]; cases o <;> simp [lmin, olev]
    · intro _; left; rw [lr]; cases o <;> simp [rmin, olev]
  | post p e he =>
    have ⟨s, l⟩ := he.safe
    exact ⟨s, fun _ => by rw [l]; cases p <;> simp [pmin]⟩
  | btw n a b c ha hb hc =>
    have ⟨sa, la⟩ := ha.safe
    have ⟨sb, lb⟩ := hb.safe
    have ⟨sc, lc⟩ := hc.safe
    exact ⟨sa, sb, sc, fun _ => by omega, fun _ => by omega, fun _ => by omega⟩
  | and l r hl hr ihl ihr =>
    refine ⟨rfl, ihl, ihr, ?_, ?_⟩
    · intro hq
      cases hl with
      | cmp o _ _ ho => revert ho; cases o <;> simp [Format.cmp, lmin, olev, lev]
      | post p _ _ => cases p <;> simp [lmin, olev, lev, plev]
      | or => simp [fprec, oprec] at hq
      | _ => simp [lmin, olev, lev]
    · intro hq
      cases hr with
      | cmp o _ _ ho => left; revert ho; cases o <;> simp [Format.cmp, rmin, olev, lev]
      | post p _ _ => left; cases p <;> simp [rmin, olev, lev, plev]
      | or => simp [fprec, oprec] at hq
      | and a b => exact Or.inr ⟨rfl, a, b, rfl⟩
      | _ => left; simp [rmin, olev, lev]
  | or l r hl hr ihl ihr =>
    refine ⟨rfl, ihl, ihr, ?_, ?_⟩
    · intro _; simp [lmin, olev]
    · intro _
      cases hr with
      | cmp o _ _ ho => left; revert ho; cases o <;> simp [Format.cmp, rmin, olev, lev]
      | post p _ _ => left; cases p <;> simp [rmin, olev, lev, plev]
      | or a b => exact Or.inr ⟨rfl, a, b, rfl⟩
      | _ => left; simp [rmin, olev, lev]
  | enot e _ ih => exact ih

/-- Every condition built from comparisons of values with AND, OR and NOT is read by
the backend as a condition with the same value, whatever the comparisons mean. -/
theorem C43_conditions_partial (e : Ex) (h : Cond e) :
    ∃ e', Reads (.expr 0) (fmt e) e' [] ∧
      (∀ e'' r, Reads (.expr 0) (fmt e) e'' r → e'' = e' ∧ r = []) ∧
      ∀ {α : Type} (s : Sem α), Assoc s → eval s e' = eval s e :=
  C43_chains_partial e h.safe

/-- A condition with every kind of node, in a grouping the text does not show. -/
example : Cond (.bin .and (.bin .or (.bin .eq (.atom ['a']) (.atom ['1'])) (.post .missing (.atom ['b'])))
    (.bin .and (.enot (.bin .like (.atom ['c']) (.atom ['x']))) (.btw false (.atom ['d']) (.atom ['1']) (.atom ['2'])))) :=
  .and _ _ (.or _ _ (.cmp _ _ _ rfl trivial trivial) (.post _ _ trivial))
    (.and _ _ (.enot _ (.cmp _ _ _ rfl trivial trivial)) (.btw _ _ _ _ trivial trivial trivial))

/-- A safe arithmetic tree that needs parentheses. -/
example : Safe (.bin .sub (.atom ['a']) (.bin .add (.atom ['b']) (.bin .mul (.atom ['c']) (.atom ['d'])))) := by
  simp [Safe, mean, fprec, oprec, lmin, rmin, olev, lev]

/-! ### Where the structure is lost -/

theorem bin_ne_self (o o' : Op) : ∀ (a b c : Ex), Ex.bin o a (.bin o' b c) ≠ .bin o (.bin o' a b) c := by
  intro a b c h
  injection h with _ h1 h2
  -- `a = a op b` would make `a` its own subtree
  have : ∀ x y : Ex, x ≠ .bin o' x y := by
    intro x y hx
    have := congrArg sizeOf hx
    simp at this
    omega
  exact this a b h1

/-- The two groupings of a subtraction, division, remainder, comparison or pattern
match print the same text, so the text cannot be read back as both: the grouping
`a op (b op c)` is lost for all operands. -/
theorem C43_fails_grouping (o : Op) (a b c : Ex) :
    fmt (.bin o a (.bin o b c)) = fmt (.bin o (.bin o a b) c) ∧
      Ex.bin o a (.bin o b c) ≠ .bin o (.bin o a b) c :=
  ⟨C43_same_text o a b c, bin_ne_self o o a b c⟩

/-- Operands as they stand in the failing shapes below. -/
structure Fits (o o' : Op) (a b c : Ex) : Prop where
  sa : Safe a
  sb : Safe b
  sc : Safe c
  la : fprec a ≤ oprec o + 1 → lmin o ≤ lev a
  lb : fprec b ≤ oprec o' + 1 → rmin o ≤ lev b
  lc : fprec c ≤ oprec o' → rmin o' ≤ lev c

/-- `a o (b o' c)` printed without parentheses although the backend groups operators
of one level to the left: it is read as `(a o b) o' c`. -/
theorem C43_fails_level (o o' : Op) (a b c : Ex) (hm : mean o = o) (hm' : mean o' = o')
    (hp : oprec o' ≤ oprec o) (hl : olev o = olev o') (hleft : rmin o = olev o + 1)
    (h : Fits o o' a b c) :
    Reads (.expr 0) (fmt (.bin o a (.bin o' b c))) (.bin o' (.bin o a b) c) [] := by
  have hw : wrap (oprec o) (.bin o' b c) (fmt (.bin o' b c)) = fmt (.bin o' b c) := by
    simp [wrap, fprec, hp]
  have hst : Stop (rmin o) (.op o' :: wrap (oprec o') c (fmt c)) := by
    intro n hn
    simp only [tlev, Option.some.injEq] at hn
    omega
  have hC : Reads (.expr (rmin o')) (wrap (oprec o') c (fmt c) ++ []) c [] :=
    (good c h.sc).operand h.lc (fun _ => trivial) (.stop trivial)
  rw [List.append_nil] at hC
  have hB : Reads (.expr (rmin o))
      (wrap (oprec o' + 1) b (fmt b) ++ .op o' :: wrap (oprec o') c (fmt c)) b
      (.op o' :: wrap (oprec o') c (fmt c)) :=
    (good b h.sb).operand h.lb
      (fun hq => stop_mono (Nat.le_trans (h.lb hq) (lev_le_rb b)) hst) (.stop hst)
  have hfin : Reads (.loop 0 (.bin (mean o) a b)) (.op o' :: wrap (oprec o') c (fmt c))
      (.bin o' (.bin o a b) c) [] := by
    refine .op (Nat.zero_le _) hC ?_
    rw [hm, hm']
    exact .stop trivial
  have hA := (good a h.sa).operand (q := oprec o + 1) (m := 0) (fun _ => Nat.zero_le _)
    (fun hq => left_stop o a (h.la hq) _) (Reads.op (Nat.zero_le _) hB hfin)
  have e1 : fmt (.bin o a (.bin o' b c)) = wrap (oprec o + 1) a (fmt a) ++
      .op o :: wrap (oprec o) (.bin o' b c) (fmt (.bin o' b c)) := rfl
  rw [e1, hw]
  exact hA

/-- The pairs of operators this happens for. -/
def lossy : List (Op × Op) :=
  [(.mul, .div), (.mul, .mod), (.mul, .mul), (.mod, .mul), (.mod, .div), (.mod, .mod),
   (.div, .div), (.add, .sub), (.add, .add), (.sub, .sub),
   (.eq, .lt), (.eq, .lte), (.eq, .gt), (.eq, .gte), (.eq, .eq), (.eq, .neq),
   (.neq, .lt), (.neq, .lte), (.neq, .gt), (.neq, .gte), (.neq, .eq), (.neq, .neq),
   (.gt, .lt), (.gt, .lte), (.gt, .gte), (.gt, .gt),
   (.lt, .lt), (.lt, .lte), (.lt, .gte), (.lte, .lt), (.lte, .lte), (.lte, .gte),
   (.gte, .lt), (.gte, .lte), (.gte, .gte)]

/-- For each of these pairs and all leaves, the text of `a o (b o' c)` is read as
`(a o b) o' c`, which is another tree. -/
theorem C43_fails_pairs (p : Op × Op) (h : p ∈ lossy) (x y z : List Char) :
    Reads (.expr 0) (fmt (.bin p.1 (.atom x) (.bin p.2 (.atom y) (.atom z))))
      (.bin p.2 (.bin p.1 (.atom x) (.atom y)) (.atom z)) [] := by
  obtain ⟨o, o'⟩ := p
  have hf : Fits o o' (.atom x) (.atom y) (.atom z) := by
    refine ⟨trivial, trivial, trivial, ?_, ?_, ?_⟩ <;> intro _ <;> simp only [lev]
    · cases o <;> decide
    · cases o <;> decide
    · cases o' <;> decide
  have hall : ∀ q ∈ lossy, mean q.1 = q.1 ∧ mean q.2 = q.2 ∧ oprec q.2 ≤ oprec q.1 ∧
      olev q.1 = olev q.2 ∧ rmin q.1 = olev q.1 + 1 := by decide
  obtain ⟨h1, h2, h3, h4, h5⟩ := hall _ h
  exact C43_fails_level o o' _ _ _ h1 h2 h3 h4 h5 hf

/-- `10 - (5 - 2)` reaches the backend as `10 - 5 - 2`: 3 instead of 7. -/
theorem C43_fails_value : ∃ (s : Sem Int) (e e' : Ex), Reads (.expr 0) (fmt e) e' [] ∧
    eval s e = 7 ∧ eval s e' = 3 :=
  ⟨⟨fun t => if t = ['a'] then 10 else if t = ['b'] then 5 else 2,
     fun o x y => if o = .sub then x - y else 0, fun _ x => x, fun _ x _ _ => x, id, id, id,
     fun _ x => x⟩,
   _, _, C43_fails_pairs (.sub, .sub) (by decide) ['a'] ['b'] ['c'], by decide, by decide⟩

/-- `a = (b IS NULL)` is printed without parentheses and read as `(a = b) IS NULL`. -/
theorem C43_fails_null (x y : List Char) :
    Reads (.expr 0) (fmt (.bin .eq (.atom x) (.post .missing (.atom y))))
      (.post .missing (.bin .eq (.atom x) (.atom y))) [] := by
  have hf : fmt (.bin .eq (.atom x) (.post .missing (.atom y))) =
      [.atom x, .op .eq, .atom y, .post .missing] := by simp [fmt, wrap, fprec, oprec, pprec]
  rw [hf]
  refine .expr (.atom _ _) (.op (Nat.zero_le _) (t' := [.post .missing]) (b := .atom y) ?_ ?_)
  · refine .expr (.atom _ _) (.stop ?_)
    intro n hn
    simp only [tlev, plev, Option.some.injEq] at hn
    subst hn; decide
  · exact .post (Nat.zero_le _) (.stop trivial)

/-- `(NOT a) = b` is printed `NOT(a) = b` and read as `NOT (a = b)`. -/
theorem C43_fails_not (x y : List Char) :
    Reads (.expr 0) (fmt (.bin .eq (.enot (.atom x)) (.atom y)))
      (.enot (.bin .eq (.atom x) (.atom y))) [] := by
  have hf : fmt (.bin .eq (.enot (.atom x)) (.atom y)) =
      [.knot, .lp, .atom x, .rp, .op .eq, .atom y] := by simp [fmt, wrap, fprec]
  rw [hf]
  refine .expr (.knot (.expr (.paren (r := [.op .eq, .atom y]) (.expr (.atom _ _) (.stop (stop_rp _ _)))) ?_))
    (.stop trivial)
  exact .op (by decide) (.expr (.atom _ _) (.stop trivial)) (.stop trivial)

/-- `~(a + b)` is printed `~a + b` and read as `(~a) + b`. -/
theorem C43_fails_binary_not (x y : List Char) :
    Reads (.expr 0) (fmt (.bnot (.bin .add (.atom x) (.atom y))))
      (.bin .add (.bnot (.atom x)) (.atom y)) [] := by
  have hf : fmt (.bnot (.bin .add (.atom x) (.atom y))) =
      [.tilde, .atom x, .op .add, .atom y] := by simp [fmt, wrap, fprec]
  rw [hf]
  exact .expr (.tilde (.atom _ _)) (.op (Nat.zero_le _) (.expr (.atom _ _) (.stop trivial)) (.stop trivial))

/-- `-a` is printed as a call of a function `NEG`, which the backend does not have. -/
theorem C43_fails_negation (e : Ex) (h : Safe e) :
    Reads (.expr 0) (fmt (.neg e)) (.call negName e) [] := by
  have := (C43_read_back_partial (.call negName e) h).1
  exact this

/-- String concatenation is printed `a || b`, which MySQL reads as OR. -/
theorem C43_fails_concat (x y : List Char) :
    Reads (.expr 0) (fmt (.bin .concat (.atom x) (.atom y))) (.bin .or (.atom x) (.atom y)) [] := by
  have hf : fmt (.bin .concat (.atom x) (.atom y)) = [.atom x, .op .concat, .atom y] := by
    simp [fmt, wrap, fprec]
  rw [hf]
  exact .expr (.atom _ _) (.op (Nat.zero_le _) (.expr (.atom _ _) (.stop trivial)) (.stop trivial))

end EulerDB.Format
