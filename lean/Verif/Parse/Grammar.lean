/-
How MySQL groups a flat run of operands and operators.

Trusted: the grammar below is the expression grammar of MySQL 5.7/8 (`expr`,
`bool_pri`, `predicate`, `bit_expr`, `simple_expr` in sql_yacc.yy), written as
precedence climbing, in the default SQL mode.  It differs from
`Verif/Format/Expr.lean` in that conditions such as `IN` and `IS` take their right-hand
side as an operand, as the proxy's parser does, and in that it rejects what MySQL
rejects, for instance `a LIKE b LIKE c` or `a + NOT b`.
`IS TRUE` and the like are put on the level of `IS NULL`.  The operators
`COLLATE`, `AT TIME ZONE`, `SIMILAR TO`, `->` and `IS [NOT] DISTINCT FROM` are left out
(they are not infix operators of MySQL, or take no expression on the right); `||` is
`OR` in the default mode, which is recorded by the level it gets.
-/
import Verif.Parse.Level

namespace EulerDB.Parse

/-- Level in MySQL's grammar of an infix operator; a higher level binds tighter. -/
def mlev : Bop → Option Nat
  | .or => some 0 | .concat => some 0 | .and => some 2
  | .eq => some 4 | .neq => some 4 | .deq => some 4
  | .lt => some 4 | .lte => some 4 | .gt => some 4 | .gte => some 4
  | .is => some 4 | .isNot => some 4
  | .isin => some 5 | .nin => some 5
  | .like => some 5 | .notLike => some 5 | .rlike => some 5 | .notRlike => some 5
  | .bor => some 6 | .band => some 7 | .add => some 8 | .sub => some 8
  | .mul => some 9 | .div => some 9 | .mod => some 9
  | .collate => none | .idf => none | .indf => none | .atz => none
  | .similar => none | .notSimilar => none | .lambda => none

/-- Least level of the left operand. -/
def lmin : Bop → Nat
  | .isin => 6 | .nin => 6 | .like => 6 | .notLike => 6 | .rlike => 6 | .notRlike => 6
  | o => (mlev o).getD 0

/-- Least level of the right operand: `LIKE` takes a simple expression, `RLIKE` a bit
expression, `IN` a list in parentheses and `IS` a keyword. -/
def rmin : Bop → Nat
  | .isin => 12 | .nin => 12 | .is => 12 | .isNot => 12
  | .like => 11 | .notLike => 11 | .rlike => 6 | .notRlike => 6
  | o => (mlev o).getD 0 + 1

/-- Level of the root of a tree. -/
def ml : T → Nat
  | .bin o _ _ => (mlev o).getD 0
  | .un .knot _ => 3
  | .un _ _ => 11
  | .btw _ _ _ _ => 5
  | _ => 12

/-- The level of what an element continues, if it continues an expression. -/
def tlev : Item → Option Nat
  | .bin o => mlev o
  | .btw _ => some 5
  | _ => none

/-- A loop at level `m` stops before `t`. -/
def MStop (m : Nat) : List Item → Prop
  | [] => True
  | k :: _ => ∀ n, tlev k = some n → n < m

inductive Mode
  | prim
  | expr (m : Nat)
  | loop (m : Nat) (lhs : T)

/-- `MReads (.expr 0) t e r`: the grammar reads a prefix of `t` as `e` and leaves `r`.
`.expr m` reads operators of level at least `m` only; `.loop m lhs` continues after the
operand `lhs`. -/
inductive MReads : Mode → List Item → T → List Item → Prop
  | atom (s t) : MReads .prim (.val (.atom s) :: t) (.atom s) t
  | neg {t e r} : MReads .prim t e r → MReads .prim (.pre .neg :: t) (.un .neg e) r
  | bnot {t e r} : MReads .prim t e r → MReads .prim (.pre .bnot :: t) (.un .bnot e) r
  | knot {m t a t' e r} : m ≤ 3 → MReads (.expr 3) t a t' →
      MReads (.loop m (.un .knot a)) t' e r → MReads (.expr m) (.pre .knot :: t) e r
  | expr {m t a t' e r} : MReads .prim t a t' → m ≤ ml a → MReads (.loop m a) t' e r →
      MReads (.expr m) t e r
  | stop {m a t} : MStop m t → MReads (.loop m a) t a t
  | op {m a o n t b t' e r} : mlev o = some n → m ≤ n → lmin o ≤ ml a →
      MReads (.expr (rmin o)) t b t' → MReads (.loop m (.bin o a b)) t' e r →
      MReads (.loop m a) (.bin o :: t) e r
  | btw {m a n t b t' c t'' e r} : m ≤ 5 → 6 ≤ ml a → MReads (.expr 6) t b (.bin .and :: t') →
      MReads (.expr 5) t' c t'' → MReads (.loop m (.btw n a b c)) t'' e r →
      MReads (.loop m a) (.btw n :: t) e r

/-- Grouped as MySQL groups. -/
def MW : T → Prop
  | .atom _ => True
  | .bin o l r => MW l ∧ MW r ∧ mlev o ≠ none ∧ lmin o ≤ ml l ∧ rmin o ≤ ml r
  | .un .knot e => MW e ∧ 3 ≤ ml e
  | .un _ e => MW e ∧ 11 ≤ ml e
  | .btw _ a b c => MW a ∧ MW b ∧ MW c ∧ 6 ≤ ml a ∧ 6 ≤ ml b ∧ 5 ≤ ml c
  | _ => False

theorem flat_bin (o : Bop) (l r : T) : flat (.bin o l r) = flat l ++ .bin o :: flat r := by
  simp [flat, cut]
theorem flat_un (p : Pre) (e : T) : flat (.un p e) = .pre p :: flat e := by simp [flat, cut]
theorem flat_btw (n : Bool) (a b c : T) :
    flat (.btw n a b c) = flat a ++ .btw n :: (flat b ++ .bin .and :: flat c) := by
  simp [flat, cut]

/-- What a reading in a mode says about the tree. -/
def Mode.Ok : Mode → List Item → T → List Item → Prop
  | .prim, t, e, r => MW e ∧ 11 ≤ ml e ∧ t = flat e ++ r
  | .expr m, t, e, r => MW e ∧ m ≤ ml e ∧ t = flat e ++ r ∧ MStop m r
  | .loop m a, t, e, r => MW a → m ≤ ml a → MW e ∧ m ≤ ml e ∧ flat a ++ t = flat e ++ r ∧ MStop m r

theorem mreads_ok {md t e r} (h : MReads md t e r) : md.Ok t e r := by
  induction h with
  | atom s t => exact ⟨trivial, by simp [ml], by simp [flat, cut]⟩
  | neg _ ih =>
    obtain ⟨h1, h2, h3⟩ := ih
    exact ⟨⟨h1, h2⟩, by simp [ml], by rw [h3, flat_un]; rfl⟩
  | bnot _ ih =>
    obtain ⟨h1, h2, h3⟩ := ih
    exact ⟨⟨h1, h2⟩, by simp [ml], by rw [h3, flat_un]; rfl⟩
  | knot hm _ _ ih1 ih2 =>
    obtain ⟨h1, h2, h3, h4⟩ := ih1
    obtain ⟨g1, g2, g3, g4⟩ := ih2 ⟨h1, h2⟩ (by simpa [ml] using hm)
    refine ⟨g1, g2, ?_, g4⟩
    rw [← g3, h3, flat_un]; rfl
  | expr _ hm _ ih1 ih2 =>
    obtain ⟨h1, h2, h3⟩ := ih1
    obtain ⟨g1, g2, g3, g4⟩ := ih2 h1 hm
    exact ⟨g1, g2, by rw [← g3, h3], g4⟩
  | stop hs => intro h1 h2; exact ⟨h1, h2, rfl, hs⟩
  | op hn hm hl _ _ ih1 ih2 =>
    intro h1 h2
    obtain ⟨g1, g2, g3, g4⟩ := ih1
    obtain ⟨k1, k2, k3, k4⟩ := ih2 ⟨h1, g1, by simp [hn], hl, g2⟩ (by simpa [ml, hn] using hm)
    exact ⟨k1, k2, by rw [← k3, g3, flat_bin]; simp, k4⟩
  | btw hm ha _ _ _ ih1 ih2 ih3 =>
    intro h1 h2
    obtain ⟨g1, g2, g3, g4⟩ := ih1
    obtain ⟨k1, k2, k3, k4⟩ := ih2
    obtain ⟨l1, l2, l3, l4⟩ := ih3 ⟨h1, g1, k1, ha, g2, k2⟩ (by simpa [ml] using hm)
    exact ⟨l1, l2, by rw [← l3, g3, k3, flat_btw]; simp, l4⟩

/-! ### Every tree grouped as MySQL groups is read from its run -/

/-- What follows does not bind tighter than the root. -/
def Fol (e : T) (r : List Item) : Prop :=
  ∀ k ∈ r.head?, ∀ n, tlev k = some n → n < ml e ∨ (n = ml e ∧ n ≠ 5)

theorem mlev_le_lmin {o : Bop} {n : Nat} (h : mlev o = some n) : n ≤ lmin o := by
  cases o <;> simp_all [mlev, lmin] <;> omega
theorem mlev_lt_lmin {o : Bop} (h : mlev o = some 5) : 6 ≤ lmin o := by
  cases o <;> simp_all [mlev, lmin]
theorem mlev_lt_rmin {o : Bop} {n : Nat} (h : mlev o = some n) : n < rmin o := by
  cases o <;> simp_all [mlev, rmin] <;> omega
theorem mlev_lt_ten {o : Bop} {n : Nat} (h : mlev o = some n) : n < 10 := by
  cases o <;> simp_all [mlev] <;> omega
theorem tlev_ne (k : Item) : tlev k ≠ some 3 := by
  cases k with
  | bin o => cases o <;> simp [tlev, mlev]
  | _ => simp [tlev]

theorem mreads_prim : ∀ (e : T), MW e → 11 ≤ ml e → ∀ r, MReads .prim (flat e ++ r) e r
  | .atom s, _, _, r => .atom s r
  | .bin o a b, hw, h, r => by
    cases hn : mlev o with
    | none => exact absurd hn hw.2.2.1
    | some n =>
      have := mlev_lt_ten hn
      simp [ml, hn] at h
      omega
  | .un .neg e, hw, h, r => by rw [flat_un]; exact .neg (mreads_prim e hw.1 hw.2 r)
  | .un .bnot e, hw, h, r => by rw [flat_un]; exact .bnot (mreads_prim e hw.1 hw.2 r)
  | .un .knot e, hw, h, r => by simp [ml] at h
  | .btw n a b c, hw, h, r => by simp [ml] at h
  | .bopTok o, hw, _, _ => hw.elim
  | .preTok o, hw, _, _ => hw.elim
  | .btwTok o, hw, _, _ => hw.elim

theorem stop_of_lt {r : List Item} {m : Nat}
    (h : ∀ k ∈ r.head?, ∀ n, tlev k = some n → n < m) : MStop m r := by
  cases r with
  | nil => trivial
  | cons k r => exact h k (by simp)

theorem mreads_flat : ∀ (e : T), MW e → ∀ m, m ≤ ml e → ∀ e' r r',
    MReads (.loop m e) r e' r' → Fol e r → MReads (.expr m) (flat e ++ r) e' r' := by
  intro e
  induction e with
  | atom s =>
    intro _ m hm e' r r' h _
    exact .expr (.atom s r) hm h
  | bin o a b iha ihb =>
    intro hw m hm e' r r' h hs
    obtain ⟨wa, wb, ho, hl, hr⟩ := hw
    cases hn : mlev o with
    | none => exact absurd hn ho
    | some n =>
    simp only [ml, hn, Option.getD_some] at hm
    have h1 := mlev_le_lmin hn
    have h2 := mlev_lt_rmin hn
    have hf : ∀ k ∈ r.head?, ∀ j, tlev k = some j → j ≤ n := by
      intro k hk j hj
      have := hs k hk j hj
      simp only [ml, hn, Option.getD_some] at this
      omega
    rw [flat_bin, List.append_assoc, List.cons_append]
    refine iha wa m (by omega) _ _ _ (.op hn hm hl (ihb wb _ hr _ _ _ (.stop ?_) ?_) h) ?_
    · exact stop_of_lt fun k hk j hj => by have := hf k hk j hj; omega
    · intro k hk j hj
      have := hf k hk j hj
      left; omega
    · intro k hk j hj
      simp only [List.head?_cons, Option.mem_some_iff] at hk
      subst hk
      simp only [tlev, hn, Option.some.injEq] at hj
      subst hj
      by_cases h5 : n = 5
      · subst h5
        have := mlev_lt_lmin hn
        left; omega
      · omega
  | un p e ih =>
    intro hw m hm e' r r' h hs
    have prim : p ≠ .knot → MReads (.expr m) (flat (.un p e) ++ r) e' r' := by
      intro hp
      have h11 : 11 ≤ ml (.un p e) := by cases p <;> simp_all [ml]
      exact .expr (mreads_prim _ hw h11 r) hm h
    cases p with
    | neg => exact prim (by simp)
    | bnot => exact prim (by simp)
    | knot =>
      rw [flat_un, List.cons_append]
      have hf : ∀ k ∈ r.head?, ∀ j, tlev k = some j → j < 3 := by
        intro k hk j hj
        have := hs k hk j hj
        simp only [ml] at this
        have h3 := tlev_ne k
        rcases this with h | ⟨h, -⟩
        · exact h
        · subst h; exact absurd hj h3
      refine .knot (by simpa [ml] using hm) (ih hw.1 3 hw.2 _ _ _ (.stop ?_) ?_) h
      · exact stop_of_lt hf
      · intro k hk j hj
        have := hf k hk j hj
        have := hw.2
        left; omega
  | btw n a b c iha ihb ihc =>
    intro hw m hm e' r r' h hs
    obtain ⟨wa, wb, wc, h1, h2, h3⟩ := hw
    simp only [ml] at hm
    have hf : ∀ k ∈ r.head?, ∀ j, tlev k = some j → j < 5 := by
      intro k hk j hj
      have := hs k hk j hj
      simp only [ml] at this
      omega
    rw [flat_btw]
    simp only [List.append_assoc, List.cons_append]
    refine iha wa m (by omega) _ _ _ (.btw hm h1 (ihb wb 6 h2 _ _ _ (.stop ?_) ?_)
      (ihc wc 5 h3 _ _ _ (.stop ?_) ?_) h) ?_
    · simp [MStop, tlev, mlev]
    · intro k hk j hj
      simp only [List.head?_cons, Option.mem_some_iff] at hk
      subst hk
      simp only [tlev, mlev, Option.some.injEq] at hj
      left; omega
    · exact stop_of_lt hf
    · intro k hk j hj
      have := hf k hk j hj
      left; omega
    · intro k hk j hj
      simp only [List.head?_cons, Option.mem_some_iff] at hk
      subst hk
      simp only [tlev, Option.some.injEq] at hj
      left; omega
  | bopTok o => intro hw; exact hw.elim
  | preTok o => intro hw; exact hw.elim
  | btwTok o => intro hw; exact hw.elim

/-- MySQL reads a run as a tree exactly if it is the run of the tree and the tree is
grouped as MySQL groups. -/
theorem mreads_iff {t : List Item} {e : T} : MReads (.expr 0) t e [] ↔ MW e ∧ t = flat e := by
  constructor
  · intro h
    obtain ⟨h1, -, h3, -⟩ := mreads_ok h
    exact ⟨h1, by simpa using h3⟩
  · rintro ⟨h, rfl⟩
    have := mreads_flat e h 0 (by omega) e [] [] (.stop trivial) (by intro k hk; simp at hk)
    simpa using this

end EulerDB.Parse
