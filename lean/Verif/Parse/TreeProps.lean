/-
Properties of `make_tree`: which operands survive, and whether operators are grouped as
MySQL groups them.
-/
import Verif.Parse.Loss
import Verif.Parse.Grammar
import Mathlib.Tactic.FinCases

namespace EulerDB.Parse

/-! ### No operand is lost -/

/-- C59: the symbols of the tree returned are the beginning of the text; the rest is
what the loop left over. -/
theorem C59_prefix {t : List Item} {e : T} (h : makeTree t = some e) :
    syms t = e.syms ++ syms (iter t.length t).tail := makeTree_syms h

/-- C59, exactly: for a run without `BETWEEN` the tree holds all of the text if and only
if every prefix operator comes, in the operator table, before the operator in front of
it. -/
theorem C59_complete_iff {t : List Item} (hg : Good t) (hb : NoBtw t) {e : T}
    (h : makeTree t = some e) : e.syms = syms t ↔ Safe t := by
  rw [← single_iff hg hb]
  have hs := makeTree_syms h
  have hh := h
  unfold makeTree at h
  cases hu : iter t.length t with
  | nil => simp [hu] at h
  | cons i rest =>
    rw [hu, List.tail_cons] at hs
    constructor
    · intro he
      rw [← he] at hs
      have : syms rest = [] := by simpa using hs
      cases rest with
      | cons j r =>
        simp only [syms_cons, List.append_eq_nil_iff] at this
        exact absurd this.1 (T.syms_ne _)
      | nil =>
        have hj := reach_iter t.length t
        by_cases hsafe : Safe t
        · obtain ⟨v, hv⟩ := (single_iff hg hb).mpr hsafe
          exact ⟨v, by rw [← hu, hv]⟩
        · rw [hu] at hj
          rcases unsafe_reach hj hg hb hsafe with ⟨-, -, h'⟩ | h'
          · exact absurd (List.IsChain.singleton _) h'
          · exact absurd (List.IsChain.singleton _) h'
    · rintro ⟨v, hv⟩
      injection hv with _ hv
      subst hv
      simpa using hs.symm

/-- A run without prefix operators loses nothing. -/
theorem C59_infix_partial {t : List Item} (hg : Good t) (hb : NoBtw t)
    (hp : ∀ p, Item.pre p ∉ t) : ∃ e, makeTree t = some e ∧ e.syms = syms t := by
  have hs : Safe t := by
    unfold Safe
    rw [List.isChain_iff_forall_rel_of_append_cons_cons]
    intro x y a b he
    cases y with
    | pre p => exact absurd (by rw [he]; simp) (hp p)
    | val _ => cases x <;> simp [okPair]
    | bin _ => cases x <;> simp [okPair]
    | btw _ => cases x <;> simp [okPair]
  obtain ⟨v, hv⟩ := (single_iff hg hb).mpr hs
  have h : makeTree t = some v := by simp [makeTree, hv, Item.tree]
  exact ⟨v, h, (C59_complete_iff hg hb h).mpr hs⟩

/-- C59 fails: an infix operator that comes before a prefix operator in the table takes
the operator sign for its operand, and the real operand is dropped. -/
theorem C59_fails_prefix (o : Bop) (p : Pre) (h : ix (.bin o) < ix (.pre p)) (a b : String) :
    makeTree [.val (.atom a), .bin o, .pre p, .val (.atom b)] = some (.bin o (.atom a) (.preTok p)) := by
  cases o <;> cases p <;> first | exact absurd h (by decide) | rfl

/-- The ordinary case: `a * -b` is read as `a * "-"` and `b` disappears. -/
theorem C59_fails_mul_neg (a b : String) :
    makeTree [.val (.atom a), .bin .mul, .pre .neg, .val (.atom b)] =
      some (.bin .mul (.atom a) (.preTok .neg)) :=
  C59_fails_prefix .mul .neg (by decide) a b

/-- C59 fails: after a `BETWEEN` without its `AND`, which MySQL rejects as a syntax
error, everything but the first operand is dropped. -/
theorem C59_fails_between (n : Bool) (a b : String) :
    makeTree [.val (.atom a), .btw n, .val (.atom b)] = some (.atom a) := by
  cases n <;> rfl

/-! ### Grouping -/

/-- C60: `make_tree` reads back every tree grouped by its operator table. -/
theorem C60_reads_back {e : T} (h : WL e) : makeTree (flat e) = some e := makeTree_flat h

/-- C60: if MySQL reads a text as a tree that is grouped by the operator table too, the
proxy reads it as the same tree. -/
theorem C60_agrees_partial {t : List Item} {e : T} (h : MReads (.expr 0) t e [])
    (hw : WL e) : makeTree t = some e := by
  obtain ⟨-, rfl⟩ := mreads_iff.mp h
  exact makeTree_flat hw

/-- Trees of conditions as they are usually written: comparisons are not nested in
comparisons, `||` does not occur, `-` and `~` occur only where they are reduced in
time. -/
def Usual : T → Prop
  | .bin o l r => Usual l ∧ Usual r ∧ o ≠ .concat ∧
      (mlev o = some 4 ∨ mlev o = some 5 → 6 ≤ ml l ∧ 6 ≤ ml r) ∧
      (mlev o = some 9 → ml l ≠ 11 ∧ ml r ≠ 11) ∧
      (mlev o = some 8 → (∀ e, l ≠ .un .bnot e) ∧ (∀ e, r ≠ .un .bnot e))
  | .un .neg e => Usual e ∧ ∀ e', e ≠ .un .bnot e'
  | .un _ e => Usual e
  | .btw _ a b c => Usual a ∧ Usual b ∧ Usual c ∧ 6 ≤ ml c
  | _ => True

theorem ix_bounds {o : Bop} {n : Nat} (hc : o ≠ .concat) (h : mlev o = some n) :
    (n = 9 ∧ ix (.bin o) = 2) ∨ (n = 8 ∧ ix (.bin o) = 4) ∨ (n = 7 ∧ ix (.bin o) = 6) ∨
    (n = 6 ∧ ix (.bin o) = 7) ∨ (n = 5 ∧ 13 ≤ ix (.bin o) ∧ ix (.bin o) ≤ 20) ∨
    (n = 4 ∧ 8 ≤ ix (.bin o) ∧ ix (.bin o) ≤ 16) ∨ (n = 2 ∧ ix (.bin o) = 24) ∨
    (n = 0 ∧ ix (.bin o) = 25) := by
  cases o <;> simp only [mlev, Option.some.injEq, reduceCtorEq] at h <;> subst h <;>
    first | exact absurd rfl hc | decide

theorem min_bounds {o : Bop} {n : Nat} (h : mlev o = some n) :
    (n = 5 → lmin o = 6) ∧ (n ≠ 5 → lmin o = n) ∧ n < rmin o := by
  cases o <;> simp only [mlev, Option.some.injEq, reduceCtorEq] at h <;> subst h <;> decide

theorem lv_bounds {e : T} (hw : MW e) (hu : Usual e) :
    (12 ≤ ml e → lv e = 0) ∧ (9 ≤ ml e → ml e ≠ 11 → lv e ≤ 3) ∧
    (9 ≤ ml e → (∀ e', e ≠ .un .bnot e') → lv e ≤ 4) ∧
    (8 ≤ ml e → (∀ e', e ≠ .un .bnot e') → lv e ≤ 5) ∧ (8 ≤ ml e → lv e ≤ 6) ∧
    (7 ≤ ml e → lv e ≤ 7) ∧ (6 ≤ ml e → lv e ≤ 8) ∧ (3 ≤ ml e → lv e ≤ 24) ∧
    (1 ≤ ml e → lv e ≤ 25) ∧ lv e ≤ 26 ∧ ml e ≠ 10 := by
  cases e with
  | atom s => simp [ml, lv]
  | bin o l r =>
    cases hn : mlev o with
    | none => exact absurd hn hw.2.2.1
    | some n =>
      have := ix_bounds hu.2.2.1 hn
      simp only [ml, hn, Option.getD_some, lv, ne_eq, reduceCtorEq, not_false_eq_true,
        implies_true, true_imp_iff]
      generalize ix (.bin o) = i at *
      rcases this with ⟨rfl, h⟩ | ⟨rfl, h⟩ | ⟨rfl, h⟩ | ⟨rfl, h⟩ | ⟨rfl, h⟩ | ⟨rfl, h⟩ | ⟨rfl, h⟩ |
        ⟨rfl, h⟩ <;> simp <;> omega
  | un p e =>
    cases p with
    | neg =>
      have : lv (.un .neg e) = 4 := by simp only [lv]; decide
      simp [ml, this]
    | bnot =>
      have : lv (.un .bnot e) = 6 := by simp only [lv]; decide
      simp [ml, this]
    | knot =>
      have : lv (.un .knot e) = 24 := by simp only [lv]; decide
      simp [ml, this]
  | btw n a b c =>
    have : lv (.btw n a b c) ≤ 21 := by simp only [lv]; cases n <;> decide
    generalize lv (.btw n a b c) = i at *
    simp only [ml]
    simp
    omega
  | bopTok o => exact hw.elim
  | preTok o => exact hw.elim
  | btwTok o => exact hw.elim

theorem usual_wl : ∀ e : T, MW e → Usual e → WL e := by
  intro e
  induction e with
  | atom s => intro _ _; trivial
  | bin o l r ihl ihr =>
    intro hw hu
    obtain ⟨wl, wr, ho, hl, hr⟩ := hw
    obtain ⟨ul, ur, hc, h45, h9, h8⟩ := hu
    refine ⟨ihl wl ul, ihr wr ur, ?_⟩
    cases hn : mlev o with
    | none => exact absurd hn ho
    | some n =>
      simp only [hn, Option.some.injEq] at h45 h9 h8
      have b1 := ix_bounds hc hn
      obtain ⟨c1, c2, c3⟩ := min_bounds hn
      obtain ⟨l1, l2, l3, l4, l5, l6, l7, l8, l9, l10, l11⟩ := lv_bounds wl ul
      obtain ⟨r1, r2, r3, r4, r5, r6, r7, r8, r9, r10, r11⟩ := lv_bounds wr ur
      generalize ix (.bin o) = i at *
      generalize lmin o = p at *
      generalize rmin o = q at *
      rcases b1 with ⟨rfl, rfl⟩ | ⟨rfl, rfl⟩ | ⟨rfl, rfl⟩ | ⟨rfl, rfl⟩ | ⟨rfl, b1⟩ | ⟨rfl, b1⟩ |
        ⟨rfl, rfl⟩ | ⟨rfl, rfl⟩
      · obtain ⟨n1, n2⟩ := h9 rfl
        have e1 := c2 (by decide)
        have e2 := l2 (by omega) n1
        have e3 := r2 (by omega) n2
        have e4 : 12 ≤ ml r → lv r = 0 := r1
        exact ⟨by omega, by omega⟩
      · obtain ⟨n1, n2⟩ := h8 rfl
        have e1 := c2 (by decide)
        exact ⟨l4 (by omega) n1, r3 (by omega) n2⟩
      · have e1 := c2 (by decide)
        exact ⟨l6 (by omega), r5 (by omega)⟩
      · have e1 := c2 (by decide)
        exact ⟨l7 (by omega), r6 (by omega)⟩
      · obtain ⟨n1, n2⟩ := h45 (.inr rfl)
        have := l7 n1; have := r7 n2
        exact ⟨by omega, by omega⟩
      · obtain ⟨n1, n2⟩ := h45 (.inl rfl)
        have := l7 n1; have := r7 n2
        exact ⟨by omega, by omega⟩
      · have e1 := c2 (by decide)
        exact ⟨l9 (by omega), r8 (by omega)⟩
      · exact ⟨l10, r9 (by omega)⟩
  | un p e ih =>
    intro hw hu
    cases p with
    | neg =>
      refine ⟨ih hw.1 hu.1, ?_⟩
      obtain ⟨-, -, h, -⟩ := lv_bounds hw.1 hu.1
      have h' : ix (.pre .neg) = 3 := by decide
      rw [h']
      exact h (by have := hw.2; omega) hu.2
    | bnot =>
      refine ⟨ih hw.1 hu, ?_⟩
      obtain ⟨-, -, -, -, h, -⟩ := lv_bounds hw.1 hu
      have h' : ix (.pre .bnot) = 5 := by decide
      rw [h']
      exact h (by have := hw.2; omega)
    | knot =>
      refine ⟨ih hw.1 hu, ?_⟩
      obtain ⟨-, -, -, -, -, -, -, h, -⟩ := lv_bounds hw.1 hu
      have h' : ix (.pre .knot) = 23 := by decide
      rw [h']
      exact h hw.2
  | btw n a b c iha ihb ihc =>
    intro hw hu
    obtain ⟨wa, wb, wc, h1, h2, h3⟩ := hw
    obtain ⟨ua, ub, uc, h4⟩ := hu
    have : 11 ≤ ix (.btw n) := by cases n <;> decide
    obtain ⟨-, -, -, -, -, -, ba, -⟩ := lv_bounds wa ua
    obtain ⟨-, -, -, -, -, -, bb, -⟩ := lv_bounds wb ub
    obtain ⟨-, -, -, -, -, -, bc, -⟩ := lv_bounds wc uc
    have ba := ba h1; have bb := bb h2; have bc := bc h4
    refine ⟨iha wa ua, ihb wb ub, ihc wc uc, ?_⟩
    generalize ix (.btw n) = i at *
    exact ⟨by omega, by omega, by omega⟩
  | bopTok o => intro hw; exact hw.elim
  | preTok o => intro hw; exact hw.elim
  | btwTok o => intro hw; exact hw.elim

/-- C60: a condition as it is usually written is read by the proxy as MySQL reads it. -/
theorem C60_usual_partial {t : List Item} {e : T} (h : MReads (.expr 0) t e [])
    (hu : Usual e) : makeTree t = some e :=
  C60_agrees_partial h (usual_wl e (mreads_iff.mp h).1 hu)

/-- `NOT a + b * c = d OR e BETWEEN f AND g AND h LIKE i` is such a condition. -/
example :
    let v := fun s => T.atom s
    let e : T := .bin .or
      (.un .knot (.bin .eq (.bin .add (v "a") (.bin .mul (v "b") (v "c"))) (v "d")))
      (.bin .and (.btw false (v "e") (v "f") (v "g")) (.bin .like (v "h") (v "i")))
    MReads (.expr 0) (flat e) e [] ∧ Usual e := by
  intro v e
  refine ⟨mreads_iff.mpr ⟨?_, rfl⟩, ?_⟩
  · simp [e, v, MW, ml, mlev, lmin, rmin]
  · simp [e, v, Usual, ml, mlev]

/-! ### Exactly when the grouping agrees, for runs without `BETWEEN` -/

theorem redBin_first {os : List Bop} : ∀ {t t' : List Item}, redBin os t = some t' →
    ∃ a x o y b, o ∈ os ∧ t = a ++ x :: .bin o :: y :: b ∧
      t' = a ++ .val (.bin o x.tree y.tree) :: b ∧ ∀ o' ∈ os, Item.bin o' ∉ a.tail
  | [], _, h => by simp [redBin] at h
  | [_], _, h => by simp [redBin] at h
  | [_, _], _, h => by simp [redBin] at h
  | x :: k :: y :: r, t', h => by
    rcases hit_or_skip os k with ⟨o, ho, rfl⟩ | hs
    · simp only [redBin, ho, if_true, Option.some.injEq] at h
      exact ⟨[], x, o, y, r, ho, rfl, h.symm, by simp⟩
    · rw [redBin_skip _ hs] at h
      cases hr : redBin os (k :: y :: r) with
      | none => simp [hr] at h
      | some w =>
        simp only [hr, Option.map_some, Option.some.injEq] at h
        obtain ⟨a, x', o, y', b, ho, he, hw, hf⟩ := redBin_first hr
        refine ⟨x :: a, x', o, y', b, ho, by rw [he]; rfl, by rw [← h, hw]; rfl, ?_⟩
        intro o' ho' hm
        simp only [List.tail_cons] at hm
        cases a with
        | nil => simp at hm
        | cons z a =>
          obtain ⟨rfl, -⟩ := List.cons.inj he
          rcases List.mem_cons.mp hm with h | h
          · exact hs o' ho' h.symm
          · exact hf o' ho' (by simpa using h)

/-- Neighbours in a run are compatible with the order of the table. -/
def fits : Item → Item → Prop
  | .bin o, .val v => lv v ≤ ix (.bin o)
  | .val v, .bin o => lv v ≤ ix (.bin o) + 1
  | .pre p, .val v => lv v ≤ ix (.pre p) + 1
  | _, _ => True

/-- All operands of the run are grouped by the table. -/
def Fit (t : List Item) : Prop := (∀ v, Item.val v ∈ t → WL v) ∧ t.IsChain fits

theorem fit_glue {a w b : List Item} {k : Nat} {u : T} (hf : ∀ i ∈ a ++ (w ++ b), k ≤ ix i)
    (hlv : lv u = k + 1) (hu : WL u) (hl : ∀ o, Item.bin o ∈ a.getLast? → ix (.bin o) ≠ k)
    (h : Fit (a ++ (w ++ b))) : Fit (a ++ .val u :: b) := by
  obtain ⟨h1, h2⟩ := h
  have c1 := List.isChain_append.mp h2
  have c2 := List.isChain_append.mp c1.2.1
  refine ⟨?_, List.isChain_append.mpr ⟨c1.1, List.isChain_cons.mpr ⟨?_, c2.2.1⟩, ?_⟩⟩
  · intro v hv
    simp only [List.mem_append, List.mem_cons, Item.val.injEq] at hv
    rcases hv with hv | rfl | hv
    · exact h1 v (by simp [hv])
    · exact hu
    · exact h1 v (by simp [hv])
  · intro y hy
    have hm : y ∈ b := List.mem_of_mem_head? hy
    have := hf y (by simp [hm])
    cases y with
    | bin o => simp only [fits]; omega
    | _ => simp [fits]
  · intro x hx y hy
    simp only [List.head?_cons, Option.mem_some_iff] at hy
    subst hy
    have hm : x ∈ a := List.mem_of_mem_getLast? hx
    have := hf x (by simp [hm])
    cases x with
    | bin o => have := hl o hx; simp only [fits]; omega
    | pre p => simp only [fits]; omega
    | _ => simp [fits]

theorem lev_ix {k : Nat} {l : Lev} (hl : table[k]? = some l) :
    (∀ os, l = .bin os → ∀ o ∈ os, ix (.bin o) = k) ∧ (∀ p, l = .pre p → ix (.pre p) = k) ∧
    ∀ o p, l = .pre p → ix (.bin o) ≠ k := by
  have hk : k < 27 := by
    have := (List.getElem?_eq_some_iff.mp hl).1
    simpa [table] using this
  rcases ix_cases k hk with ⟨os, ht, ho, hp, hb⟩ | ⟨p, ht, ho, hp, hb⟩ | ⟨n, ht, ho, hp, hb⟩
  · rw [hl] at ht; injection ht with ht; subst ht
    refine ⟨?_, by simp, by simp⟩
    intro os' he o hm; injection he with he; subst he; exact (ho o).mp hm
  · rw [hl] at ht; injection ht with ht; subst ht
    refine ⟨by simp, ?_, fun o _ _ => ho o⟩
    intro q he; injection he with he; exact (hp q).mpr he.symm
  · rw [hl] at ht; injection ht with ht; subst ht
    exact ⟨by simp, by simp, by simp⟩

theorem fit_step {t t' : List Item} (hg : Good t) (hb : NoBtw t) (hs : Safe t) (hf : Fit t)
    (h : step t = some t') : Fit t' := by
  obtain ⟨hg', hb', hs'⟩ := good_step hg hb hs h
  obtain ⟨k, l, hl, hr, hfr⟩ := step_min hg hb h
  obtain ⟨i1, i2, i3⟩ := lev_ix hl
  cases l with
  | bin os =>
    obtain ⟨a, x, o, y, b, ho, rfl, rfl, hfirst⟩ := redBin_first hr
    obtain ⟨⟨v, rfl⟩, ha, hy⟩ := good_bin_window hg
    have hk := i1 os rfl o ho
    rcases start_cases hy with ⟨w, rfl⟩ | ⟨p, rfl⟩
    · have hc := hf.2
      have c1 := (List.isChain_append.mp hc).2.1
      have hvo : lv v ≤ ix (.bin o) + 1 := by
        have := (List.isChain_cons.mp c1).1 (.bin o) (by simp)
        simpa [fits] using this
      have how : lv w ≤ ix (.bin o) := by
        have := (List.isChain_cons.mp (List.isChain_cons.mp c1).2).1 (.val w) (by simp)
        simpa [fits] using this
      refine fit_glue (w := [.val v, .bin o, .val w]) (k := k) hfr (by simp [lv, hk]) ?_ ?_ hf
      · exact ⟨hf.1 v (by simp), hf.1 w (by simp), hvo, how⟩
      · intro o' ho' hk'
        have hos : o' ∈ os := by
          rcases ix_cases k (by have := ix_lt_bin o; omega) with
            ⟨os', ht, ho2, -, -⟩ | ⟨p, ht, -⟩ | ⟨n, ht, -⟩
          · rw [hl] at ht
            injection ht with ht
            injection ht with ht
            subst ht
            exact (ho2 o').mpr hk'
          · rw [hl] at ht; simp at ht
          · rw [hl] at ht; simp at ht
        cases a with
        | nil => simp at ho'
        | cons z a =>
          cases a with
          | nil =>
            simp only [List.getLast?_singleton, Option.mem_some_iff] at ho'
            subst ho'
            simp [st] at ha
          | cons z' a =>
            refine hfirst o' hos ?_
            simp only [List.tail_cons]
            rw [List.getLast?_cons_cons] at ho'
            exact List.mem_of_mem_getLast? ho'
    · exfalso
      have h1 : ix (.pre p) < ix (.bin o) :=
        safe_pair (a := a ++ [.val v]) (x := .bin o) (y := .pre p) (b := b) (by simpa using hs)
      have h3 := hfr (.pre p) (by simp)
      omega
  | pre p =>
    obtain ⟨a, y, b, hn, rfl, rfl⟩ := redPre_parts hr
    obtain ⟨ha, hy⟩ := good_pre_window hg
    have hk := i2 p rfl
    rcases start_cases hy with ⟨w, rfl⟩ | ⟨q, rfl⟩
    · have c1 := (List.isChain_append.mp hf.2).2.1
      have hpw : lv w ≤ ix (.pre p) + 1 := by
        have := (List.isChain_cons.mp c1).1 (.val w) (by simp)
        simpa [fits] using this
      exact fit_glue (w := [.pre p, .val w]) (k := k) hfr (by simp [lv, hk])
        ⟨hf.1 w (by simp), hpw⟩ (fun o' _ => i3 o' p rfl) hf
    · exfalso
      have h1 : ix (.pre q) ≤ ix (.pre p) := safe_pair (x := .pre p) (y := .pre q) hs
      have h3 := hfr (.pre q) (by simp)
      have := ix_inj_pre (p := q) (q := p) (by omega)
      subst this
      exact good_pre_mem false hy hn (by simp)
  | btw n =>
    obtain ⟨a, x, y, z, b, rfl, rfl⟩ := redBtw_parts hr
    exact absurd (by simp) (hb n)

theorem fit_reach {t u : List Item} (h : Reach t u) :
    Good t → NoBtw t → Safe t → Fit t → Fit u := by
  induction h with
  | refl => exact fun _ _ _ h => h
  | head hs _ ih =>
    intro a b c d
    obtain ⟨a', b', c'⟩ := good_step a b c hs
    exact ih a' b' c' (fit_step a b c d hs)

/-- A tree built from plain operands only. -/
def Clean : T → Prop
  | .atom _ => True
  | .bin _ l r => Clean l ∧ Clean r
  | .un _ e => Clean e
  | .btw _ _ _ _ => False
  | _ => False

theorem clean_flat : ∀ {e : T}, Clean e → st false (flat e) = some true ∧ NoBtw (flat e) ∧
    (∀ v, Item.val v ∈ flat e → ∃ s, v = .atom s) ∧ syms (flat e) = e.syms
  | .atom s, _ => by
    refine ⟨by simp [flat, cut, st], by simp [flat, cut, NoBtw], ?_, by simp [flat, cut, Item.tree]⟩
    intro v hv
    simp [flat, cut] at hv
    exact ⟨s, hv⟩
  | .bin o l r, h => by
    obtain ⟨l1, l2, l3, l4⟩ := clean_flat h.1
    obtain ⟨r1, r2, r3, r4⟩ := clean_flat h.2
    rw [flat_bin]
    refine ⟨by rw [st_append, l1]; simpa [st] using r1, ?_, ?_, ?_⟩
    · intro n hn
      simp only [List.mem_append, List.mem_cons, reduceCtorEq, false_or] at hn
      exact hn.elim (l2 n) (r2 n)
    · intro v hv
      simp only [List.mem_append, List.mem_cons, reduceCtorEq, false_or] at hv
      exact hv.elim (l3 v) (r3 v)
    · simp [l4, r4, Item.tree, T.syms]
  | .un p e, h => by
    obtain ⟨l1, l2, l3, l4⟩ := clean_flat (e := e) h
    rw [flat_un]
    refine ⟨by simpa [st] using l1, ?_, ?_, ?_⟩
    · intro n hn
      simp only [List.mem_cons, reduceCtorEq, false_or] at hn
      exact l2 n hn
    · intro v hv
      simp only [List.mem_cons, reduceCtorEq, false_or] at hv
      exact l3 v hv
    · simp [l4, Item.tree, T.syms]

/-- C60, exactly: on a text without `BETWEEN` the proxy groups as MySQL does if and only
if MySQL's tree is grouped by the operator table. -/
theorem C60_agrees_iff {t : List Item} {e : T} (h : MReads (.expr 0) t e []) (hc : Clean e) :
    makeTree t = some e ↔ WL e := by
  refine ⟨fun hm => ?_, C60_agrees_partial h⟩
  obtain ⟨-, rfl⟩ := mreads_iff.mp h
  obtain ⟨hg, hb, ha, hsy⟩ := clean_flat hc
  have hs : Safe (flat e) := (C59_complete_iff hg hb hm).mp hsy.symm
  have hfit : Fit (flat e) := by
    refine ⟨?_, ?_⟩
    · intro v hv
      obtain ⟨s, rfl⟩ := ha v hv
      trivial
    · rw [List.isChain_iff_forall_rel_of_append_cons_cons]
      intro x y a b he
      have hx : ∀ v, x = .val v → lv v = 0 := by
        intro v hv
        obtain ⟨s, rfl⟩ := ha v (by rw [he]; simp [hv])
        rfl
      have hy : ∀ v, y = .val v → lv v = 0 := by
        intro v hv
        obtain ⟨s, rfl⟩ := ha v (by rw [he]; simp [hv])
        rfl
      cases x with
      | val v => cases y <;> simp [fits, hx v rfl]
      | bin o => cases y with
        | val v => simp [fits, hy v rfl]
        | _ => simp [fits]
      | pre o => cases y with
        | val v => simp [fits, hy v rfl]
        | _ => simp [fits]
      | btw o => cases y <;> simp [fits]
  obtain ⟨v, hv⟩ := (single_iff hg hb).mpr hs
  have hf := fit_reach (reach_iter (flat e).length (flat e)) hg hb hs hfit
  have : v = e := by
    simp only [makeTree, hv, List.head?_cons, Option.map_some, Item.tree, Option.some.injEq] at hm
    exact hm
  subst this
  rw [hv] at hf
  exact hf.1 v (by simp)

/-- C60 fails: comparisons on the same level in MySQL are grouped by kind, so
`a = b < c` is read as `a = (b < c)` instead of `(a = b) < c`. -/
theorem C60_fails_compare (a b c : String) :
    let t : List Item := [.val (.atom a), .bin .eq, .val (.atom b), .bin .lt, .val (.atom c)]
    MReads (.expr 0) t (.bin .lt (.bin .eq (.atom a) (.atom b)) (.atom c)) [] ∧
      makeTree t = some (.bin .eq (.atom a) (.bin .lt (.atom b) (.atom c))) := by
  refine ⟨mreads_iff.mpr ⟨?_, by simp [flat, cut]⟩, rfl⟩
  simp [MW, ml, mlev, lmin, rmin]

/-- C60 fails: `a = b IN s` is read as `(a = b) IN s` instead of `a = (b IN s)`, and the
same for every predicate. -/
theorem C60_fails_predicate (o : Bop) (ho : o ∈ [Bop.isin, .nin, .like, .notLike, .rlike, .notRlike])
    (q : Bop) (hq : q ∈ [Bop.eq, .neq, .deq, .lt, .lte, .gt, .gte]) (a b c : String) :
    let t : List Item := [.val (.atom a), .bin q, .val (.atom b), .bin o, .val (.atom c)]
    MReads (.expr 0) t (.bin q (.atom a) (.bin o (.atom b) (.atom c))) [] ∧
      makeTree t = some (.bin o (.bin q (.atom a) (.atom b)) (.atom c)) := by
  fin_cases ho <;> fin_cases hq <;>
    exact ⟨mreads_iff.mpr ⟨by simp [MW, ml, mlev, lmin, rmin], by simp [flat, cut]⟩, rfl⟩

/-- C60 fails: `-a * b` is read as `-(a * b)`. -/
theorem C60_fails_neg (a b : String) :
    let t : List Item := [.pre .neg, .val (.atom a), .bin .mul, .val (.atom b)]
    MReads (.expr 0) t (.bin .mul (.un .neg (.atom a)) (.atom b)) [] ∧
      makeTree t = some (.un .neg (.bin .mul (.atom a) (.atom b))) := by
  refine ⟨mreads_iff.mpr ⟨?_, by simp [flat, cut]⟩, rfl⟩
  simp [MW, ml, mlev, lmin, rmin]

/-- C60 fails: `||`, which is `OR` in MySQL's default mode, is made to bind tightest:
`a = b || c = d` is read as `(a = (b || c)) = d`. -/
theorem C60_fails_pipes (a b c d : String) :
    let t : List Item := [.val (.atom a), .bin .eq, .val (.atom b), .bin .concat, .val (.atom c),
      .bin .eq, .val (.atom d)]
    MReads (.expr 0) t
        (.bin .concat (.bin .eq (.atom a) (.atom b)) (.bin .eq (.atom c) (.atom d))) [] ∧
      makeTree t =
        some (.bin .eq (.bin .eq (.atom a) (.bin .concat (.atom b) (.atom c))) (.atom d)) := by
  refine ⟨mreads_iff.mpr ⟨?_, by simp [flat, cut]⟩, rfl⟩
  simp [MW, ml, mlev, lmin, rmin]

/-- C60 fails: `a BETWEEN b AND c = d` is read as `a BETWEEN b AND (c = d)` instead of
`(a BETWEEN b AND c) = d`. -/
theorem C60_fails_between (n : Bool) (a b c d : String) :
    let t : List Item := [.val (.atom a), .btw n, .val (.atom b), .bin .and, .val (.atom c),
      .bin .eq, .val (.atom d)]
    MReads (.expr 0) t (.bin .eq (.btw n (.atom a) (.atom b) (.atom c)) (.atom d)) [] ∧
      makeTree t = some (.btw n (.atom a) (.atom b) (.bin .eq (.atom c) (.atom d))) := by
  refine ⟨mreads_iff.mpr ⟨?_, by simp [flat, cut]⟩, by cases n <;> rfl⟩
  simp [MW, ml, mlev, lmin, rmin]

/-- The two groupings of `a o b q c`. -/
theorem C60_two_operators (o q : Bop) (a b c : String) :
    makeTree [.val (.atom a), .bin o, .val (.atom b), .bin q, .val (.atom c)] =
      some (if ix (.bin o) ≤ ix (.bin q) then .bin q (.bin o (.atom a) (.atom b)) (.atom c)
        else .bin o (.atom a) (.bin q (.atom b) (.atom c))) := by
  split
  · rename_i h
    have : WL (.bin q (.bin o (.atom a) (.atom b)) (.atom c)) := by
      simp [WL, lv]; omega
    simpa [flat, cut] using makeTree_flat this
  · rename_i h
    have : WL (.bin o (.atom a) (.bin q (.atom b) (.atom c))) := by
      simp [WL, lv]; omega
    simpa [flat, cut] using makeTree_flat this

end EulerDB.Parse
