/-
Does an applied operator keep its meaning when `to_json_operator` rewrites it?
-/
import Verif.Parse.Action

namespace EulerDB.Parse

variable {V : Type}

/-- Numbers, as the parser recognises them: digits with any number of minus signs. -/
def E.isNum : E → Bool
  | .num _ => true
  | .un .neg e => e.isNum
  | _ => false

theorem actBin_shape (o : JOp) (l r : J) :
    (∃ e, actBin o l r = .missing e) ∨ (∃ e, actBin o l r = .exists e) ∨
      ∃ args, actBin o l r = .call o args := by
  unfold actBin
  split <;> first | exact .inl ⟨_, rfl⟩ | exact .inr (.inl ⟨_, rfl⟩) | skip
  split <;> exact .inr (.inr ⟨_, rfl⟩)

theorem act_null {e : E} : act e = .null ↔ e = .null := by
  refine ⟨fun h => ?_, fun h => by rw [h]; rfl⟩
  cases e with
  | bin o l r =>
    simp only [act] at h
    rcases actBin_shape (jop o) (act l) (act r) with ⟨_, h'⟩ | ⟨_, h'⟩ | ⟨_, h'⟩ <;>
      rw [h'] at h <;> exact absurd h (by simp)
  | un p e =>
    simp only [act] at h
    unfold actUn at h
    split at h <;> exact absurd h (by simp)
  | null => rfl
  | _ => simp [act] at h

theorem act_num {e : E} : (∃ i, act e = .num i) ↔ e.isNum = true := by
  induction e with
  | un p e ih =>
    simp only [act]
    cases p with
    | neg =>
      simp only [E.isNum]
      rw [← ih]
      constructor
      · rintro ⟨i, h⟩
        unfold actUn at h
        split at h
        · exact ⟨_, by assumption⟩
        · exact absurd h (by simp)
      · rintro ⟨i, h⟩
        exact ⟨-i, by rw [h]; rfl⟩
    | _ => simp [actUn, E.isNum]
  | bin o l r =>
    simp only [act, E.isNum]
    rcases actBin_shape (jop o) (act l) (act r) with ⟨_, h'⟩ | ⟨_, h'⟩ | ⟨_, h'⟩ <;> simp [h']
  | _ => simp [act, E.isNum]

/-- The operators with a rule for NULL. -/
def nullRule : JOp → Bool
  | .eq => true | .neq => true | .eqBang => true | .neBang => true
  | _ => false

theorem actBin_plain {o : JOp} {l r : J} (h : nullRule o = true → l ≠ .null ∧ r ≠ .null) :
    actBin o l r =
      if assocOp o then .call o (spread o l ++ spread o r) else .call o [l, r] := by
  unfold actBin
  split <;> first | rfl | exact absurd rfl (h rfl).1 | exact absurd rfl (h rfl).2

theorem jfold_append (s : Sem V) (b : Bop) : ∀ (as bs : List J) (v : V),
    s.jfold b v (as ++ bs) = (s.jfold b v as).bind fun w => s.jfold b w bs
  | [], bs, v => by simp [Sem.jfold]
  | a :: as, bs, v => by
    simp only [List.cons_append, Sem.jfold]
    cases s.jeval a with
    | none => rfl
    | some w => exact jfold_append s b as bs _

theorem jfold_assoc (s : Sem V) {b : Bop} (h : s.Assoc b) : ∀ (as : List J) (v w : V),
    s.jfold b (s.bin b v w) as = (s.jfold b w as).map (s.bin b v)
  | [], v, w => by simp [Sem.jfold]
  | a :: as, v, w => by
    simp only [Sem.jfold]
    cases s.jeval a with
    | none => rfl
    | some u =>
      simp only
      rw [h]
      exact jfold_assoc s h as v _

/-- Appending the operands contributed by `r` combines with the value of `r`. -/
theorem jfold_spread (s : Sem V) {o : JOp} {b : Bop} (hb : o.infix = some b) (h : s.Assoc b)
    {r : J} {w : V} (hr : s.jeval r = some w) (v : V) :
    s.jfold b v (spread o r) = some (s.bin b v w) := by
  have one : ∀ x : J, s.jeval x = some w → s.jfold b v [x] = some (s.bin b v w) := by
    intro x hx
    simp [Sem.jfold, hx]
  cases r with
  | call o' args =>
    simp only [spread]
    split
    · rename_i he
      subst he
      cases args with
      | nil => simp [Sem.jeval] at hr
      | cons a as =>
        simp only [Sem.jfold]
        simp only [Sem.jeval, hb] at hr
        cases ha : s.jeval a with
        | none => simp [ha] at hr
        | some u =>
          simp only [ha] at hr
          simp only
          rw [jfold_assoc s h as v u, hr]
          rfl
    · exact one _ hr
  | _ => exact one _ hr

theorem jeval_spread (s : Sem V) {o : JOp} {b : Bop} (hb : o.infix = some b) {l : J} {v : V}
    (hl : s.jeval l = some v) :
    ∃ a as u, spread o l = a :: as ∧ s.jeval a = some u ∧ s.jfold b u as = some v := by
  have one : ∃ a as u, [l] = a :: as ∧ s.jeval a = some u ∧ s.jfold b u as = some v :=
    ⟨l, [], v, rfl, hl, rfl⟩
  cases l with
  | call o' args =>
    simp only [spread]
    split
    · rename_i he
      subst he
      cases args with
      | nil => simp [Sem.jeval] at hl
      | cons a as =>
        simp only [Sem.jeval, hb] at hl
        cases ha : s.jeval a with
        | none => simp [ha] at hl
        | some u =>
          simp only [ha] at hl
          exact ⟨a, as, u, rfl, ha, hl⟩
    · exact one
  | _ => exact one

/-- One operator without a rule for NULL: the tree has the operator's value, if nested
applications may be regrouped. -/
theorem jeval_actBin (s : Sem V) {o : JOp} {b : Bop} (hb : o.infix = some b)
    (ha : assocOp o = true → s.Assoc b) {l r : J} {v w : V}
    (h : nullRule o = true → l ≠ .null ∧ r ≠ .null)
    (hl : s.jeval l = some v) (hr : s.jeval r = some w) :
    s.jeval (actBin o l r) = some (s.bin b v w) := by
  rw [actBin_plain h]
  split
  · rename_i hao
    obtain ⟨a, as, u, he, hu, hf⟩ := jeval_spread s hb hl
    rw [he, List.cons_append]
    simp only [Sem.jeval, hb, hu, jfold_append, hf, Option.bind_some]
    exact jfold_spread s hb (ha hao) hr v
  · simp [Sem.jeval, Sem.jfold, hb, hl, hr]

/-- `+`, `*`, `AND` and `OR` may be regrouped. -/
def Sem.Regroups (s : Sem V) : Prop := ∀ o ∈ [Bop.add, .mul, .and, .or], s.Assoc o

/-- Expressions whose operators keep their meaning: `=` and `<>` are not applied to the
NULL literal, `IS` and `IS NOT` only to it, `<=>` only with it on one side, a minus sign
only to a number, and no operator occurs that the proxy cannot write. -/
def Kept : E → Prop
  | .bin o l r => Kept l ∧ Kept r ∧
      match o with
      | .eq | .neq => l ≠ .null ∧ r ≠ .null
      | .is | .isNot => r = .null
      | .deq => l = .null ∨ r = .null
      | .idf | .indf | .atz | .similar | .notSimilar | .lambda => False
      | _ => True
  | .un .neg e => e.isNum = true
  | .un _ e => Kept e
  | .btw _ a b c => Kept a ∧ Kept b ∧ Kept c
  | _ => True

theorem jeval_num (s : Sem V) : ∀ {e : E}, e.isNum = true → s.jeval (act e) = some (s.eval e)
  | .num i, _ => rfl
  | .un .neg e, h => by
    have h : e.isNum = true := h
    obtain ⟨i, hi⟩ := act_num.mpr h
    have := jeval_num s h
    rw [hi] at this
    simp only [Sem.jeval, Option.some.injEq] at this
    simp only [act, hi, actUn, Sem.jeval, Sem.eval, ← this, s.neg_num]

theorem jeval_regroup (s : Sem V) (hs : s.Regroups) {o : JOp} {b : Bop} (hb : o.infix = some b)
    (hn : nullRule o = false) (hm : b ∈ [Bop.add, .mul, .and, .or]) {l r : J} {v w : V}
    (hl : s.jeval l = some v) (hr : s.jeval r = some w) :
    s.jeval (actBin o l r) = some (s.bin b v w) :=
  jeval_actBin s hb (fun _ => hs b hm) (by simp [hn]) hl hr

theorem jeval_other (s : Sem V) {o : JOp} {b : Bop} (hb : o.infix = some b)
    (hn : nullRule o = false) (hm : assocOp o = false) {l r : J} {v w : V}
    (hl : s.jeval l = some v) (hr : s.jeval r = some w) :
    s.jeval (actBin o l r) = some (s.bin b v w) :=
  jeval_actBin s hb (by simp [hm]) (by simp [hn]) hl hr

/-- C61: the value of such an expression is unchanged. -/
theorem C61_kept_partial (s : Sem V) (hs : s.Regroups) : ∀ (e : E), Kept e →
    s.jeval (act e) = some (s.eval e)
  | .null, _ => rfl
  | .bool _, _ => rfl
  | .num _, _ => rfl
  | .name _, _ => rfl
  | .un p e, h => by
    cases p with
    | neg => exact jeval_num s (e := .un .neg e) h
    | _ =>
      have h : Kept e := h
      simp [act, actUn, Sem.jeval, Sem.eval, C61_kept_partial s hs e h]
  | .btw n a b c, h => by
    simp [act, Sem.jeval, Sem.eval, C61_kept_partial s hs a h.1, C61_kept_partial s hs b h.2.1,
      C61_kept_partial s hs c h.2.2]
  | .bin o l r, h => by
    obtain ⟨h1, h2, h3⟩ := h
    have il := C61_kept_partial s hs l h1
    have ir := C61_kept_partial s hs r h2
    simp only [act, Sem.eval]
    cases o with
    | eq =>
      apply jeval_actBin s (by rfl) (by simp [jop, assocOp]) _ il ir
      exact fun _ => ⟨fun h => h3.1 (act_null.mp h), fun h => h3.2 (act_null.mp h)⟩
    | neq =>
      apply jeval_actBin s (by rfl) (by simp [jop, assocOp]) _ il ir
      exact fun _ => ⟨fun h => h3.1 (act_null.mp h), fun h => h3.2 (act_null.mp h)⟩
    | is =>
      have h3 : r = .null := h3
      subst h3
      simp [act, jop, actBin, Sem.jeval, il, Sem.eval, s.is_null]
    | isNot =>
      have h3 : r = .null := h3
      subst h3
      simp [act, jop, actBin, Sem.jeval, il, Sem.eval, s.isNot_null]
    | deq =>
      have h3 : l = .null ∨ r = .null := h3
      rcases Decidable.em (r = .null) with rfl | hr
      · simp [act, jop, actBin, Sem.jeval, il, Sem.eval, s.deq_null]
      · have hl := h3.resolve_right hr
        subst hl
        have hr' : act r ≠ .null := fun h => hr (act_null.mp h)
        have : actBin (jop .deq) (act .null) (act r) = .missing (act r) := by
          simp only [act, jop]
          unfold actBin
          split <;> simp_all
        rw [this]
        simp [Sem.jeval, ir, Sem.eval, s.deq_null]
    | idf => exact h3.elim
    | indf => exact h3.elim
    | atz => exact h3.elim
    | similar => exact h3.elim
    | notSimilar => exact h3.elim
    | lambda => exact h3.elim
    | add => exact jeval_regroup s hs (by rfl) (by rfl) (by simp) il ir
    | mul => exact jeval_regroup s hs (by rfl) (by rfl) (by simp) il ir
    | and => exact jeval_regroup s hs (by rfl) (by rfl) (by simp) il ir
    | or => exact jeval_regroup s hs (by rfl) (by rfl) (by simp) il ir
    | _ => exact jeval_other s (by rfl) (by rfl) (by rfl) il ir

/-! ### A concrete meaning -/

/-- `AND` and `OR` of MySQL: anything but 0 and NULL is true. -/
def and3 (a b : Option Int) : Option Int :=
  if a = some 0 ∨ b = some 0 then some 0 else if a = none ∨ b = none then none else some 1
def or3 (a b : Option Int) : Option Int :=
  if (a ≠ none ∧ a ≠ some 0) ∨ (b ≠ none ∧ b ≠ some 0) then some 1
  else if a = none ∨ b = none then none else some 0

/-- An operator that is NULL if an operand is. -/
def strict (f : Int → Int → Int) : Option Int → Option Int → Option Int
  | some a, some b => some (f a b)
  | _, _ => none

def truth (b : Bool) : Int := if b then 1 else 0

/-- `v IS w` for the right sides the grammar of MySQL allows: NULL, TRUE (1) and FALSE (0). -/
def isOp (v w : Option Int) : Bool :=
  match w with
  | none => v == none
  | some 0 => v == some 0
  | some _ => v != none && v != some 0

/-- MySQL's operators on integers and NULL; those that do not matter here are 0. -/
def ints (env : String → Option Int) : Sem (Option Int) where
  null := none
  bool b := some (truth b)
  num := some
  name := env
  bin
    | .and => and3
    | .or => or3
    | .add => strict (· + ·)
    | .sub => strict (· - ·)
    | .mul => strict (· * ·)
    | .eq => strict fun a b => truth (a == b)
    | .neq => strict fun a b => truth (a != b)
    | .lt => strict fun a b => truth (a < b)
    | .lte => strict fun a b => truth (a ≤ b)
    | .gt => strict fun a b => truth (a > b)
    | .gte => strict fun a b => truth (a ≥ b)
    | .is => fun v w => some (truth (isOp v w))
    | .isNot => fun v w => some (truth (!isOp v w))
    | .deq => fun v w => some (truth (v == w))
    | .idf => fun v w => some (truth (v != w))
    | .indf => fun v w => some (truth (v == w))
    | _ => fun _ _ => some 0
  un
    | .neg => Option.map (- ·)
    | .knot => Option.map fun v => truth (v == 0)
    | .bnot => fun v => v
  btw n a b c :=
    match a, b, c with
    | some x, some y, some z => some (truth (n != (decide (y ≤ x) && decide (x ≤ z))))
    | _, _, _ => none
  isNull v := some (truth (v == none))
  notNull v := some (truth (v != none))
  is_null v := by simp [isOp]
  isNot_null v := by simp [isOp, bne]
  isNull_ne v := by simp
  notNull_ne v := by simp
  deq_null v := by cases v <;> simp
  eq_null v := by cases v <;> simp [strict]
  neq_null v := by cases v <;> simp [strict]
  neg_num i := by simp

theorem zeroCases (v : Option Int) : v = none ∨ v = some 0 ∨ ∃ i, v = some i ∧ i ≠ 0 := by
  rcases v with _ | i
  · simp
  · by_cases h : i = 0 <;> simp [h]

theorem ints_regroups (env : String → Option Int) : (ints env).Regroups := by
  intro o ho
  simp only [List.mem_cons, List.not_mem_nil, or_false] at ho
  rcases ho with rfl | rfl | rfl | rfl <;> intro a b c
  · cases a <;> cases b <;> cases c <;> simp [ints, strict, Int.add_assoc]
  · cases a <;> cases b <;> cases c <;> simp [ints, strict, Int.mul_assoc]
  · simp only [ints, and3]
    rcases zeroCases a with rfl | rfl | ⟨a, rfl, ha⟩ <;> rcases zeroCases b with rfl | rfl | ⟨b, rfl, hb⟩ <;>
      rcases zeroCases c with rfl | rfl | ⟨c, rfl, hc⟩ <;> simp [*]
  · simp only [ints, or3]
    rcases zeroCases a with rfl | rfl | ⟨a, rfl, ha⟩ <;> rcases zeroCases b with rfl | rfl | ⟨b, rfl, hb⟩ <;>
      rcases zeroCases c with rfl | rfl | ⟨c, rfl, hc⟩ <;> simp [*]

/-- `a + (b + 3) = -5 AND (c IS NOT NULL OR d <=> NULL)` is such an expression. -/
example : Kept (.bin .and
    (.bin .eq (.bin .add (.name "a") (.bin .add (.name "b") (.num 3))) (.un .neg (.num 5)))
    (.bin .or (.bin .isNot (.name "c") .null) (.bin .deq (.name "d") .null))) := by
  simp [Kept, E.isNum]

/-! ### Where the meaning changes -/

/-- C61 fails: `e = NULL`, which is never true, becomes `e IS NULL`; for every
expression and every row the value is another one. -/
theorem C61_fails_eq_null (s : Sem V) (e : E) :
    s.eval (.bin .eq e .null) = s.null ∧
      s.jeval (act (.bin .eq e .null)) = (s.jeval (act e)).map s.isNull ∧
      ∀ v, s.jeval (act (.bin .eq e .null)) = some v → v ≠ s.eval (.bin .eq e .null) := by
  have h1 : s.eval (.bin .eq e .null) = s.null := by simp [Sem.eval, s.eq_null]
  have h2 : s.jeval (act (.bin .eq e .null)) = (s.jeval (act e)).map s.isNull := by
    simp [act, jop, actBin, Sem.jeval]
  refine ⟨h1, h2, fun v hv => ?_⟩
  rw [h2] at hv
  cases hj : s.jeval (act e) with
  | none => simp [hj] at hv
  | some w =>
    simp only [hj, Option.map_some, Option.some.injEq] at hv
    rw [h1, ← hv]
    exact s.isNull_ne w

/-- C61 fails: the same for `e <> NULL`, which becomes `e IS NOT NULL`. -/
theorem C61_fails_neq_null (s : Sem V) (e : E) :
    s.eval (.bin .neq e .null) = s.null ∧
      s.jeval (act (.bin .neq e .null)) = (s.jeval (act e)).map s.notNull ∧
      ∀ v, s.jeval (act (.bin .neq e .null)) = some v → v ≠ s.eval (.bin .neq e .null) := by
  have h1 : s.eval (.bin .neq e .null) = s.null := by simp [Sem.eval, s.neq_null]
  have h2 : s.jeval (act (.bin .neq e .null)) = (s.jeval (act e)).map s.notNull := by
    simp [act, jop, actBin, Sem.jeval]
  refine ⟨h1, h2, fun v hv => ?_⟩
  rw [h2] at hv
  cases hj : s.jeval (act e) with
  | none => simp [hj] at hv
  | some w =>
    simp only [hj, Option.map_some, Option.some.injEq] at hv
    rw [h1, ← hv]
    exact s.notNull_ne w

/-- C61 fails: `IS` and `IS NOT` with anything but NULL become `=` and `<>`. -/
theorem C61_fails_is (e r : E) (he : e ≠ .null) (hr : r ≠ .null) :
    act (.bin .is e r) = act (.bin .eq e r) ∧ act (.bin .isNot e r) = act (.bin .neq e r) ∧
    act (.bin .is e r) = .call .eq [act e, act r] ∧
    act (.bin .isNot e r) = .call .neq [act e, act r] := by
  have h : ∀ o, nullRule o = true → act e ≠ .null ∧ act r ≠ .null := fun _ _ =>
    ⟨fun h => he (act_null.mp h), fun h => hr (act_null.mp h)⟩
  refine ⟨rfl, rfl, ?_, ?_⟩
  · simp [act, jop, actBin_plain (h .eq), assocOp]
  · simp [act, jop, actBin_plain (h .neq), assocOp]

/-- So `x IS TRUE` is no longer true of 2, and `x IS NOT TRUE` no longer of NULL. -/
theorem C61_fails_is_true (x : String) (env : String → Option Int) :
    (env x = some 2 → (ints env).eval (.bin .is (.name x) (.bool true)) = some 1 ∧
      (ints env).jeval (act (.bin .is (.name x) (.bool true))) = some (some 0)) ∧
    (env x = none → (ints env).eval (.bin .isNot (.name x) (.bool true)) = some 1 ∧
      (ints env).jeval (act (.bin .isNot (.name x) (.bool true))) = some none) := by
  constructor <;> intro h
  · simp [Sem.eval, Sem.jeval, Sem.jfold, act, jop, actBin, assocOp, ints, h, isOp, truth, strict,
      JOp.infix]
  · simp [Sem.eval, Sem.jeval, Sem.jfold, act, jop, actBin, assocOp, ints, h, isOp, truth, strict,
      JOp.infix]

/-- C61 fails: `a <=> b`, MySQL's null-safe comparison, has no written form. -/
theorem C61_fails_null_safe (s : Sem V) (a b : E) (ha : a ≠ .null) (hb : b ≠ .null) :
    act (.bin .deq a b) = .call .eqBang [act a, act b] ∧ s.jeval (act (.bin .deq a b)) = none := by
  have h : nullRule .eqBang = true → act a ≠ .null ∧ act b ≠ .null := fun _ =>
    ⟨fun h => ha (act_null.mp h), fun h => hb (act_null.mp h)⟩
  have : act (.bin .deq a b) = .call .eqBang [act a, act b] := by
    simp [act, jop, actBin_plain h, assocOp]
  exact ⟨this, by rw [this]; simp [Sem.jeval, JOp.infix]⟩

/-- C61 fails: `IS DISTINCT FROM` is read as its opposite, `<=>`; so `a IS DISTINCT FROM
NULL` becomes `a IS NULL`, and `a IS NOT DISTINCT FROM NULL` becomes `a IS NOT NULL`. -/
theorem C61_fails_distinct (a b : E) :
    act (.bin .idf a b) = act (.bin .deq a b) ∧
    act (.bin .idf a .null) = act (.bin .is a .null) ∧
    act (.bin .indf a .null) = act (.bin .isNot a .null) := by
  refine ⟨rfl, ?_, ?_⟩ <;> simp [act, jop, actBin]

/-- C61 fails: nested sums are regrouped from the left whatever the parentheses, which
changes the value wherever addition is not associative (floating point numbers). -/
theorem C61_fails_regroup (s : Sem V) (a b c : String) :
    s.eval (.bin .add (.name a) (.bin .add (.name b) (.name c))) =
      s.bin .add (s.name a) (s.bin .add (s.name b) (s.name c)) ∧
    s.jeval (act (.bin .add (.name a) (.bin .add (.name b) (.name c)))) =
      some (s.bin .add (s.bin .add (s.name a) (s.name b)) (s.name c)) := by
  constructor
  · simp [Sem.eval]
  · simp [Sem.jeval, Sem.jfold, act, jop, actBin, assocOp, spread, JOp.infix]

end EulerDB.Parse
