import Verif.SetOps.Model

/-!
# What the parse result of set operations means (C94)
-/

namespace EulerDB.SetOps

variable {β : Type} (A : Alg β)

/-! ## The loop of `to_union_call` -/

/-- After a step the accumulated tree is the operation just read. -/
def Inv (acc : Q) (last : Option Op) : Prop := ∀ op, last = some op → ∃ q qs, acc = .node none op q qs

theorem Qs.mean_snoc (e : List W) (op : Op) (x : Q) : (qs : Qs) → (a : β) → (qs.snoc x).mean A e op a = A.bin op (qs.mean A e op a) (x.mean A e)
  | .nil, _ => rfl
  | .cons q qs, a => Qs.mean_snoc e op x qs (A.bin op a (q.mean A e))

theorem step_inv {acc : Q} {last : Option Op} (h : Inv acc last) (op : Op) (so : Q) : Inv (step acc last op so) (some op) := by
  intro op' h'
  cases h'
  unfold step
  split
  · next c =>
    obtain ⟨q, qs, rfl⟩ := h _ c.1
    exact ⟨q, qs.snoc so, rfl⟩
  · exact ⟨acc, _, rfl⟩

theorem step_mean {acc : Q} {last : Option Op} (h : Inv acc last) (op : Op) (so : Q) (e : List W) :
    (step acc last op so).mean A e = A.bin op (acc.mean A e) (so.mean A e) := by
  unfold step
  split
  · next c =>
    obtain ⟨q, qs, rfl⟩ := h _ c.1
    exact Qs.mean_snoc A e op so qs _
  · rfl

def meanAll (e : List W) (l : List (Op × Q)) : List (Op × β) := l.map fun x => (x.1, x.2.mean A e)

theorem loop_mean (e : List W) : (r : List (Op × Q)) → {acc : Q} → {last : Option Op} → Inv acc last →
    (loop acc last r).mean A e = left A (acc.mean A e) (meanAll A e r)
  | [], _, _, _ => rfl
  | (op, so) :: r, acc, last, h => by
    have := loop_mean e r (step_inv h op so)
    rw [step_mean A h] at this
    exact this

theorem loop_with : (r : List (Op × Q)) → {acc : Q} → {op : Op} → Inv acc (some op) → (loop acc (some op) r).with? = none
  | [], acc, op, h => by
    obtain ⟨q, qs, rfl⟩ := h op rfl
    rfl
  | (op', so) :: r, acc, op, h => loop_with r (step_inv h op' so)

/-- **C94 (what the loop builds).** Whatever the operations, the tree built for `a op₁ b op₂ c …` means the operations
applied from left to right; queries joined by the same UNION are kept in one list, which means the same. -/
theorem C94_loop (first : Q) (r : List (Op × Q)) (e : List W) : (loop first none r).mean A e = left A (first.mean A e) (meanAll A e r) :=
  loop_mean A e r fun _ h => nomatch h

/-! ## When INTERSECT binding tighter makes no difference -/

def noInter (l : List Op) : Bool := l.all fun op => op.kind != .intersect

/-- No INTERSECT after a UNION, EXCEPT or MINUS. -/
def calm : List Op → Bool
  | [] => true
  | op :: r => if op.kind = .intersect then calm r else noInter r

theorem absorb_noInter (b : β) : (r : List (Op × β)) → noInter (r.map (·.1)) = true → absorb A b r = (b, r)
  | [], _ => rfl
  | (op, c) :: r, h => by
    have : op.kind ≠ .intersect := by
      have h' : (op.kind != .intersect) = true := by
        have := h
        simp only [noInter, List.map_cons, List.all_cons, Bool.and_eq_true] at this
        exact this.1
      exact bne_iff_ne.1 h'
    unfold absorb
    rw [if_neg this]

theorem chain_cons (a : β) (op : Op) (b : β) (r : List (Op × β)) :
    chain A a ((op, b) :: r) = if op.kind = .intersect then chain A (A.bin op a b) r else chain A (A.bin op a (absorb A b r).1) (absorb A b r).2 := by
  rw [chain]

theorem noInter_calm : (l : List Op) → noInter l = true → calm l = true
  | [], _ => rfl
  | op :: r, h => by
    have h' : (op.kind != .intersect) = true ∧ noInter r = true := by
      simp only [noInter, List.all_cons, Bool.and_eq_true] at h
      exact h
    unfold calm
    rw [if_neg (bne_iff_ne.1 h'.1)]
    exact h'.2

theorem chain_left : (r : List (Op × β)) → (a : β) → calm (r.map (·.1)) = true → chain A a r = left A a r
  | [], a, _ => by rw [chain]; rfl
  | (op, b) :: r, a, h => by
    rw [chain_cons]
    have h' : (if op.kind = .intersect then calm (r.map (·.1)) else noInter (r.map (·.1))) = true := h
    split
    · next c =>
      rw [if_pos c] at h'
      exact chain_left r _ h'
    · next c =>
      rw [if_neg c] at h'
      rw [absorb_noInter A b r h']
      exact chain_left r _ (noInter_calm _ h')

/-! ## Queries that are read right -/

def Rest.ops : Rest → List Op
  | .nil => []
  | .cons op _ r => op :: r.ops

/-- Nothing but `OFFSET 0`. -/
def Tail.trivial (t : Tail) : Bool := t.ignored && t.limit.isNone && t.fetch.isNone

/-- What the tail of a query may be. Behind a query in parentheses without further operations: nothing, and
that query has no WITH. Behind set operations: if there is a FETCH or a `LIMIT 0`, also an ORDER BY or another
LIMIT or OFFSET than 0. -/
def tailOk : Src → Rest → Tail → Bool
  | .sel _, .nil, _ => true
  | .paren w _ _ _, .nil, t => t.trivial && w.isNone
  | _, .cons .., t => !t.ignored || (t.limit.isNone && t.fetch.isNone)

mutual
def Src.good : Src → Bool
  | .sel _ => true
  | .paren _ o r t => o.good && r.good && calm r.ops && tailOk o r t
def Rest.good : Rest → Bool
  | .nil => true
  | .cons _ o r => o.good && r.good
end

def Query.good (q : Query) : Bool := q.o.good && q.r.good && calm q.r.ops && tailOk q.o q.r q.t

theorem Rest.mean_ops (e : List W) : (r : Rest) → (r.mean A e).map (·.1) = r.ops
  | .nil => rfl
  | .cons op _ r => congrArg (op :: ·) (Rest.mean_ops e r)

theorem setWith_mean (w : Option W) (e : List W) : (q : Q) → q.with? = none → (q.setWith w).mean A e = q.mean A (scope w e)
  | .sel _ _ _, h => by cases h; rfl
  | .node _ _ _ _, h => by cases h; rfl
  | .wrap _ _ _, h => by cases h; rfl

theorem setWith_with (w : Option W) : (q : Q) → (q.setWith w).with? = w
  | .sel _ _ _ => rfl
  | .node _ _ _ _ => rfl
  | .wrap _ _ _ => rfl

theorem opt_falsy (h0 : ∀ b, A.offset 0 b = b) : (o : Option Nat) → falsy o = true → (b : β) → opt A.offset o b = b
  | none, _, _ => rfl
  | some n, h, b => by
    have : n = 0 := by simpa [falsy] using h
    subst this
    exact h0 b

theorem trivial_apply (h0 : ∀ b, A.offset 0 b = b) {t : Tail} (h : t.trivial = true) (b : β) : t.apply A b = b := by
  obtain ⟨o, l, f, x⟩ := t
  simp only [Tail.trivial, Tail.ignored, Bool.and_eq_true, Option.isNone_iff_eq_none] at h
  obtain ⟨⟨⟨⟨rfl, hf⟩, -⟩, rfl⟩, rfl⟩ := h
  exact opt_falsy A h0 f hf b

/-- `to_union_call` under `to_query`, when its operands are read right. -/
theorem union_mean (h0 : ∀ b, A.offset 0 b = b) (w : Option W) (o : Src) (r : Rest) (t : Tail)
    (ho : ∀ e, (operand o).mean A e = o.mean A e) (hr : ∀ e, meanAll A e (operands r) = r.mean A e)
    (hc : calm r.ops = true) (ht : tailOk o r t = true) (e : List W) :
    ((unionCall o.one (operand o) (operands r) t).setWith w).mean A e = t.apply A (chain A (o.mean A (scope w e)) (r.mean A (scope w e))) := by
  have hch : ∀ e, chain A (o.mean A e) (r.mean A e) = left A (o.mean A e) (r.mean A e) := fun e =>
    chain_left A _ _ (by rw [Rest.mean_ops]; exact hc)
  cases r with
  | nil =>
    cases o with
    | sel i =>
      rw [hch]
      rfl
    | paren w' o' r' t' =>
      have ht' : (t.trivial && w'.isNone) = true := ht
      rw [Bool.and_eq_true, Option.isNone_iff_eq_none] at ht'
      obtain ⟨ht', rfl⟩ := ht'
      rw [hch, trivial_apply A h0 ht']
      have hw : (operand (.paren none o' r' t')).with? = none := setWith_with none _
      exact (setWith_mean A w e _ hw).trans (ho _)
  | cons op s r =>
    have hl : ∀ e, (loop (operand o) none (operands (.cons op s r))).mean A e = left A (o.mean A e) ((Rest.cons op s r).mean A e) := by
      intro e
      rw [C94_loop A, ho, hr]
    have hw : (loop (operand o) none (operands (.cons op s r))).with? = none :=
      loop_with (operands r) (step_inv (last := none) (fun _ h => by cases h) op (operand s))
    have hu : unionCall o.one (operand o) (operands (.cons op s r)) t =
        if t.ignored then loop (operand o) none (operands (.cons op s r)) else .wrap none (loop (operand o) none (operands (.cons op s r))) t := rfl
    have ht' : (!t.ignored || (t.limit.isNone && t.fetch.isNone)) = true := by
      cases o <;> exact ht
    rw [hu, hch]
    split
    · next hi =>
      rw [setWith_mean A w e _ hw, hl, trivial_apply A h0]
      rw [hi] at ht'
      simp only [Bool.not_true, Bool.false_or, Bool.and_eq_true] at ht'
      simp only [Tail.trivial, Bool.and_eq_true]
      exact ⟨⟨hi, ht'.1⟩, ht'.2⟩
    · show t.apply A ((loop (operand o) none (operands (.cons op s r))).mean A (scope w e)) = _
      rw [hl]

mutual
theorem operand_mean (h0 : ∀ b, A.offset 0 b = b) : (s : Src) → s.good = true → (e : List W) → (operand s).mean A e = s.mean A e
  | .sel _, _, _ => rfl
  | .paren w o r t, h, e => by
    have h' : (o.good && r.good && calm r.ops && tailOk o r t) = true := h
    simp only [Bool.and_eq_true] at h'
    exact union_mean A h0 w o r t (operand_mean h0 o h'.1.1.1) (operands_mean h0 r h'.1.1.2) h'.1.2 h'.2 e
theorem operands_mean (h0 : ∀ b, A.offset 0 b = b) : (r : Rest) → r.good = true → (e : List W) → meanAll A e (operands r) = r.mean A e
  | .nil, _, _ => rfl
  | .cons op s r, h, e => by
    have h' : (s.good && r.good) = true := h
    rw [Bool.and_eq_true] at h'
    show (op, (operand s).mean A e) :: meanAll A e (operands r) = (op, s.mean A e) :: r.mean A e
    rw [operand_mean h0 s h'.1 e, operands_mean h0 r h'.2 e]
end

/-- **C94 (partial: queries that are read right).** In any meaning of queries where OFFSET 0 changes nothing: if, in
the query and in every query in parentheses within it, no INTERSECT follows a UNION, EXCEPT or MINUS, nothing but set
operations follows a query in parentheses (and one alone has no WITH), and a FETCH or `LIMIT 0` behind set
operations comes with an ORDER BY or with another LIMIT or OFFSET, then the parse result means what the text means. -/
theorem C94_parse_partial (h0 : ∀ b, A.offset 0 b = b) (q : Query) (h : q.good = true) (e : List W) : q.parse.mean A e = q.mean A e := by
  have h' : (q.o.good && q.r.good && calm q.r.ops && tailOk q.o q.r q.t) = true := h
  simp only [Bool.and_eq_true] at h'
  exact union_mean A h0 q.w q.o q.r q.t (operand_mean A h0 q.o h'.1.1.1) (operands_mean A h0 q.r h'.1.1.2) h'.1.2 h'.2 e

/-- `(select 0 order by … limit 3) union all (with … select 1 intersect select 2) except select 3 order by … limit 2` -/
example : Query.good ⟨none, .paren none (.sel 0) .nil { order := some 0, limit := some 3 },
    .cons ⟨.union, .all⟩ (.paren (some ⟨7, false⟩) (.sel 1) (.cons ⟨.intersect, .plain⟩ (.sel 2) .nil) {}) (.cons ⟨.except, .plain⟩ (.sel 3) .nil),
    { order := some 0, limit := some 2 }⟩ = true := by decide

end EulerDB.SetOps
