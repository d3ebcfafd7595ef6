import Verif.SetOps.Props

/-!
# What the formatter writes for set operations (C94)
-/

namespace EulerDB.SetOps

variable {β : Type} (A : Alg β)

/-! ## A text is that of one query -/

/-- A token that begins no further operation and no clause of a tail: the end of a query in its surroundings. -/
def stops : List Tok → Bool
  | [] => true
  | .rp :: _ => true
  | _ => false

def noOp : List Tok → Bool
  | .op _ :: _ => false
  | _ => true

theorem Tail.toks_noOp (t : Tail) {x : List Tok} (h : stops x = true) : noOp (t.toks ++ x) = true := by
  obtain ⟨o, l, f, n⟩ := t
  cases o <;> cases l <;> cases f <;> cases n <;> try rfl
  cases x with
  | nil => rfl
  | cons a x => cases a <;> first | rfl | cases h

theorem Tail.toks_inj {t t' : Tail} {x x' : List Tok} (h : stops x = true) (h' : stops x' = true) (e : t.toks ++ x = t'.toks ++ x') : t = t' ∧ x = x' := by
  obtain ⟨o, l, f, n⟩ := t
  obtain ⟨o', l', f', n'⟩ := t'
  have hs : ∀ {y : List Tok}, stops y = true → y = [] ∨ ∃ z, y = .rp :: z := by
    intro y hy
    cases y with
    | nil => exact .inl rfl
    | cons a y => cases a <;> first | exact .inr ⟨_, rfl⟩ | cases hy
  rcases hs h with rfl | ⟨z, rfl⟩ <;> rcases hs h' with rfl | ⟨z', rfl⟩ <;>
    cases o <;> cases l <;> cases f <;> cases n <;> cases o' <;> cases l' <;> cases f' <;> cases n' <;>
    simp_all [Tail.toks, word]

mutual
theorem Src.toks_inj : (s s' : Src) → {x x' : List Tok} → s.toks ++ x = s'.toks ++ x' → s = s' ∧ x = x'
  | .sel i, .sel j, x, x', e => by
    have e' : Tok.sel i :: x = Tok.sel j :: x' := e
    injection e' with a b
    injection a with a
    exact ⟨congrArg _ a, b⟩
  | .sel i, .paren w o r t, x, x', e => by
    have e' : Tok.sel i :: x = Tok.lp :: (withToks w ++ (o.toks ++ (r.toks ++ t.toks)) ++ [.rp] ++ x') := e
    injection e' with a
    cases a
  | .paren w o r t, .sel i, x, x', e => by
    have e' : Tok.lp :: (withToks w ++ (o.toks ++ (r.toks ++ t.toks)) ++ [.rp] ++ x) = Tok.sel i :: x' := e
    injection e' with a
    cases a
  | .paren w o r t, .paren w' o' r' t', x, x', e => by
    have e' : Tok.lp :: (withToks w ++ (o.toks ++ (r.toks ++ t.toks)) ++ [.rp] ++ x) =
        Tok.lp :: (withToks w' ++ (o'.toks ++ (r'.toks ++ t'.toks)) ++ [.rp] ++ x') := e
    injection e' with _ e'
    simp only [List.append_assoc] at e'
    have hw : w = w' ∧ o.toks ++ (r.toks ++ (t.toks ++ ([.rp] ++ x))) = o'.toks ++ (r'.toks ++ (t'.toks ++ ([.rp] ++ x'))) := by
      have ho : ∀ (s : Src) (y : List Tok), (∃ i z, s.toks ++ y = .sel i :: z) ∨ ∃ z, s.toks ++ y = .lp :: z := by
        intro s y
        cases s with
        | sel i => exact .inl ⟨i, y, rfl⟩
        | paren w o r t => exact .inr ⟨_, rfl⟩
      generalize hy : r.toks ++ (t.toks ++ ([.rp] ++ x)) = y at e' ⊢
      generalize hy' : r'.toks ++ (t'.toks ++ ([.rp] ++ x')) = y' at e' ⊢
      match w, w' with
      | none, none => exact ⟨rfl, e'⟩
      | some ⟨n, false⟩, some ⟨n', false⟩ =>
        simp only [withToks, List.cons_append, List.nil_append, List.cons.injEq, Tok.with.injEq] at e'
        exact ⟨by rw [e'.1], e'.2⟩
      | some ⟨n, true⟩, some ⟨n', true⟩ =>
        simp only [withToks, List.cons_append, List.nil_append, List.cons.injEq, Tok.withRecursive.injEq] at e'
        exact ⟨by rw [e'.1], e'.2⟩
      | some ⟨n, false⟩, some ⟨n', true⟩ => simp [withToks] at e'
      | some ⟨n, true⟩, some ⟨n', false⟩ => simp [withToks] at e'
      | none, some ⟨n', b⟩ =>
        rcases ho o y with ⟨i, z, h⟩ | ⟨z, h⟩ <;> cases b <;> simp [withToks, h] at e'
      | some ⟨n, b⟩, none =>
        rcases ho o' y' with ⟨i, z, h⟩ | ⟨z, h⟩ <;> cases b <;> simp [withToks, h] at e'
    obtain ⟨rfl, e1⟩ := hw
    obtain ⟨rfl, e2⟩ := Src.toks_inj o o' e1
    obtain ⟨rfl, e3⟩ := Rest.toks_inj r r' (Tail.toks_noOp t rfl) (Tail.toks_noOp t' rfl) e2
    obtain ⟨rfl, e4⟩ := Tail.toks_inj rfl rfl e3
    have e5 : x = x' := by simpa using e4
    exact ⟨rfl, e5⟩
theorem Rest.toks_inj : (r r' : Rest) → {x x' : List Tok} → noOp x = true → noOp x' = true → r.toks ++ x = r'.toks ++ x' → r = r' ∧ x = x'
  | .nil, .nil, _, _, _, _, e => ⟨rfl, e⟩
  | .nil, .cons op o r, x, x', h, _, e => by
    have e' : x = Tok.op op :: (o.toks ++ r.toks ++ x') := e
    rw [e'] at h
    cases h
  | .cons op o r, .nil, x, x', _, h, e => by
    have e' : Tok.op op :: (o.toks ++ r.toks ++ x) = x' := e
    rw [← e'] at h
    cases h
  | .cons op o r, .cons op' o' r', x, x', h, h', e => by
    have e' : Tok.op op :: (o.toks ++ r.toks ++ x) = Tok.op op' :: (o'.toks ++ r'.toks ++ x') := e
    injection e' with a e'
    injection a with a
    rw [List.append_assoc, List.append_assoc] at e'
    obtain ⟨rfl, e1⟩ := Src.toks_inj o o' e'
    obtain ⟨rfl, e2⟩ := Rest.toks_inj r r' h h' e1
    subst a
    exact ⟨rfl, e2⟩
end

/-- **C94 (texts).** A text is the text of one query only, so a text written by the formatter that is the text of a
query means what that query means and nothing else. -/
theorem C94_text (q q' : Query) (h : q.toks = q'.toks) : q = q' := by
  obtain ⟨w, o, r, t⟩ := q
  obtain ⟨w', o', r', t'⟩ := q'
  have : (Src.paren w o r t).toks ++ [] = (Src.paren w' o' r' t').toks ++ [] := by
    show [Tok.lp] ++ (Query.mk w o r t).toks ++ [.rp] ++ [] = [Tok.lp] ++ (Query.mk w' o' r' t').toks ++ [.rp] ++ []
    rw [h]
  have := (Src.toks_inj _ _ this).1
  injection this with a b c d
  subst a b c d
  rfl

/-! ## The query that is written -/

mutual
/-- The operand a parse result is written as, and the first operand and the rest of a chain. -/
def asOperand : Q → Src
  | .sel w i t => if t.keyed then .paren w (.sel i) .nil t else .sel i
  | .node w _ q _ => .paren w (asFirst q) .nil {}
  | .wrap w q t => .paren w (asFirst q) (asRest q .nil) t
def asFirst : Q → Src
  | .sel w i t => if t.keyed then .paren w (.sel i) .nil t else .sel i
  | .node _ _ q _ => asFirst q
  | .wrap w q t => .paren w (asFirst q) (asRest q .nil) t
def asRest : Q → Rest → Rest
  | .sel .., acc => acc
  | .node _ op q qs, acc => asRest q (restOf op qs acc)
  | .wrap .., acc => acc
def restOf (op : Op) : Qs → Rest → Rest
  | .nil, acc => acc
  | .cons q qs, acc => .cons op (asOperand q) (restOf op qs acc)
end

def asQuery : Q → Query
  | .sel w i t => ⟨w, .sel i, .nil, t⟩
  | .node w op q qs => ⟨w, asFirst (.node w op q qs), asRest (.node w op q qs) .nil, {}⟩
  | .wrap w q t => ⟨w, asFirst q, asRest q .nil, t⟩

def oneTime : Option W → Bool
  | some ⟨_, true⟩ => false
  | _ => true

def selOk (w : Option W) (t : Tail) : Bool := t.fetch.isNone && if t.keyed then oneTime w else w.isNone

def Q.isNode : Q → Bool
  | .node .. => true
  | _ => false

mutual
/-- Parse results that are written right. No FETCH, no WITH RECURSIVE, WITH only before a SELECT (and before one that
is an operand only if it has a tail), operations the formatter knows, and no set operation as a second or later
operand (unless it has a tail). -/
def Q.ok : Q → Bool
  | .sel w _ t => t.fetch.isNone && oneTime w
  | .node w op q qs => w.isNone && op.known && q.okFirst && qs.ok
  | .wrap w q t => w.isNone && t.keyed && t.fetch.isNone && q.isNode && q.ok
def Q.okFirst : Q → Bool
  | .sel w _ t => selOk w t
  | .node w op q qs => w.isNone && op.known && q.okFirst && qs.ok
  | .wrap w q t => w.isNone && t.keyed && t.fetch.isNone && q.isNode && q.ok
def Q.okArg : Q → Bool
  | .sel w _ t => selOk w t
  | .node .. => false
  | .wrap w q t => w.isNone && t.keyed && t.fetch.isNone && q.isNode && q.ok
def Qs.ok : Qs → Bool
  | .nil => true
  | .cons q qs => q.okArg && qs.ok
end

theorem Tail.write_ok {t : Tail} (h : t.fetch.isNone = true) : t.write = .ok t.toks := by
  obtain ⟨o, l, f, n⟩ := t
  cases n with
  | none => show Except.ok (word .order o ++ word .limit l ++ word .offset f) = Except.ok (word .order o ++ word .limit l ++ word .offset f ++ []); rw [List.append_nil]
  | some n => cases h

theorem withWord_ok {w : Option W} (h : oneTime w = true) : withWord w = withToks w := by
  match w with
  | none => rfl
  | some ⟨n, false⟩ => rfl
  | some ⟨n, true⟩ => cases h

theorem keyed_false {t : Tail} (h : ¬ t.keyed = true) : t = {} := by
  obtain ⟨o, l, f, n⟩ := t
  cases o <;> cases l <;> cases f <;> cases n <;> first | rfl | exact absurd rfl h

theorem sel_write {w : Option W} {i : Nat} {t : Tail} (h : selOk w t = true) {p : Nat} (hp : 120 ≤ p) (hp' : p < 200) :
    (Q.sel w i t).write p = .ok ((asOperand (.sel w i t)).toks) := by
  have h' : (t.fetch.isNone && if t.keyed then oneTime w else w.isNone) = true := h
  rw [Bool.and_eq_true] at h'
  by_cases k : t.keyed = true
  · rw [k] at h'
    have e : asOperand (.sel w i t) = .paren w (.sel i) .nil t := by
      show (if t.keyed then _ else _) = _
      rw [if_pos k]
    have e' : (Q.sel w i t).write p = (if t.keyed then t.write.bind fun tl => Except.ok (enclose (decide (p < 200)) (withWord w ++ [.sel i] ++ tl))
        else Except.ok (enclose (decide (p < 120)) (withWord w ++ [.sel i]))) := rfl
    rw [e', if_pos k, Tail.write_ok h'.1, e, withWord_ok h'.2]
    show Except.ok (enclose (decide (p < 200)) (withToks w ++ [.sel i] ++ t.toks)) = Except.ok ([Tok.lp] ++ (withToks w ++ ([.sel i] ++ ([] ++ t.toks))) ++ [.rp])
    rw [decide_eq_true hp', List.append_assoc (withToks w)]
    rfl
  · rw [if_neg k] at h'
    have e : asOperand (.sel w i t) = .sel i := by
      show (if t.keyed then _ else _) = _
      rw [if_neg k]
    have hw : w = none := Option.isNone_iff_eq_none.1 h'.2
    subst hw
    have e' : (Q.sel none i t).write p = (if t.keyed then t.write.bind fun tl => Except.ok (enclose (decide (p < 200)) (withWord none ++ [.sel i] ++ tl))
        else Except.ok (enclose (decide (p < 120)) (withWord none ++ [.sel i]))) := rfl
    rw [e', if_neg k, e, decide_eq_false (Nat.not_lt.2 hp)]
    rfl

theorem node_write {op : Op} {q : Q} {qs : Qs} (hk : op.known = true) {p : Nat} (hp : 160 ≤ p) {a b : List Tok} (ha : q.write 161 = .ok a) (hb : qs.write op = .ok b) :
    (Q.node none op q qs).write p = .ok (a ++ b) := by
  have e : (Q.node none op q qs).write p = (if op.known then (q.write 161).bind fun a => (qs.write op).bind fun b => Except.ok (enclose (decide (p < 160)) (a ++ b))
      else (q.write 400).bind fun a => (qs.args).bind fun b => Except.ok ([.call op] ++ a ++ b ++ [.rp])) := rfl
  rw [e, if_pos hk, ha, hb, decide_eq_false (Nat.not_lt.2 hp)]
  rfl

theorem wrap_write {q : Q} {t : Tail} (ht : t.fetch.isNone = true) (p : Nat) {a : List Tok} (ha : q.write 200 = .ok a) :
    (Q.wrap none q t).write p = .ok (enclose (decide (p < 200)) (a ++ t.toks)) := by
  have e : (Q.wrap none q t).write p = ((q.write 200).bind fun f => t.write.bind fun tl => Except.ok (enclose (decide (p < 200)) (f ++ tl))) := rfl
  rw [e, ha, Tail.write_ok ht]
  rfl

mutual
theorem node_text : (q : Q) → q.isNode = true → q.ok = true → {p : Nat} → 160 ≤ p →
    ∃ l, q.write p = .ok l ∧ ∀ acc : Rest, (asFirst q).toks ++ (asRest q acc).toks = l ++ acc.toks
  | .sel .., h, _, _, _ => by cases h
  | .wrap .., h, _, _, _ => by cases h
  | .node w op q qs, _, h, p, hp => by
    have h' : (w.isNone && op.known && q.okFirst && qs.ok) = true := h
    simp only [Bool.and_eq_true, Option.isNone_iff_eq_none] at h'
    obtain ⟨⟨⟨rfl, hk⟩, hf⟩, ha⟩ := h'
    obtain ⟨a, ea, fa⟩ := first_text q hf
    obtain ⟨b, eb, fb⟩ := rest_text op qs ha
    refine ⟨a ++ b, node_write hk hp ea eb, fun acc => ?_⟩
    show (asFirst q).toks ++ (asRest q (restOf op qs acc)).toks = _
    rw [fa, fb, List.append_assoc]
theorem first_text : (q : Q) → q.okFirst = true →
    ∃ l, q.write 161 = .ok l ∧ ∀ acc : Rest, (asFirst q).toks ++ (asRest q acc).toks = l ++ acc.toks
  | .sel w i t, h => ⟨_, sel_write h (by decide) (by decide), fun _ => rfl⟩
  | .node w op q qs, h => by
    have h' : (w.isNone && op.known && q.okFirst && qs.ok) = true := h
    simp only [Bool.and_eq_true, Option.isNone_iff_eq_none] at h'
    obtain ⟨⟨⟨rfl, hk⟩, hf⟩, ha⟩ := h'
    obtain ⟨a, ea, fa⟩ := first_text q hf
    obtain ⟨b, eb, fb⟩ := rest_text op qs ha
    refine ⟨a ++ b, node_write hk (by decide) ea eb, fun acc => ?_⟩
    show (asFirst q).toks ++ (asRest q (restOf op qs acc)).toks = _
    rw [fa, fb, List.append_assoc]
  | .wrap w q t, h => by
    have h' : (w.isNone && t.keyed && t.fetch.isNone && q.isNode && q.ok) = true := h
    simp only [Bool.and_eq_true] at h'
    have hw : w = none := Option.isNone_iff_eq_none.1 h'.1.1.1.1
    subst hw
    obtain ⟨a, ea, fa⟩ := node_text q h'.1.2 h'.2 (p := 200) (by decide)
    have fa' : (asFirst q).toks ++ (asRest q .nil).toks = a := (fa .nil).trans (List.append_nil a)
    refine ⟨[.lp] ++ (a ++ t.toks) ++ [.rp], wrap_write h'.1.1.2 161 ea, fun acc => ?_⟩
    show ([Tok.lp] ++ ((asFirst q).toks ++ ((asRest q .nil).toks ++ t.toks)) ++ [.rp]) ++ acc.toks = _
    rw [← fa', List.append_assoc (asFirst q).toks]
theorem arg_text : (q : Q) → q.okArg = true → q.write 160 = .ok (asOperand q).toks
  | .sel w i t, h => sel_write h (by decide) (by decide)
  | .node .., h => by cases h
  | .wrap w q t, h => by
    have h' : (w.isNone && t.keyed && t.fetch.isNone && q.isNode && q.ok) = true := h
    simp only [Bool.and_eq_true] at h'
    have hw : w = none := Option.isNone_iff_eq_none.1 h'.1.1.1.1
    subst hw
    obtain ⟨a, ea, fa⟩ := node_text q h'.1.2 h'.2 (p := 200) (by decide)
    have fa' : (asFirst q).toks ++ (asRest q .nil).toks = a := (fa .nil).trans (List.append_nil a)
    rw [wrap_write h'.1.1.2 160 ea]
    show Except.ok ([Tok.lp] ++ (a ++ t.toks) ++ [.rp]) = Except.ok ([Tok.lp] ++ ((asFirst q).toks ++ ((asRest q .nil).toks ++ t.toks)) ++ [.rp])
    rw [← fa', List.append_assoc (asFirst q).toks]
theorem rest_text (op : Op) : (qs : Qs) → qs.ok = true → ∃ l, qs.write op = .ok l ∧ ∀ acc : Rest, (restOf op qs acc).toks = l ++ acc.toks
  | .nil, _ => ⟨[], rfl, fun _ => rfl⟩
  | .cons q qs, h => by
    have h' : (q.okArg && qs.ok) = true := h
    rw [Bool.and_eq_true] at h'
    obtain ⟨b, eb, fb⟩ := rest_text op qs h'.2
    have e : (Qs.cons q qs).write op = ((q.write 160).bind fun a => (qs.write op).bind fun b => Except.ok ([.op op] ++ a ++ b)) := rfl
    refine ⟨[.op op] ++ (asOperand q).toks ++ b, ?_, fun acc => ?_⟩
    · rw [e, arg_text q h'.1, eb]
      rfl
    · show [Tok.op op] ++ (asOperand q).toks ++ (restOf op qs acc).toks = _
      rw [fb, List.append_assoc ([Tok.op op] ++ (asOperand q).toks)]
end

/-- The text is that of the query `asQuery`. -/
theorem text_ok (q : Q) (h : q.ok = true) : q.text = .ok (asQuery q).toks := by
  cases q with
  | sel w i t =>
    have h' : (t.fetch.isNone && oneTime w) = true := h
    rw [Bool.and_eq_true] at h'
    have e' : (Q.sel w i t).text = (if t.keyed then t.write.bind fun tl => Except.ok (enclose (decide (400 < 200)) (withWord w ++ [.sel i] ++ tl))
        else Except.ok (enclose (decide (400 < 120)) (withWord w ++ [.sel i]))) := rfl
    rw [e', Tail.write_ok h'.1, withWord_ok h'.2]
    split
    · show Except.ok (withToks w ++ [.sel i] ++ t.toks) = Except.ok (withToks w ++ ([.sel i] ++ ([] ++ t.toks)))
      rw [List.append_assoc]
      rfl
    · next k =>
      rw [keyed_false k]
      rfl
  | node w op q qs =>
    have hw : w = none := by
      have h' : (w.isNone && op.known && q.okFirst && qs.ok) = true := h
      simp only [Bool.and_eq_true] at h'
      exact Option.isNone_iff_eq_none.1 h'.1.1.1
    obtain ⟨l, e, f⟩ := node_text _ rfl h (p := 400) (by decide)
    refine e.trans ?_
    have f' := f .nil
    subst hw
    show Except.ok l = Except.ok ([] ++ ((asFirst (.node none op q qs)).toks ++ ((asRest (.node none op q qs) .nil).toks ++ [])))
    rw [List.append_nil, f']
    show Except.ok l = Except.ok ([] ++ (l ++ []))
    rw [List.append_nil]
    rfl
  | wrap w q t =>
    have h' : (w.isNone && t.keyed && t.fetch.isNone && q.isNode && q.ok) = true := h
    simp only [Bool.and_eq_true] at h'
    have hw : w = none := Option.isNone_iff_eq_none.1 h'.1.1.1.1
    subst hw
    obtain ⟨a, ea, fa⟩ := node_text q h'.1.2 h'.2 (p := 200) (by decide)
    have fa' : (asFirst q).toks ++ (asRest q .nil).toks = a := (fa .nil).trans (List.append_nil a)
    refine (wrap_write h'.1.1.2 400 ea).trans ?_
    show Except.ok (a ++ t.toks) = Except.ok ((asFirst q).toks ++ ((asRest q .nil).toks ++ t.toks))
    rw [← fa', List.append_assoc (asFirst q).toks]

/-! ## What it means -/

mutual
def Src.calm : Src → Bool
  | .sel _ => true
  | .paren _ o r _ => o.calm && r.calm && SetOps.calm r.ops
def Rest.calm : Rest → Bool
  | .nil => true
  | .cons _ o r => o.calm && r.calm
end

/-- No INTERSECT after another operation, in the query and in every query in parentheses. -/
def Query.calm (q : Query) : Bool := q.o.calm && q.r.calm && SetOps.calm q.r.ops

mutual
/-- The meaning when all operations are applied from left to right. -/
def Src.lmean (e : List W) : Src → β
  | .sel i => A.leaf e i
  | .paren w o r t => t.apply A (left A (o.lmean (scope w e)) (r.lmean (scope w e)))
def Rest.lmean (e : List W) : Rest → List (Op × β)
  | .nil => []
  | .cons op o r => (op, o.lmean e) :: r.lmean e
end

mutual
theorem Src.mean_calm : (s : Src) → s.calm = true → (e : List W) → s.mean A e = s.lmean A e
  | .sel _, _, _ => rfl
  | .paren w o r t, h, e => by
    have h' : (o.calm && r.calm && SetOps.calm r.ops) = true := h
    simp only [Bool.and_eq_true] at h'
    show t.apply A (chain A (o.mean A (scope w e)) (r.mean A (scope w e))) = t.apply A (left A (o.lmean A (scope w e)) (r.lmean A (scope w e)))
    rw [chain_left A _ _ (by rw [Rest.mean_ops]; exact h'.2), Src.mean_calm o h'.1.1, Rest.mean_calm r h'.1.2]
theorem Rest.mean_calm : (r : Rest) → r.calm = true → (e : List W) → r.mean A e = r.lmean A e
  | .nil, _, _ => rfl
  | .cons op o r, h, e => by
    have h' : (o.calm && r.calm) = true := h
    rw [Bool.and_eq_true] at h'
    show (op, o.mean A e) :: r.mean A e = (op, o.lmean A e) :: r.lmean A e
    rw [Src.mean_calm o h'.1, Rest.mean_calm r h'.2]
end

theorem sel_lmean {w : Option W} {i : Nat} {t : Tail} (h : selOk w t = true) (e : List W) : (asOperand (.sel w i t)).lmean A e = (Q.sel w i t).mean A e := by
  have h' : (t.fetch.isNone && if t.keyed then oneTime w else w.isNone) = true := h
  rw [Bool.and_eq_true] at h'
  have e0 : asOperand (.sel w i t) = if t.keyed then .paren w (.sel i) .nil t else .sel i := rfl
  rw [e0]
  split
  · rfl
  · next k =>
    rw [if_neg k] at h'
    have hw : w = none := Option.isNone_iff_eq_none.1 h'.2
    subst hw
    rw [keyed_false k]
    rfl

mutual
theorem first_lmean (e : List W) : (q : Q) → q.okFirst = true → (acc : Rest) →
    left A ((asFirst q).lmean A e) ((asRest q acc).lmean A e) = left A (q.mean A e) (acc.lmean A e)
  | .sel w i t, h, acc => by
    show left A ((asOperand (.sel w i t)).lmean A e) (acc.lmean A e) = _
    rw [sel_lmean A h]
  | .node w op q qs, h, acc => by
    have h' : (w.isNone && op.known && q.okFirst && qs.ok) = true := h
    simp only [Bool.and_eq_true, Option.isNone_iff_eq_none] at h'
    obtain ⟨⟨⟨rfl, -⟩, hf⟩, ha⟩ := h'
    show left A ((asFirst q).lmean A e) ((asRest q (restOf op qs acc)).lmean A e) = left A (qs.mean A e op (q.mean A e)) (acc.lmean A e)
    rw [first_lmean e q hf, rest_lmean e op qs ha]
  | .wrap w q t, h, acc => by
    have h' : (w.isNone && t.keyed && t.fetch.isNone && q.isNode && q.ok) = true := h
    simp only [Bool.and_eq_true] at h'
    show left A (t.apply A (left A ((asFirst q).lmean A (scope w e)) ((asRest q .nil).lmean A (scope w e)))) (acc.lmean A e) =
      left A (t.apply A (q.mean A (scope w e))) (acc.lmean A e)
    rw [node_lmean (scope w e) q h'.1.2 h'.2]
    rfl
theorem node_lmean (e : List W) : (q : Q) → q.isNode = true → q.ok = true → (acc : Rest) →
    left A ((asFirst q).lmean A e) ((asRest q acc).lmean A e) = left A (q.mean A e) (acc.lmean A e)
  | .sel .., h, _, _ => by cases h
  | .wrap .., h, _, _ => by cases h
  | .node w op q qs, _, h, acc => by
    have h' : (w.isNone && op.known && q.okFirst && qs.ok) = true := h
    simp only [Bool.and_eq_true, Option.isNone_iff_eq_none] at h'
    obtain ⟨⟨⟨rfl, -⟩, hf⟩, ha⟩ := h'
    show left A ((asFirst q).lmean A e) ((asRest q (restOf op qs acc)).lmean A e) = left A (qs.mean A e op (q.mean A e)) (acc.lmean A e)
    rw [first_lmean e q hf, rest_lmean e op qs ha]
theorem arg_lmean (e : List W) : (q : Q) → q.okArg = true → (asOperand q).lmean A e = q.mean A e
  | .sel _ _ _, h => sel_lmean A h e
  | .node .., h => by cases h
  | .wrap w q t, h => by
    have h' : (w.isNone && t.keyed && t.fetch.isNone && q.isNode && q.ok) = true := h
    simp only [Bool.and_eq_true] at h'
    show t.apply A (left A ((asFirst q).lmean A (scope w e)) ((asRest q .nil).lmean A (scope w e))) = t.apply A (q.mean A (scope w e))
    rw [node_lmean (scope w e) q h'.1.2 h'.2]
    rfl
theorem rest_lmean (e : List W) (op : Op) : (qs : Qs) → qs.ok = true → (acc : Rest) → (a : β) →
    left A a ((restOf op qs acc).lmean A e) = left A (qs.mean A e op a) (acc.lmean A e)
  | .nil, _, _, _ => rfl
  | .cons q qs, h, acc, a => by
    have h' : (q.okArg && qs.ok) = true := h
    rw [Bool.and_eq_true] at h'
    show left A (A.bin op a ((asOperand q).lmean A e)) ((restOf op qs acc).lmean A e) = left A (qs.mean A e op (A.bin op a (q.mean A e))) (acc.lmean A e)
    rw [arg_lmean e q h'.1, rest_lmean e op qs h'.2]
end

theorem asQuery_mean (q : Q) (h : q.ok = true) (hc : (asQuery q).calm = true) (e : List W) : (asQuery q).mean A e = q.mean A e := by
  have hc' : ((asQuery q).o.calm && (asQuery q).r.calm && SetOps.calm (asQuery q).r.ops) = true := hc
  simp only [Bool.and_eq_true] at hc'
  show (asQuery q).t.apply A (chain A ((asQuery q).o.mean A (scope (asQuery q).w e)) ((asQuery q).r.mean A (scope (asQuery q).w e))) = _
  rw [chain_left A _ _ (by rw [Rest.mean_ops]; exact hc'.2), Src.mean_calm A _ hc'.1.1, Rest.mean_calm A _ hc'.1.2]
  cases q with
  | sel w i t => rfl
  | node w op q qs =>
    have hw : w = none := by
      have h' : (w.isNone && op.known && q.okFirst && qs.ok) = true := h
      simp only [Bool.and_eq_true] at h'
      exact Option.isNone_iff_eq_none.1 h'.1.1.1
    subst hw
    exact node_lmean A e (.node none op q qs) rfl h .nil
  | wrap w q t =>
    have h' : (w.isNone && t.keyed && t.fetch.isNone && q.isNode && q.ok) = true := h
    simp only [Bool.and_eq_true] at h'
    show t.apply A (left A ((asFirst q).lmean A (scope w e)) ((asRest q .nil).lmean A (scope w e))) = t.apply A (q.mean A (scope w e))
    rw [node_lmean A (scope w e) q h'.1.2 h'.2]
    rfl

/-- **C94 (partial: parse results that are written right).** A parse result without FETCH and WITH RECURSIVE, with WITH only before a
SELECT (a SELECT with a tail, if it is an operand), with the operations UNION, UNION ALL, INTERSECT, EXCEPT and MINUS, and whose second and
later operands are SELECTs or have a tail, is written as the text of a query; if no INTERSECT follows another
operation there, that query means what the parse result means. -/
theorem C94_write_partial (q : Q) (h : q.ok = true) :
    q.text = .ok (asQuery q).toks ∧ ((asQuery q).calm = true → ∀ e, (asQuery q).mean A e = q.mean A e) :=
  ⟨text_ok q h, fun hc e => asQuery_mean A q h hc e⟩

/-- **C94 (partial: there and back).** Under both conditions the text written for a query means what the query meant. -/
theorem C94_round_partial (h0 : ∀ b, A.offset 0 b = b) (q : Query) (hg : q.good = true) (h : q.parse.ok = true) (hc : (asQuery q.parse).calm = true) :
    ∃ q' : Query, q.parse.text = .ok q'.toks ∧ (∀ q'' : Query, q''.toks = q'.toks → q'' = q') ∧ ∀ e, q'.mean A e = q.mean A e :=
  ⟨asQuery q.parse, text_ok _ h, fun q'' h' => C94_text q'' _ h', fun e => (asQuery_mean A _ h hc e).trans (C94_parse_partial A h0 q hg e)⟩

/-- `(select 0 order by … limit 3) union all select 1 union all select 2 except (select 4 limit 1) order by … limit 2` -/
example : let q : Query := ⟨none, .paren none (.sel 0) .nil { order := some 0, limit := some 3 },
      .cons ⟨.union, .all⟩ (.sel 1) (.cons ⟨.union, .all⟩ (.sel 2) (.cons ⟨.except, .plain⟩ (.paren none (.sel 4) .nil { limit := some 1 }) .nil)),
      { order := some 0, limit := some 2 }⟩
    q.good = true ∧ q.parse.ok = true ∧ (asQuery q.parse).calm = true := by decide

end EulerDB.SetOps
