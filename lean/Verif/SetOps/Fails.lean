import Verif.SetOps.Write

/-!
# Where set operations are read or written wrong (C94)
-/

namespace EulerDB.SetOps

/-- Tables for the witnesses: table 0 holds 1, 2, 3; table 1 holds 2, 3; table 2 holds 3; the WITH clause 7 makes table 9
hold 5, without it it is empty. -/
def tables (e : List W) (i : Nat) : List Nat :=
  match i with
  | 0 => [1, 2, 3]
  | 1 => [2, 3]
  | 2 => [3]
  | 9 => if e.any fun w => w.id == 7 then [5] else []
  | _ => []

theorem rows_offset (b : List Nat) : (rows tables).offset 0 b = b := rfl

/-! ## Reading -/

/-- **C94 (false: after a query in parentheses).** ORDER BY, LIMIT, OFFSET and FETCH behind a query in parentheses are
dropped, whatever they are; and its own WITH clause is replaced by that of the query around it, so it is dropped too. -/
theorem C94_fails_paren (w w' : Option W) (o : Src) (r : Rest) (t t' : Tail) :
    Query.parse ⟨w', .paren w o r t, .nil, t'⟩ = Query.parse ⟨w', .paren none o r t, .nil, {}⟩ := by
  show ((unionCall o.one (operand o) (operands r) t).setWith w).setWith w' = ((unionCall o.one (operand o) (operands r) t).setWith none).setWith w'
  cases unionCall o.one (operand o) (operands r) t <;> rfl

/-- `(select … from t0) limit 1` gives three rows, `(with … select … from t9)` none. -/
theorem C94_fails_paren_rows :
    (Query.parse ⟨none, .paren none (.sel 0) .nil {}, .nil, { limit := some 1 }⟩).mean (rows tables) [] = [1, 2, 3] ∧
    (Query.mk none (.paren none (.sel 0) .nil {}) .nil { limit := some 1 }).mean (rows tables) [] = [1] ∧
    (Query.parse ⟨none, .paren (some ⟨7, false⟩) (.sel 9) .nil {}, .nil, {}⟩).mean (rows tables) [] = [] ∧
    (Query.mk none (.paren (some ⟨7, false⟩) (.sel 9) .nil {}) .nil {}).mean (rows tables) [] = [5] := by
  decide +kernel

/-- **C94 (false: LIMIT 0 and FETCH).** Behind set operations, without an ORDER BY or an OFFSET, `LIMIT 0` is dropped and so is
any FETCH. -/
theorem C94_fails_fetch (w : Option W) (o s : Src) (op : Op) (r : Rest) (n : Nat) :
    Query.parse ⟨w, o, .cons op s r, { limit := some 0 }⟩ = Query.parse ⟨w, o, .cons op s r, {}⟩ ∧
    Query.parse ⟨w, o, .cons op s r, { fetch := some n }⟩ = Query.parse ⟨w, o, .cons op s r, {}⟩ := ⟨rfl, rfl⟩

/-- `select … from t0 union select … from t1 limit 0` gives three rows. -/
theorem C94_fails_limit_rows :
    (Query.parse ⟨none, .sel 0, .cons ⟨.union, .plain⟩ (.sel 1) .nil, { limit := some 0 }⟩).mean (rows tables) [] = [1, 2, 3] ∧
    (Query.mk none (.sel 0) (.cons ⟨.union, .plain⟩ (.sel 1) .nil) { limit := some 0 }).mean (rows tables) [] = [] := by
  constructor
  · decide +kernel
  · rfl

/-- The meaning of `a op b intersect c` for an operation that is not INTERSECT. -/
theorem mean_intersect {β : Type} (A : Alg β) (op : Op) (m : Mod) (i j k : Nat) (h : op.kind ≠ .intersect) (e : List W) :
    (Query.mk none (.sel i) (.cons op (.sel j) (.cons ⟨.intersect, m⟩ (.sel k) .nil)) {}).mean A e =
      A.bin op (A.leaf e i) (A.bin ⟨.intersect, m⟩ (A.leaf e j) (A.leaf e k)) := by
  show chain A (A.leaf e i) [(op, A.leaf e j), (⟨.intersect, m⟩, A.leaf e k)] = _
  rw [chain_cons, if_neg h]
  show chain A _ [] = _
  rw [chain]
  rfl

/-- **C94 (false: INTERSECT).** `a op b intersect c` is read as `(a op b) intersect c`, whatever `op`; SQL and MySQL read `a op (b intersect c)`
unless `op` is INTERSECT itself. -/
theorem C94_fails_intersect {β : Type} (A : Alg β) (op : Op) (m : Mod) (i j k : Nat) (h : op.kind ≠ .intersect) (e : List W) :
    let q : Query := ⟨none, .sel i, .cons op (.sel j) (.cons ⟨.intersect, m⟩ (.sel k) .nil), {}⟩
    q.parse.mean A e = A.bin ⟨.intersect, m⟩ (A.bin op (A.leaf e i) (A.leaf e j)) (A.leaf e k) ∧
      q.mean A e = A.bin op (A.leaf e i) (A.bin ⟨.intersect, m⟩ (A.leaf e j) (A.leaf e k)) := by
  refine ⟨?_, mean_intersect A op m i j k h e⟩
  have e1 : (Query.mk none (.sel i) (.cons op (.sel j) (.cons ⟨.intersect, m⟩ (.sel k) .nil)) {}).parse =
      (loop (.sel none i {}) none [(op, .sel none j {}), (⟨.intersect, m⟩, .sel none k {})]).setWith none := rfl
  have e2 : (loop (.sel none i {}) none [(op, .sel none j {}), (⟨.intersect, m⟩, .sel none k {})]).with? = none :=
    loop_with _ (step_inv (last := none) (fun _ h => by cases h) op _)
  rw [e1, setWith_mean A none e _ e2]
  exact C94_loop A (.sel none i {}) [(op, .sel none j {}), (⟨.intersect, m⟩, .sel none k {})] e

/-- `t0 union t1 intersect t2`: one row instead of three. -/
theorem C94_fails_intersect_rows :
    let q : Query := ⟨none, .sel 0, .cons ⟨.union, .plain⟩ (.sel 1) (.cons ⟨.intersect, .plain⟩ (.sel 2) .nil), {}⟩
    q.parse.mean (rows tables) [] = [3] ∧ q.mean (rows tables) [] = [1, 2, 3] := by
  refine ⟨by decide +kernel, (mean_intersect _ _ _ _ _ _ (by decide) _).trans (by decide +kernel)⟩

/-! ## Writing -/

/-- **C94 (false: parentheses on the right).** `a op₁ (b op₂ c)` is written `a op₁ b op₂ c`: all set operations have the same
precedence, and only the first operand is written at a lower one. -/
theorem C94_fails_right (op op' : Op) (h : op.known = true) (h' : op'.known = true) (i j k : Nat) :
    (Query.parse ⟨none, .sel i, .cons op (.paren none (.sel j) (.cons op' (.sel k) .nil) {}) .nil, {}⟩).text =
      .ok (Query.toks ⟨none, .sel i, .cons op (.sel j) (.cons op' (.sel k) .nil), {}⟩) := by
  have hr : (Q.node none op' (.sel none j {}) (.cons (.sel none k {}) .nil)).write 160 = .ok [.sel j, .op op', .sel k] :=
    node_write (p := 160) h' (by decide) (a := [.sel j]) (b := [.op op', .sel k]) rfl rfl
  have hs : (Qs.cons (Q.node none op' (.sel none j {}) (.cons (.sel none k {}) .nil)) .nil).write op = .ok [.op op, .sel j, .op op', .sel k] := by
    have e : (Qs.cons (Q.node none op' (.sel none j {}) (.cons (.sel none k {}) .nil)) .nil).write op =
      ((Q.node none op' (.sel none j {}) (.cons (.sel none k {}) .nil)).write 160).bind fun a => Except.ok ([.op op] ++ a ++ []) := rfl
    rw [e, hr]
    rfl
  exact node_write (p := 400) h (by decide) (a := [.sel i]) rfl hs

/-- `t0 except (t1 except t2)` means 1 and 3, the text written for it 1. -/
theorem C94_fails_right_rows :
    (Query.mk none (.sel 0) (.cons ⟨.except, .plain⟩ (.paren none (.sel 1) (.cons ⟨.except, .plain⟩ (.sel 2) .nil) {}) .nil) {}).parse.mean (rows tables) [] = [1, 3] ∧
    left (rows tables) [1, 2, 3] [(⟨.except, .plain⟩, [2, 3]), (⟨.except, .plain⟩, [3])] = [1] ∧
    ∀ e, (Query.mk none (.sel 0) (.cons ⟨.except, .plain⟩ (.sel 1) (.cons ⟨.except, .plain⟩ (.sel 2) .nil)) {}).mean (rows tables) e =
      left (rows tables) [1, 2, 3] [(⟨.except, .plain⟩, [2, 3]), (⟨.except, .plain⟩, [3])] := by
  refine ⟨by decide +kernel, by decide +kernel, fun e => ?_⟩
  exact chain_left (rows tables) [(⟨.except, .plain⟩, [2, 3]), (⟨.except, .plain⟩, [3])] [1, 2, 3] rfl

/-- What no text of a query holds. -/
def strange : Tok → Bool
  | .call _ => true
  | .comma => true
  | .from => true
  | _ => false

theorem withToks_plain (w : Option W) : (withToks w).any strange = false := by
  match w with
  | none => rfl
  | some ⟨_, false⟩ => rfl
  | some ⟨_, true⟩ => rfl

theorem Tail.toks_plain (t : Tail) : t.toks.any strange = false := by
  obtain ⟨o, l, f, n⟩ := t
  cases o <;> cases l <;> cases f <;> cases n <;> rfl

mutual
theorem Src.toks_plain : (s : Src) → s.toks.any strange = false
  | .sel _ => rfl
  | .paren w o r t => by
    show ([Tok.lp] ++ (withToks w ++ (o.toks ++ (r.toks ++ t.toks))) ++ [Tok.rp]).any strange = false
    simp only [List.any_append, withToks_plain, Src.toks_plain o, Rest.toks_plain r, Tail.toks_plain]
    rfl
theorem Rest.toks_plain : (r : Rest) → r.toks.any strange = false
  | .nil => rfl
  | .cons op o r => by
    show ([Tok.op op] ++ o.toks ++ r.toks).any strange = false
    simp only [List.any_append, Src.toks_plain o, Rest.toks_plain r]
    rfl
end

theorem Query.toks_plain (q : Query) : q.toks.any strange = false := by
  show (withToks q.w ++ (q.o.toks ++ (q.r.toks ++ q.t.toks))).any strange = false
  simp only [List.any_append, withToks_plain, Src.toks_plain, Rest.toks_plain, Tail.toks_plain]
  rfl

/-- **C94 (false: DISTINCT and ALL).** UNION DISTINCT, and INTERSECT, EXCEPT and MINUS with ALL or DISTINCT, are written as a function
call, `UNION_DISTINCT(SELECT …, SELECT …)`, which is the text of no query. -/
theorem C94_fails_distinct (op : Op) (h : op.known = false) (i j : Nat) :
    (Query.parse ⟨none, .sel i, .cons op (.sel j) .nil, {}⟩).text = .ok [.call op, .sel i, .comma, .sel j, .rp] ∧
    ∀ q : Query, q.toks ≠ [.call op, .sel i, .comma, .sel j, .rp] := by
  constructor
  · have e : (Query.parse ⟨none, .sel i, .cons op (.sel j) .nil, {}⟩).text =
      (if op.known then Except.ok [.sel i, .op op, .sel j] else Except.ok [.call op, .sel i, .comma, .sel j, .rp]) := rfl
    rw [e, h]
    rfl
  · intro q hq
    have := q.toks_plain
    rw [hq] at this
    cases this

theorem unknown_ops (op : Op) : op.known = false ↔ op = ⟨.union, .distinct⟩ ∨ op.kind ≠ .union ∧ op.mod ≠ .plain := by
  obtain ⟨k, m⟩ := op
  cases k <;> cases m <;> decide

/-- **C94 (false: WITH and set operations).** Of `with … a op b` only the WITH clause is written; with an ORDER BY (or LIMIT or OFFSET) as well
it is written without SELECT, `WITH … FROM (a op b) ORDER BY …`. Neither is the text of a query. -/
theorem C94_fails_with (n i j k : Nat) (op : Op) (h : op.known = true) :
    (Query.parse ⟨some ⟨n, false⟩, .sel i, .cons op (.sel j) .nil, {}⟩).text = .ok [.with n] ∧
    (∀ q : Query, q.toks ≠ [.with n]) ∧
    (Query.parse ⟨some ⟨n, false⟩, .sel i, .cons op (.sel j) .nil, { order := some k }⟩).text =
      .ok [.with n, .from, .lp, .sel i, .op op, .sel j, .rp, .order k] ∧
    ∀ q : Query, q.toks ≠ [.with n, .from, .lp, .sel i, .op op, .sel j, .rp, .order k] := by
  refine ⟨rfl, fun q hq => ?_, ?_, fun q hq => ?_⟩
  · obtain ⟨w, o, r, t⟩ := q
    have hq' : withToks w ++ (o.toks ++ (r.toks ++ t.toks)) = [.with n] := hq
    have ho : (∃ i z, o.toks = .sel i :: z) ∨ ∃ z, o.toks = .lp :: z := by
      cases o with
      | sel i => exact .inl ⟨i, [], rfl⟩
      | paren w o r t => exact .inr ⟨_, rfl⟩
    match w with
    | none => rcases ho with ⟨i, z, h⟩ | ⟨z, h⟩ <;> simp [withToks, h] at hq'
    | some ⟨m, false⟩ => rcases ho with ⟨i, z, h⟩ | ⟨z, h⟩ <;> simp [withToks, h] at hq'
    | some ⟨m, true⟩ => simp [withToks] at hq'
  · have e : (Query.parse ⟨some ⟨n, false⟩, .sel i, .cons op (.sel j) .nil, { order := some k }⟩).text =
      ((Q.node none op (.sel none i {}) (.cons (.sel none j {}) .nil)).source.bind fun f => Except.ok ([.with n, .from] ++ f ++ [.order k])) := rfl
    have e' : (Q.node none op (.sel none i {}) (.cons (.sel none j {}) .nil)).source =
      (if op.known then Except.ok [.lp, .sel i, .op op, .sel j, .rp] else Except.ok [.call op, .sel i, .comma, .sel j, .rp]) := rfl
    rw [e, e', h]
    rfl
  · have := q.toks_plain
    rw [hq] at this
    cases this

/-- **C94 (false: the reach of WITH).** A WITH clause of the first operand, `(with … a) op b`, is written before the whole chain, so that it
reaches `b` too; `b` then reads the rows of the WITH clause where it meant a table of that name. -/
theorem C94_fails_reach (n i j : Nat) (op : Op) (h : op.known = true) :
    (Query.parse ⟨none, .paren (some ⟨n, false⟩) (.sel i) .nil {}, .cons op (.sel j) .nil, {}⟩).text =
      .ok (Query.toks ⟨some ⟨n, false⟩, .sel i, .cons op (.sel j) .nil, {}⟩) :=
  node_write (p := 400) h (by decide) (a := [.with n, .sel i]) (b := [.op op, .sel j]) rfl rfl

/-- **C94 (false: WITH RECURSIVE).** It is not written at all before a SELECT, and before set operations the formatter raises. -/
theorem C94_fails_recursive (n i j : Nat) (op : Op) (t : Tail) :
    (Query.parse ⟨some ⟨n, true⟩, .sel i, .nil, t⟩).text = (Query.parse ⟨none, .sel i, .nil, t⟩).text ∧
    (Query.parse ⟨some ⟨n, true⟩, .sel i, .cons op (.sel j) .nil, {}⟩).text = .error .generic := ⟨rfl, rfl⟩

/-- **C94 (false: FETCH is written with the number of OFFSET).** Without an OFFSET the formatter raises KeyError; with one, FETCH is given its
number. -/
theorem C94_fails_fetch_text (w : Option W) (i n m : Nat) :
    (Query.parse ⟨w, .sel i, .nil, { fetch := some n }⟩).text = .error .keyError ∧
    (Query.parse ⟨none, .sel i, .nil, { offset := some m, fetch := some n }⟩).text = .ok (Query.toks ⟨none, .sel i, .nil, { offset := some m, fetch := some m }⟩) :=
  ⟨rfl, rfl⟩

end EulerDB.SetOps
