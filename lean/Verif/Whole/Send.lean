/-
Model of the way of a statement through the proxy, from the client's characters to the characters
sent to the backend and from the backend's answer to the client's rows.

Code: /repo/scheduler/handers/rewrite_hander.py `rewrite_query` 19-77 (27-28: the statement is parsed,
75-77: it is written); /repo/sql_parsing/__init__.py `parse_mysql` 42-54, `_parse` 75-83,
`parse_alter_key` 92-198, `format` 86-89, `format_alter_key` 201-224;
/repo/scheduler/handers/decrypt_handler.py `decrypt` 22-39.

This file only joins the models of `Verif/Sql`, `Verif/Alter`, `Verif/Clause`, `Verif/Statement` and
`Verif/Whole/Text.lean`; their simplifications apply.  CREATE TABLE (lines 25-26) is not included.
-/
import Verif.Whole.Parse
import Verif.Statement.InsertProps
import Verif.Clause.SetProps
import Verif.Sql.StmtProps
import Verif.Alter.Props

namespace EulerDB.Whole

open EulerDB EulerDB.Clause EulerDB.Delta

/-- The proxy: its ciphers, the recorded tables, what is left open of Python (`env`, `space`, `w`, `repr`, `ev`), the recursion limits of the rewriter and
of the formatter, and Paillier decryption. -/
structure Proxy where
  c : Crypto
  db : Db
  env : Sql.Env
  space : Char → Bool
  w : Writer
  repr : Json → String
  fuel : Nat
  depth : Nat
  homDec : Nat × Nat → DbVal → Except PyErr DbVal
  ev : String → Option OutVal

section
variable (P : Proxy)

/-- rewrite_hander.py 27-28.  A parsed value without `keys` cannot be rewritten (33). -/
def Proxy.parsed (sql : List Char) : Except PyErr (Dict String Json) :=
  match Alter.parseAlter P.w.uni sql with
  | [] =>
    match Sql.parse P.env P.space sql with
    | .json (.dict d) => .ok d
    | .json _ => .error .attributeError
    | .rejected => .error .generic
    | .crashed => .error .generic
    | .unmodelled => .error .notSupported
  | d => .ok d

def Proxy.leaves : Statement.Leaves := ⟨fun j => (exText P.w j 400).map String.ofList, P.repr, P.w.floatText⟩

/-- rewrite_hander.py 75-77.  (`format_alter_key` may return None, which cannot be sent.) -/
def Proxy.text (json : Dict String Json) : Except PyErr (List Char) :=
  match Dict.get? json "alter" with
  | some _ =>
    match formatAlter json with
    | .error e => .error e
    | .ok none => .error .typeError
    | .ok (some s) => .ok s.toList
  | none => (Statement.format P.leaves P.depth json).map fun ts => (Statement.spell ts).toList

/-- rewrite_hander.py 19-77: the characters sent, `table`, and the record of the select list. -/
def Proxy.send (sql : List Char) : Except PyErr (List Char × Json × Sel) :=
  match P.parsed sql with
  | .error e => .error e
  | .ok d =>
    match rewriteQuery P.c P.db P.fuel d with
    | .error e => .error e
    | .ok (d', table, s) =>
      match P.text d' with
      | .error e => .error e
      | .ok t => .ok (t, table, s)

/-- decrypt_handler.py 22-39. -/
def Proxy.answer (table : Json) (s : Sel) : List (List DbVal) → Except PyErr (List (List OutVal))
  | [] => .ok []
  | row :: rows =>
    match decryptRow P.c P.homDec P.ev P.db table s.columns s.state row with
    | .error e => .error e
    | .ok r =>
      match Proxy.answer table s rows with
      | .error e => .error e
      | .ok rs => .ok (r :: rs)

/-- A statement: the proxy rewrites it, the backend (with its reserved words `res`) executes it, the proxy decrypts the answer.  `none`: somebody refuses. -/
def Proxy.serve (res : List Char → Bool) (st : Tables) (sql : List Char) : Option (Tables × List (List OutVal)) :=
  match P.send sql with
  | .error _ => none
  | .ok (t, table, s) =>
    match readStmt res t with
    | none => none
    | some m =>
      match exec st m with
      | none => none
      | some (st', rows) =>
        match P.answer table s rows with
        | .error _ => none
        | .ok out => some (st', out)

/-- A session: statements one after the other. -/
def Proxy.session (res : List Char → Bool) (st : Tables) : List (List Char) → Option (Tables × List (List (List OutVal)))
  | [] => some (st, [])
  | sql :: r =>
    match P.serve res st sql with
    | none => none
    | some (st', out) =>
      match Proxy.session res st' r with
      | none => none
      | some (st'', outs) => some (st'', out :: outs)

end

/-! ### Statements that are no ALTER TABLE -/

theorem gap_begins {g : List Char} (h : Sql.Gap g) (r : List Char) {u v : List Char} {a : Char} (hu : ∀ c ∈ u, Alter.isWs c = true)
    (he : g ++ r = u ++ a :: v) (ha : a ≠ '-' ∧ a ≠ '#' ∧ a ≠ '/' ∧ Alter.isWs a = false) : ∃ u', r = u' ++ a :: v ∧ ∀ c ∈ u', Alter.isWs c = true := by
  induction h generalizing u with
  | nil => exact ⟨u, he, hu⟩
  | @white c g hc hg ih =>
    cases u with
    | nil =>
      simp only [List.cons_append, List.nil_append, List.cons.injEq] at he
      obtain ⟨rfl, _⟩ := he
      have : Alter.isWs c = true := by
        simp only [Sql.white, Bool.or_eq_true, beq_iff_eq] at hc
        rcases hc with ((rfl | rfl) | rfl) | rfl <;> decide
      rw [this] at ha
      exact absurd ha.2.2.2 (by simp)
    | cons d u =>
      simp only [List.cons_append, List.cons.injEq] at he
      exact ih (fun c hc => hu c (by simp [hc])) he.2
  | @dashes b g hb hg ih =>
    exfalso
    cases u with
    | nil => simp only [List.cons_append, List.nil_append, List.cons.injEq] at he; exact ha.1 he.1.symm
    | cons d u =>
      simp only [List.cons_append, List.cons.injEq] at he
      have := hu d (by simp)
      rw [← he.1] at this
      revert this; decide
  | @hash b g hb hg ih =>
    exfalso
    cases u with
    | nil => simp only [List.cons_append, List.nil_append, List.cons.injEq] at he; exact ha.2.1 he.1.symm
    | cons d u =>
      simp only [List.cons_append, List.cons.injEq] at he
      have := hu d (by simp)
      rw [← he.1] at this
      revert this; decide
  | @block b g hb hg ih =>
    exfalso
    cases u with
    | nil => simp only [List.cons_append, List.nil_append, List.cons.injEq] at he; exact ha.2.2.1 he.1.symm
    | cons d u =>
      simp only [List.cons_append, List.cons.injEq] at he
      have := hu d (by simp)
      rw [← he.1] at this
      revert this; decide

/-- A statement that begins with one of the other keywords is not taken for an ALTER TABLE. -/
theorem no_alter (uni : Char → Bool) {w : String} (hw : w ∈ ["insert", "select", "update", "delete"]) {s rest more : List Char} (h : Sql.Kw w s rest) :
    Alter.parseAlter uni (s ++ more) = [] := by
  refine Alter.parse_none fun k => (Alter.run_eq_none_iff uni _ _ _).2 fun caps hm => ?_
  obtain ⟨ps, hps⟩ : ∃ ps, k.pat = .ws :: .kw "alter".toList :: ps := by cases k <;> exact ⟨_, rfl⟩
  rw [hps, Alter.M] at hm
  obtain ⟨u, r, he, hu, hm⟩ := hm
  rw [Alter.M] at hm
  obtain ⟨u2, r2, rfl, hu2, -⟩ := hm
  obtain ⟨g, t, hg, ht, hb, rfl⟩ := h
  cases u2 with
  | nil => simp at hu2
  | cons a t2 =>
    have h1 : a.toLower = 'a' := by simpa using congrArg List.head? hu2
    have ha : a ≠ '-' ∧ a ≠ '#' ∧ a ≠ '/' ∧ Alter.isWs a = false := by
      refine ⟨?_, ?_, ?_, ?_⟩
      · rintro rfl; revert h1; decide
      · rintro rfl; revert h1; decide
      · rintro rfl; revert h1; decide
      · cases hs : Alter.isWs a with
        | false => rfl
        | true =>
          exfalso
          simp only [Alter.isWs, Bool.or_eq_true, beq_iff_eq] at hs
          clear he hu2
          rcases hs with ((rfl | rfl) | rfl) | rfl <;> revert h1 <;> decide
    obtain ⟨u', hr, hu'⟩ := gap_begins hg (t ++ rest ++ more) (u := u) (v := t2 ++ r2) (a := a) hu (by simpa using he) ha
    obtain ⟨c, t', rfl, hc⟩ : ∃ c t', t = c :: t' ∧ c.toLower ∈ ['i', 's', 'u', 'd'] := by
      unfold Sql.Word at ht
      cases t with
      | nil =>
        simp only [List.mem_cons, List.not_mem_nil, or_false] at hw
        rcases hw with rfl | rfl | rfl | rfl <;> simp at ht
      | cons c t' =>
        refine ⟨c, t', rfl, ?_⟩
        have := congrArg List.head? ht
        simp only [List.map_cons, List.head?_cons] at this
        simp only [List.mem_cons, List.not_mem_nil, or_false] at hw
        rcases hw with rfl | rfl | rfl | rfl <;> simp at this <;> simp [this]
    cases u' with
    | nil =>
      simp only [List.cons_append, List.nil_append, List.cons.injEq] at hr
      rw [hr.1, h1] at hc
      revert hc; decide
    | cons d u' =>
      simp only [List.cons_append, List.cons.injEq] at hr
      have := hu' d (by simp)
      rw [← hr.1] at this
      simp only [Alter.isWs, Bool.or_eq_true, beq_iff_eq] at this
      clear hr ht
      rcases this with ((rfl | rfl) | rfl) | rfl <;> revert hc <;> decide

end EulerDB.Whole
