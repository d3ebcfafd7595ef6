import Verif.Steady.Model

/-! # C39: what the reconnecting cursor executes -/

namespace EulerDB.Steady

open EulerDB

theorem reopen_trace (o : Oracle) (stmt : Nat) (t : Bool) (s : St) : (reopen o stmt t s).2.2.length ≤ 1 := by
  unfold reopen
  split
  · split
    · simp
    · split <;> simp
  · simp

theorem reopen_tx (o : Oracle) (stmt : Nat) (s : St) : (reopen o stmt true s).2 = (.first, []) := by
  unfold reopen
  split <;> simp

theorem handle_trace (m : Nat) (o : Oracle) (stmt : Nat) (t : Bool) (s : St) : (handle m o stmt t s).2.2.length ≤ 2 := by
  unfold handle
  split
  · rw [reopen_tx]; simp
  · split
    · exact Nat.le_trans (reopen_trace _ _ _ _) (by omega)
    · split
      · simp
      · simp only [List.length_cons]
        exact Nat.succ_le_succ (reopen_trace _ _ _ _)

/-- A statement is sent at most three times. -/
theorem C39_at_most_three (m : Nat) (o : Oracle) (stmt : Nat) (s : St) : (tough m o stmt s).2.2.length ≤ 3 := by
  unfold tough
  split
  · exact Nat.le_trans (handle_trace _ _ _ _ _) (by omega)
  · split
    · simp
    · simp
    · simp only [List.length_cons]
      exact Nat.succ_le_succ (handle_trace _ _ _ _ _)

/-- After `begin` it is sent exactly once, and a failure is always reported. -/
theorem C39_once_in_transaction (m : Nat) (o : Oracle) (stmt : Nat) (s : St) (h : s.tx = true) :
    (tough m o stmt s).2 = (if o.a1 = .ok then .ok else .first, [⟨s.cur, o.a1 = .ok⟩]) := by
  unfold tough
  rw [if_neg (by rw [h]; simp)]
  split
  · rename_i h1; simp [h1]
  · rename_i h1; simp [h1]
  · rename_i h1
    simp only [handle, h, if_true, reopen_tx]
    simp [h1]

/-- The last execution of a list succeeded, all before failed. -/
def LastOk (l : List Ev) : Prop := ∃ pre last, l = pre ++ [last] ∧ last.ok = true ∧ ∀ e ∈ pre, e.ok = false

theorem reopen_ok {o : Oracle} {stmt : Nat} {t : Bool} {s : St} (h : (reopen o stmt t s).2.1 = .ok) : LastOk (reopen o stmt t s).2.2 := by
  unfold reopen at h ⊢
  split at h
  · rename_i h1
    rw [if_pos h1]
    split at h
    · cases h
    · rename_i h2
      rw [if_neg h2]
      split at h
      · exact ⟨[], ⟨s.fresh, true⟩, rfl, rfl, by simp⟩
      · cases h
      · cases h
  · cases h

theorem reopen_bad {o : Oracle} {stmt : Nat} {t : Bool} {s : St} (h : (reopen o stmt t s).2.1 ≠ .ok) : ∀ e ∈ (reopen o stmt t s).2.2, e.ok = false := by
  unfold reopen at h ⊢
  split
  · rename_i h1
    rw [if_pos h1] at h
    split
    · simp
    · rename_i h2
      rw [if_neg h2] at h
      split at h
      · exact absurd rfl h
      · simp
      · simp
  · simp

theorem LastOk.cons {l : List Ev} {e : Ev} (h : LastOk l) (he : e.ok = false) : LastOk (e :: l) := by
  obtain ⟨pre, last, h1, h2, h3⟩ := h
  refine ⟨e :: pre, last, by rw [h1]; rfl, h2, ?_⟩
  intro x hx
  rcases List.mem_cons.1 hx with rfl | hx
  · exact he
  · exact h3 x hx

theorem handle_ok {m : Nat} {o : Oracle} {stmt : Nat} {t : Bool} {s : St} : ((handle m o stmt t s).2.1 = .ok → LastOk (handle m o stmt t s).2.2) ∧
    ((handle m o stmt t s).2.1 ≠ .ok → ∀ e ∈ (handle m o stmt t s).2.2, e.ok = false) := by
  unfold handle
  split
  · exact ⟨reopen_ok, reopen_bad⟩
  · split
    · exact ⟨reopen_ok, reopen_bad⟩
    · split
      · exact ⟨fun _ => ⟨[], _, rfl, rfl, by simp⟩, fun h => absurd rfl h⟩
      · refine ⟨fun h => (reopen_ok h).cons rfl, fun h e he => ?_⟩
        rcases List.mem_cons.1 he with rfl | he
        · rfl
        · exact reopen_bad h e he

/-- Success is reported exactly if an execution succeeded; then it was the last one, so nothing is sent after a success. -/
theorem C39_stops_after_success (m : Nat) (o : Oracle) (stmt : Nat) (s : St) :
    ((tough m o stmt s).2.1 = .ok → LastOk (tough m o stmt s).2.2) ∧ ((tough m o stmt s).2.1 ≠ .ok → ∀ e ∈ (tough m o stmt s).2.2, e.ok = false) := by
  unfold tough
  split
  · exact handle_ok
  · split
    · exact ⟨fun _ => ⟨[], _, rfl, rfl, by simp⟩, fun h => absurd rfl h⟩
    · exact ⟨fun h => by simp at h, fun _ => by simp⟩
    · refine ⟨fun h => (handle_ok.1 h).cons rfl, fun h e he => ?_⟩
      rcases List.mem_cons.1 he with rfl | he
      · rfl
      · exact handle_ok.2 h e he

/-- An outcome without hidden effects: a failed execution changes nothing on the server. -/
def Honest : Out → Prop
  | .ok => True
  | .failed _ _ effect lost => effect = false ∧ lost = false

theorem execOn_honest {o : Out} (h : Honest o) (hne : o ≠ .ok) (p stmt : Nat) (s : St) : execOn p o stmt s = s := by
  cases o with
  | ok => exact absurd rfl hne
  | failed a b c d =>
    obtain ⟨rfl, rfl⟩ := h
    unfold execOn
    split <;> simp [exec]

/-- Reported as executed: pending once.  Reported as failed: not pending. -/
def Good (stmt : Nat) (r : St × Res × List Ev) : Prop := (r.2.1 = .ok → r.1.pending = [stmt]) ∧ (r.2.1 ≠ .ok → r.1.pending = [])

theorem Good.cons {stmt : Nat} {r : St × Res × List Ev} (h : Good stmt r) (e : Ev) : Good stmt (r.1, r.2.1, e :: r.2.2) := h

/-- If failed executions have no effect on the server, nothing was pending, and the cursor belongs to the current connection,
then a statement that is reported as executed is pending exactly once, and one that is reported as failed is not pending. -/
theorem C39_exactly_once_partial (o : Oracle) (stmt : Nat) (s : St) (h1 : Honest o.a1) (h2 : Honest o.a2) (h3 : Honest o.a3)
    (hp : s.pending = []) (hc : s.cur = s.phys) (m : Nat) : Good stmt (tough m o stmt s) := by
  have hre : ∀ (t : Bool) (s : St), s.pending = [] → Good stmt (reopen o stmt t s) := by
    intro t s hs
    unfold reopen
    split
    · split
      · simp [store, Good]
      · split
        · simp [store, Good]
        · simp [hs, Good]
        · rename_i a b c ha3
          rw [ha3] at h3 ⊢
          obtain ⟨rfl, rfl⟩ := h3
          simp [store, exec, Good]
    · simp [hs, Good]
  have hha : ∀ (t : Bool) (s : St), s.pending = [] → Good stmt (handle m o stmt t s) := by
    intro t s hs
    have hg : (getCursor m o s).1.pending = [] ∧ ∀ p, (getCursor m o s).2 = some p → p = (getCursor m o s).1.phys := by
      unfold getCursor
      simp only
      split
      · simp [hs]
      · simp [hs]
      · split
        · split <;> simp [store]
        · simp [hs]
    unfold handle
    split
    · exact hre true s hs
    · cases hgc : getCursor m o s with
      | mk s' p =>
        rw [hgc] at hg
        obtain ⟨hg1, hg2⟩ := hg
        simp only at hg1 hg2
        cases p with
        | none => exact hre false s' hg1
        | some p =>
          have hpe := hg2 p rfl
          simp only
          cases ha2 : o.a2 with
          | ok => simp [Good, execOn, hpe, exec, hg1]
          | failed a b c d =>
            rw [ha2] at h2
            have he := execOn_honest h2 (by simp) p stmt s'
            simp only [he]
            exact (hre false s' hg1).cons _
  unfold tough
  split
  · exact hha s.tx s hp
  · cases ha1 : o.a1 with
    | ok => simp [Good, execOn, hc, exec, hp]
    | failed a b c d =>
      rw [ha1] at h1
      have he := execOn_honest h1 (by simp) s.cur stmt s
      cases a with
      | false => simp [he, Good, hp]
      | true =>
        simp only [he]
        exact (hha s.tx s hp).cons _

example : Good 7 (tough 0 ⟨.failed true true false false, .failure, true, true, .failed true true false false, true, true, .ok⟩ 7 {}) ∧
    (tough 0 ⟨.failed true true false false, .failure, true, true, .failed true true false false, true, true, .ok⟩ 7 {}).2.2.length = 3 :=
  ⟨C39_exactly_once_partial _ _ _ (by simp [Honest]) (by simp [Honest]) (by simp [Honest]) rfl rfl _, by decide⟩

/-- A transaction opened with `begin` and reported as executed and committed was committed whole, once and in order, whatever the driver
did in between. -/
theorem C39_transaction_partial (m : Nat) (l : List (Nat × Oracle)) (s s' : St) (hc : s.cur = s.phys) (hp : s.pending = [])
    (h : runAll m l (begin_ s) = (s', true)) (done create : Bool) :
    (commit true done create s').1.committed = s.committed ++ l.map Prod.fst := by
  have key : ∀ (l : List (Nat × Oracle)) (s s' : St), s.tx = true → s.cur = s.phys → runAll m l s = (s', true) →
      s'.committed = s.committed ∧ s'.pending = s.pending ++ l.map Prod.fst := by
    intro l
    induction l with
    | nil =>
      intro s s' _ _ h
      simp only [runAll, Prod.mk.injEq, and_true] at h
      subst h
      simp
    | cons a l ih =>
      obtain ⟨stmt, o⟩ := a
      intro s s' ht hcu h
      have h1 := C39_once_in_transaction m o stmt s ht
      unfold runAll at h
      by_cases ha : o.a1 = .ok
      · have ht1 : tough m o stmt s = ({ execOn s.cur .ok stmt s with usage := s.usage + 1 }, .ok, [⟨s.cur, true⟩]) := by
          unfold tough
          rw [if_neg (by rw [ht]; simp), ha]
        rw [ht1] at h
        simp only at h
        obtain ⟨k1, k2⟩ := ih _ _ (by simp [execOn, hcu, ht]) (by simp [execOn, hcu]) h
        rw [k1, k2]
        simp [execOn, hcu, exec]
      · rw [if_neg ha] at h1
        cases htg : tough m o stmt s with
        | mk s1 r =>
          rw [htg] at h1 h
          simp only at h1
          subst h1
          simp at h
  obtain ⟨k1, k2⟩ := key l (begin_ s) s' rfl hc h
  simp [commit, k1, k2, begin_, hp]

example : ∃ s', runAll 0 [(7, ⟨.ok, .ok, true, true, .ok, true, true, .ok⟩), (8, ⟨.ok, .ok, true, true, .ok, true, true, .ok⟩)] (begin_ {}) = (s', true) ∧
    (commit true true true s').1.committed = [7, 8] := ⟨_, rfl, by decide⟩

/-- Without `begin` — the application never calls it — an earlier statement that is not yet committed is lost without an error when the
connection is replaced: both statements and the commit report success, and only the second one is stored. -/
theorem C39_fails_pending_lost (a b : Nat) :
    ∃ (o1 o2 : Oracle) (s' : St), runAll 0 [(a, o1), (b, o2)] {} = (s', true) ∧ (commit true true true s').2 = true ∧ (commit true true true s').1.committed = [b] :=
  ⟨⟨.ok, .ok, true, true, .ok, true, true, .ok⟩,
    ⟨.failed true true false true, .failure, true, true, .ok, true, true, .ok⟩, _, rfl, rfl, rfl⟩

/-- So it is with a deadlock, where the server rolls the transaction back and the connection stays usable. -/
theorem C39_fails_deadlock (a b : Nat) :
    ∃ (o1 o2 : Oracle) (s' : St), runAll 0 [(a, o1), (b, o2)] {} = (s', true) ∧ s'.phys = 0 ∧ (commit true true true s').1.committed = [b] :=
  ⟨⟨.ok, .ok, true, true, .ok, true, true, .ok⟩, ⟨.failed true true false true, .ok, true, true, .ok, true, true, .ok⟩, _, rfl, rfl, rfl⟩

/-- A statement that took effect though the driver reported a failure is executed again: one call stores the row twice. -/
theorem C39_fails_executed_twice (a : Nat) :
    ∃ (o : Oracle) (s' : St), runAll 0 [(a, o)] {} = (s', true) ∧ (commit true true true s').1.committed = [a, a] :=
  ⟨⟨.failed true true true false, .ok, true, true, .ok, true, true, .ok⟩, _, rfl, rfl⟩

/-- With a usage limit, every pending statement is dropped when the limit is reached, without any failure of the server. -/
theorem C39_fails_maxusage (m stmt : Nat) (hm : m ≠ 0) (o : Oracle) (ha : o.a2 = .ok) (hc : o.cCreate = true) (hcu : o.cCursor = true) (s : St)
    (hu : m ≤ s.usage) (ht : s.tx = false) : (tough m o stmt s).2.1 = .ok ∧ (tough m o stmt s).1.pending = [stmt] := by
  unfold tough
  rw [if_pos ⟨hm, hu, ht⟩]
  simp only [handle, ht, Bool.false_eq_true, if_false, getCursor]
  simp [hm, hu, hc, hcu, ha, store, execOn, exec]

/-- In a transaction, if the connection cannot be replaced, `self._transaction = False` (line 686) is set on the cursor, not the connection: the
connection keeps refusing to reconnect. -/
theorem C39_fails_stays_in_transaction (m stmt : Nat) (o : Oracle) (s : St) (ht : s.tx = true) {a b c : Bool} (ha : o.a1 = .failed true a b c)
    (hc : o.create = false) : (tough m o stmt s).1.tx = true := by
  unfold tough
  rw [if_neg (by rw [ht]; simp), ha]
  simp only [handle, ht, if_true, reopen, hc, Bool.false_eq_true, false_and, if_false]
  unfold execOn
  split <;> simp [ht]

end EulerDB.Steady
