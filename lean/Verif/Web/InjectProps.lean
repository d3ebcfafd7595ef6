import Verif.Web.Inject

/-! # C33: concurrent requests and the shared record of the last statement -/

namespace EulerDB.Web

open EulerDB EulerDB.Delta EulerDB.Clause

theorem runActs_append (e : Env) (s : Sys) (a b : List Act) : runActs e s (a ++ b) = runActs e (runActs e s a) b := by simp [runActs]

theorem own_stable (e : Env) (i : Nat) (l : List Act) (s : Sys) (h : s.own i = some (e.rw i)) : (runActs e s l).own i = some (e.rw i) := by
  induction l generalizing s with
  | nil => exact h
  | cons a l ih =>
    refine ih (act e s a) ?_
    cases a with
    | rewrite j =>
      by_cases hj : i = j
      · simp [act, hj]
      · simp [act, hj, h]
    | inject j =>
      simp only [act]
      split <;> exact h

theorem own_of_rewrite (e : Env) (i : Nat) (l : List Act) (s : Sys) (h : .rewrite i ∈ l) : (runActs e s l).own i = some (e.rw i) := by
  obtain ⟨a, b, rfl⟩ := List.append_of_mem h
  rw [runActs_append]
  change (runActs e (act e (runActs e s a) (.rewrite i)) b).own i = _
  exact own_stable e i b _ (by simp [act])

theorem shared_stable (e : Env) (l : List Act) (s : Sys) (h : ∀ j q t, .rewrite j ∈ l → e.rw j = .ok (q, t) → s.shared = some q) :
    (runActs e s l).shared = s.shared := by
  induction l generalizing s with
  | nil => rfl
  | cons a l ih =>
    have h1 : (act e s a).shared = s.shared := by
      cases a with
      | rewrite j =>
        simp only [act]
        split
        · rename_i q t hq
          exact (h j q t (by simp) hq).symm
        · rfl
      | inject j =>
        simp only [act]
        split <;> rfl
    rw [← h1]
    exact ih (act e s a) (fun j q t hj hq => by rw [h1]; exact h j q t (by simp [hj]) hq)

theorem sent_stable (e : Env) (i : Nat) (l : List Act) (s : Sys) (h : .inject i ∉ l) : (runActs e s l).sent i = s.sent i := by
  induction l generalizing s with
  | nil => rfl
  | cons a l ih =>
    have h1 : (act e s a).sent i = s.sent i := by
      cases a with
      | rewrite j => rfl
      | inject j =>
        have hj : i ≠ j := by rintro rfl; simp at h
        simp only [act]
        split
        · simp [hj]
        · rfl
    rw [← h1]
    exact ih (act e s a) (fun hx => h (by simp [hx]))

/-- What a request sends, at the point where it injects. -/
theorem sent_at (e : Env) (i : Nat) (l r : List Act) (hr : .inject i ∉ r) (hi : .rewrite i ∈ l) :
    (runActs e {} (l ++ .inject i :: r)).sent i =
      match e.rw i with
      | .ok (q, t) => some (inject e.fmt e.parse e.cls (runActs e {} l).shared t (e.fmt q))
      | .error _ => (runActs e {} l).sent i := by
  rw [runActs_append]
  change (runActs e (act e (runActs e {} l) (.inject i)) r).sent i = _
  rw [sent_stable e i r _ hr]
  have := own_of_rewrite e i l {} hi
  simp only [act]
  rw [this]
  cases e.rw i with
  | error => rfl
  | ok x => simp

theorem alone_eq (e : Env) (i : Nat) (q : Dict String Json) (t : Json) (h : e.rw i = .ok (q, t)) :
    alone e i = some (inject e.fmt e.parse e.cls (some q) t (e.fmt q)) := by
  have := sent_at e i [.rewrite i] [] (by simp) (by simp)
  rw [h] at this
  unfold alone
  rw [show [Act.rewrite i, Act.inject i] = [.rewrite i] ++ .inject i :: [] from rfl, this]
  simp [runActs, act, h]

/-- If no other request finishes a rewriting between the two steps of a request, the request sends what it sends when it runs alone, whatever else
happens before, in between and afterwards. -/
theorem C33_own_query_partial (e : Env) (i : Nat) (l₁ l₂ l₃ : List Act) (q : Dict String Json) (t : Json) (hq : e.rw i = .ok (q, t))
    (h₂ : ∀ j, .rewrite j ∈ l₂ → j = i ∨ ∃ x, e.rw j = .error x) (h₃ : .inject i ∉ l₃) :
    (runActs e {} (l₁ ++ .rewrite i :: (l₂ ++ .inject i :: l₃))).sent i = alone e i := by
  rw [show l₁ ++ Act.rewrite i :: (l₂ ++ .inject i :: l₃) = (l₁ ++ .rewrite i :: l₂) ++ .inject i :: l₃ by simp,
    sent_at e i _ l₃ h₃ (by simp), hq, alone_eq e i q t hq]
  simp only
  have : (runActs e {} (l₁ ++ .rewrite i :: l₂)).shared = some q := by
    rw [runActs_append]
    change (runActs e (act e (runActs e {} l₁) (.rewrite i)) l₂).shared = _
    have hs : (act e (runActs e {} l₁) (.rewrite i)).shared = some q := by simp [act, hq]
    rw [← hs]
    refine shared_stable e l₂ _ fun j q' t' hj hq' => ?_
    rw [hs]
    rcases h₂ j hj with rfl | ⟨x, hx⟩
    · rw [hq] at hq'; injection hq' with hq'; injection hq' with hq' _; rw [hq']
    · rw [hx] at hq'; cases hq'
  rw [this]

/-- A request without " SUM(" and " AVG(" sends its own rewritten query in every schedule. -/
theorem C33_no_aggregate (e : Env) (i : Nat) (l r : List Act) (q : Dict String Json) (t : Json) (hq : e.rw i = .ok (q, t)) (hr : .inject i ∉ r)
    (hi : .rewrite i ∈ l) (ha : aggregate (e.fmt q) = false) : (runActs e {} (l ++ .inject i :: r)).sent i = some (.ok ⟨[], none, e.fmt q⟩) := by
  rw [sent_at e i l r hr hi, hq]
  simp [inject, ha]

/-- Requests do not touch what others have sent: in every schedule, what is sent for `i` is determined at its own step. -/
theorem C33_sent_stable (e : Env) (i : Nat) (l r : List Act) (hr : .inject i ∉ r) : (runActs e {} (l ++ r)).sent i = (runActs e {} l).sent i := by
  rw [runActs_append, sent_stable e i r _ hr]

/-- What the record makes a request send does not depend on its own query, once that has an aggregate and the record has aggregates over encrypted columns. -/
theorem inject_foreign (fmt : Dict String Json → List Char) (parse : List Char → Except PyErr (Dict String Json)) (cls : Db) (q : Dict String Json) (t : Json)
    (enc enc' : List Char) (hq : q ≠ []) (h : aggregate enc = true) (h' : aggregate enc' = true) (x : Sent)
    (hx : inject fmt parse cls (some q) t enc' = .ok x) (hn : x.setup ≠ []) : inject fmt parse cls (some q) t enc = .ok x := by
  cases q with
  | nil => exact absurd rfl hq
  | cons a q =>
    unfold inject at hx ⊢
    rw [if_pos h'] at hx
    rw [if_pos h]
    simp only at hx ⊢
    split at hx
    · cases hx
    · split at hx
      · cases hx
      · split at hx
        · cases hx
        · split at hx
          · injection hx with hx; subst hx; exact absurd rfl hn
          · rename_i hb
            rw [if_neg hb]
            exact hx

/-- The property fails whenever two aggregate queries over encrypted columns of one table interleave: the first one sends the statement of the second. -/
theorem C33_fails_exchanged (e : Env) (i j : Nat) (hij : i ≠ j) (qi qj : Dict String Json) (t : Json) (hi : e.rw i = .ok (qi, t)) (hj : e.rw j = .ok (qj, t))
    (ai : aggregate (e.fmt qi) = true) (aj : aggregate (e.fmt qj) = true) (hne : qj ≠ []) (x : Sent) (hx : alone e j = some (.ok x)) (hn : x.setup ≠ []) :
    (runActs e {} [.rewrite i, .rewrite j, .inject i, .inject j]).sent i = alone e j := by
  have h := sent_at e i [.rewrite i, .rewrite j] [.inject j] (by simp [hij]) (by simp)
  rw [show [Act.rewrite i, .rewrite j, .inject i, .inject j] = [.rewrite i, .rewrite j] ++ .inject i :: [.inject j] from rfl, h, hi]
  have hs : (runActs e {} [.rewrite i, .rewrite j]).shared = some qj := by simp [runActs, act, hj]
  rw [hs, hx]
  rw [alone_eq e j qj t hj] at hx
  simp only [Option.some.injEq] at hx ⊢
  exact inject_foreign e.fmt e.parse e.cls qj t (e.fmt qi) (e.fmt qj) hne ai aj x hx hn

/-- It fails with an error when the statement in between is no SELECT. -/
theorem C33_fails_error (e : Env) (i j : Nat) (qi qj : Dict String Json) (ti tj : Json) (hi : e.rw i = .ok (qi, ti)) (hj : e.rw j = .ok (qj, tj))
    (ai : aggregate (e.fmt qi) = true) (hne : qj ≠ []) (hs : Dict.get? qj "select" = none) :
    (runActs e {} [.rewrite i, .rewrite j, .inject i]).sent i = some (.error .keyError) := by
  have h := sent_at e i [.rewrite i, .rewrite j] [] (by simp) (by simp)
  rw [show [Act.rewrite i, .rewrite j, .inject i] = [.rewrite i, .rewrite j] ++ .inject i :: [] from rfl, h, hi]
  have hsh : (runActs e {} [.rewrite i, .rewrite j]).shared = some qj := by simp [runActs, act, hj]
  rw [hsh]
  cases qj with
  | nil => exact absurd rfl hne
  | cons a q =>
    simp only [inject, ai, if_true, selectItems]
    rw [Dict.get?_erase_ne _ (by decide), hs]

/-! ### A concrete run -/

/-- Formatting of `select f(c) from t`. -/
def demoFmt (q : Dict String Json) : List Char :=
  match Dict.get? q "select" with
  | some (.dict [("value", .dict [(f, .str c)])]) => (if f = "sum" then "SELECT SUM(".toList else "SELECT COUNT(".toList) ++ c.toList ++ ") FROM t".toList
  | _ => "SELECT".toList

def demoHom : TableMeta ColMeta :=
  ⟨"t", [("x", ⟨false, "int", "k", [("arithmetic", "xh")], some (3, 5), none, none⟩), ("y", ⟨false, "int", "k", [("arithmetic", "yh")], some (5, 7), none, none⟩)], none⟩

def demoQuery (f c : String) : Dict String Json := [("select", .dict [("value", .dict [(f, .str c)])]), ("from", .str "emp")]

/-- Four requests: sum over x, sum over y, an INSERT (as far as it matters here) and a count. -/
def demoEnv : Env :=
  ⟨demoFmt, fun _ => .error .generic, [("emp", demoHom)], fun i =>
    if i = 0 then .ok (demoQuery "sum" "xh", .str "emp") else if i = 1 then .ok (demoQuery "sum" "yh", .str "emp")
    else if i = 2 then .ok ([("insert", .str "emp")], .str "emp") else .ok (demoQuery "count" "*", .str "emp")⟩

theorem demo_sub : aggregate (demoFmt (demoQuery "sum" "xh")) = true ∧ aggregate (demoFmt (demoQuery "sum" "yh")) = true ∧
    aggregate (demoFmt (demoQuery "count" "*")) = false := by
  simp [aggregate, demoFmt, demoQuery, isSub, Dict.get?, List.isPrefixOf]

theorem demo_alone0 : alone demoEnv 0 = some (.ok ⟨[("xh", 225)], some ['t'], "SELECT @sumxh FROM t limit 1".toList⟩) := by
  rw [alone_eq demoEnv 0 (demoQuery "sum" "xh") (.str "emp") rfl]
  simp [inject, demoEnv, demoQuery, demoFmt, aggregate, isSub, Dict.get?, Dict.erase, selectItems, pyItem, Dict.getItem, tableOfJson, tableOf, homDict, demoHom,
    features, feature, Dict.set, lastPart, splitDot, Text.split, afterFrom, modifySum, replaceGo, underscored]

theorem demo_alone1 : alone demoEnv 1 = some (.ok ⟨[("yh", 1225)], some ['t'], "SELECT @sumyh FROM t limit 1".toList⟩) := by
  rw [alone_eq demoEnv 1 (demoQuery "sum" "yh") (.str "emp") rfl]
  simp [inject, demoEnv, demoQuery, demoFmt, aggregate, isSub, Dict.get?, Dict.erase, selectItems, pyItem, Dict.getItem, tableOfJson, tableOf, homDict, demoHom,
    features, feature, Dict.set, lastPart, splitDot, Text.split, afterFrom, modifySum, replaceGo, underscored]

/-- Alone, request 0 sums x; when request 1 rewrites in between, request 0 sums y; when the INSERT does, it raises. -/
example : (∃ x, alone demoEnv 0 = some (.ok x) ∧ x.text = "SELECT @sumxh FROM t limit 1".toList) ∧
    (∃ x, (runActs demoEnv {} [.rewrite 0, .rewrite 1, .inject 0, .inject 1]).sent 0 = some (.ok x) ∧ x.text = "SELECT @sumyh FROM t limit 1".toList) ∧
    (runActs demoEnv {} [.rewrite 0, .rewrite 2, .inject 0]).sent 0 = some (.error .keyError) ∧
    (runActs demoEnv {} ([.rewrite 3, .rewrite 0] ++ .inject 3 :: [])).sent 3 = some (.ok ⟨[], none, "SELECT COUNT(*) FROM t".toList⟩) := by
  refine ⟨⟨_, demo_alone0, rfl⟩, ⟨⟨[("yh", 1225)], some ['t'], "SELECT @sumyh FROM t limit 1".toList⟩, ?_, rfl⟩, ?_, ?_⟩
  · exact (C33_fails_exchanged demoEnv 0 1 (by decide) _ _ _ rfl rfl demo_sub.1 demo_sub.2.1 (by simp [demoQuery]) _ demo_alone1 (by simp)).trans demo_alone1
  · exact C33_fails_error demoEnv 0 2 _ _ _ _ rfl rfl demo_sub.1 (by simp) (by simp [Dict.get?])
  · rw [C33_no_aggregate demoEnv 3 _ _ (demoQuery "count" "*") (.str "emp") rfl (by simp) (by simp) demo_sub.2.2]
    simp [demoEnv, demoFmt, demoQuery, Dict.get?]

end EulerDB.Web
