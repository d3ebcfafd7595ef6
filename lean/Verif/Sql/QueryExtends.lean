/-
C86: the parser of queries agrees with the parser of Parser.lean where that one has an answer; queries that are not read as what they spell.
-/
import Verif.Sql.QueryProps

namespace EulerDB.Sql

open EulerDB EulerDB.Parse

/-! ### The parser of Parser.lean -/

theorem anyKw_none {ws : List String} {s : List Char} (h : anyKw ws s = false) {w : String} (hw : w ∈ ws) : kw w s = none := by
  simp only [anyKw, List.any_eq_false] at h
  simpa using h w hw

theorem anyKw_sub {ws vs : List String} {s : List Char} (h : anyKw ws s = false) (hv : ∀ v ∈ vs, v ∈ ws) : anyKw vs s = false := by
  simp only [anyKw, List.any_eq_false]
  intro v hm
  simp [anyKw_none h (hv v hm)]

theorem kws_none {w : String} {ws : List String} {s : List Char} (h : kw w s = none) : kws (w :: ws) s = none := by rw [kws, h]

theorem rest_quiet {env : Env} {ex : List Char → R V} {r : List Char} (h : anyKw queryWords r = false) :
    anyKw ["union", "intersect", "except", "minus"] r = false ∧ groupOpt ex r = .ok [] r ∧ havingOpt ex r = .ok [] r ∧ orderOpt ex r = .ok [] r ∧
      limitsFrom env ex 3 none none r = .ok (none, none) r := by
  refine ⟨anyKw_sub h (by decide), ?_, ?_, ?_, ?_⟩
  · rw [groupOpt, kws_none (anyKw_none h (by decide))]
  · rw [havingOpt, anyKw_none h (by decide)]
  · rw [orderOpt, kws_none (anyKw_none h (by decide))]
  · rw [limitsFrom, anyKw_sub h (by decide), anyKw_none h (by decide), anyKw_none h (by decide)]
    simp

theorem no_joins {ex : List Char → R V} {r : List Char} (h : anyKw joinWords r = false) (n : Nat) : joinsFrom ex n r = .ok [] r := by
  cases n with
  | zero => rfl
  | succ n =>
    have e : joinHead r = none := by
      rw [joinHead, List.findSome?_eq_none_iff]
      intro vs hvs
      have : ∀ vs ∈ joinForms, ∃ v ∈ vs.head?, v ∈ joinWords := by decide
      obtain ⟨v, h1, h2⟩ := this vs hvs
      obtain ⟨w, ws, rfl⟩ := List.exists_cons_of_ne_nil (join_forms vs hvs).2.1
      simp only [List.head?_cons, Option.mem_def, Option.some.injEq] at h1
      subst h1
      rw [kws_none (anyKw_none h h2)]
      rfl
    have : joinOne ex r = .fail := by
      rw [joinOne, anyKw_sub h (by decide), e]
      rfl
    rw [joinsFrom, this]

theorem select_extends (env : Env) (ex : List Char → R V) (s : List Char) (h : selectStmt ex s ≠ .unmod) : queryStmt env ex s = selectStmt ex s := by
  rw [selectStmt] at h ⊢
  rw [queryStmt]
  cases hs : kw "select" s with
  | none => rfl
  | some r =>
    simp only [hs] at h ⊢
    cases hd : anyKw ["distinct", "top"] r with
    | true => simp [hd] at h
    | false =>
      simp only [hd, Bool.false_eq_true, if_false] at h ⊢
      have h1 : kw "distinct" r = none := anyKw_none hd (by decide)
      have h2 : anyKw ["top"] r = false := anyKw_sub hd (by decide)
      rw [selection, h1]
      simp only [h2, Bool.false_eq_true, if_false]
      cases hc : listOf (selectColumn ex) r with
      | fail => rfl
      | crash => rfl
      | unmod => rfl
      | ok cols r1 =>
        simp only [hc, R.next] at h ⊢
        rw [fromOpt]
        cases hf : kw "from" r1 with
        | none =>
          simp only [hf] at h ⊢
          cases hq : anyKw queryWords r1 with
          | true => simp [hq] at h
          | false =>
            obtain ⟨g1, g2, g3, g4, g5⟩ := rest_quiet (env := env) (ex := ex) hq
            simp only [g1, Bool.false_eq_true, if_false, g4, g5]
            rfl
        | some r2 =>
          simp only [hf] at h ⊢
          cases ht : listOf tableSource r2 with
          | fail =>
            simp only [ht] at h ⊢
            cases hq : anyKw queryWords r1 with
            | true => simp [hq] at h
            | false =>
              obtain ⟨g1, g2, g3, g4, g5⟩ := rest_quiet (env := env) (ex := ex) hq
              simp only [g1, Bool.false_eq_true, if_false, g4, g5]
              rfl
          | crash => rfl
          | unmod => rfl
          | ok ts r3 =>
            simp only [ht] at h ⊢
            cases hj : anyKw joinWords r3 with
            | true => simp [hj] at h
            | false =>
              simp only [hj, Bool.false_eq_true, if_false, no_joins hj, R.next] at h ⊢
              cases hw : whereOpt ex r3 with
              | fail => simp only
              | crash => simp only
              | unmod => simp only
              | ok w r4 =>
                simp only [hw] at h ⊢
                cases hq : anyKw queryWords r4 with
                | true => simp [hq] at h
                | false =>
                  obtain ⟨g1, g2, g3, g4, g5⟩ := rest_quiet (env := env) (ex := ex) hq
                  simp only [g1, g2, g3, Bool.false_eq_true, if_false, g4, g5, List.append_nil, optEntry]

/-- **C86**: where Parser.lean has an answer, the answer is the same with all of a query. -/
theorem C86_extends (env : Env) (space : Char → Bool) (sql : List Char) (h : parse env space sql ≠ .unmodelled) : parseQ env space sql = parse env space sql := by
  have key : statementQ env (rstrip (· == ';') (rstrip space sql)) = statement env (rstrip (· == ';') (rstrip space sql)) := by
    rw [parse] at h
    generalize rstrip (· == ';') (rstrip space sql) = s at h
    have hs : statement env s ≠ .unmod := by
      intro e
      rw [e] at h
      exact h rfl
    rw [statementQ]
    split
    · rename_i hc
      rw [statement, if_pos hc]
    · rename_i hc
      split
      · rename_i hsel
        rw [statement, if_neg hc, if_pos hsel] at hs ⊢
        exact select_extends env _ _ hs
      · rfl
  rw [parseQ, parse, key]
  cases statement env (rstrip (· == ';') (rstrip space sql)) <;> rfl

/-- So statements without further clauses are read as C70 says. -/
theorem C86_select_partial (env : Env) (space : Char → Bool) {sql s : List Char} {cols tables : List Json} {w : Option V} (ht : Trimmed space sql s)
    (h : SpSelect env s cols tables w) :
    parseQ env space sql = .json (.dict (("select", listJson cols) :: ("from", listJson tables) :: whereJson w)) := by
  have := C70_select_partial env space ht h
  rw [C86_extends env space sql (by rw [this]; exact fun e => by cases e), this]

/-! ### Queries that are not read -/

theorem parseQ_left {env : Env} {space : Char → Bool} {sql s r : List Char} (h : Trimmed space sql s) (hs : ∃ j, statementQ env s = .ok j r)
    (hr : skip r ≠ []) : parseQ env space sql = .rejected := by
  obtain ⟨j, hs⟩ := hs
  rw [parseQ, h.strip, hs]
  simp [atEnd, hr]

/-- Keywords with something else than whitespace between them. -/
theorem kws_broken {w v : String} {x a u : List Char} {c : Char} (hw : Wordy w.toList) (hne : w.toList ≠ []) (hv : Wordy v.toList) (hvn : v.toList ≠ [])
    (hk : Kw w x (a ++ c :: u)) (ha : ∀ c ∈ a, white c = true) (hc : keyChar c = false) (hcw : white c = false) : kws [w, v] x = none := by
  have e : skipWhite (a ++ c :: u) = c :: u := by
    rw [skipWhite, List.dropWhile_append_of_pos ha, List.dropWhile_cons_of_neg (by simp [hcw])]
  obtain ⟨d, l, hd⟩ := List.exists_cons_of_ne_nil hvn
  have hdc : c.toLower ≠ d := by
    intro hx
    have h1 := hv d (by rw [hd]; simp)
    rcases toLower_cases c with h | h
    · rw [h] at hx; rw [hx, h1] at hc; cases hc
    · have : keyChar c = true := by simp [keyChar, Char.isAlphanum, Char.isAlpha, h]
      rw [this] at hc; cases hc
  rw [kws, hk.read hw hne]
  simp only [kwsTail, e]
  rw [hd, kwAt]
  simp [hdc]

/-- **C86 fails** for a comment between ORDER and BY: the query is rejected. -/
theorem C86_fails_comment (env : Env) (space : Char → Bool) {sql s x a u : List Char} {d : Edge} {p : Parts} (ht : Trimmed space sql s) (h : SpHead env s p d x)
    (hs : Sep d x) (hk : Kw "order" x (a ++ '/' :: '*' :: u)) (ha : ∀ c ∈ a, white c = true) : parseQ env space sql = .rejected := by
  have hst : Starts ["order", "limit"] d x := .inr ⟨hs, "order", by simp, _, hk⟩
  have ho : orderOpt (expr env (s.length + 1)) x = .ok [] x := by
    rw [orderOpt, kws_broken (by decide) (by decide) (by decide) (by decide) hk ha (by decide) (by decide)]
  have hf : anyKw ["fetch"] x = false := hk.other (by decide) (by decide) (by decide)
  have h1 : kw "offset" x = none := anyKw_none (ws := ["offset"]) (hk.other (by decide) (by decide) (by decide)) (by simp)
  have h2 : kw "limit" x = none := anyKw_none (ws := ["limit"]) (hk.other (by decide) (by decide) (by decide)) (by simp)
  have hl : limitsFrom env (expr env (s.length + 1)) 3 none none x = .ok (none, none) x := by
    rw [limitsFrom, hf, h1, h2]
    simp
  have hne : skip x ≠ [] := by
    intro hx
    have := hk.read (w := "order") (by decide) (by decide)
    rw [kw, hx] at this
    cases this
  refine parseQ_left ht (r := x) ?_ hne
  rw [h.read hst, afterHead, ho]
  simp only [R.next, hl]
  exact ⟨_, rfl⟩

end EulerDB.Sql
