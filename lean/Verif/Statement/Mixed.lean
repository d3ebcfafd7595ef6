/-
A comma next to a join: the text written for such a FROM has no comma outside of parentheses, so
that whatever MySQL makes of it, it reads one table (with its joins) and never the query that was
meant.
-/
import Verif.Statement.Deep

namespace EulerDB.Statement

open EulerDB EulerDB.Clause

/-- Balanced parentheses; outside of them only keywords in `K`, and no comma unless `C`. -/
inductive Bal : Prop → (String → Prop) → List Tok → Prop
  | nil {C K} : Bal C K []
  | leaf {C K u} (s : String) : Bal C K u → Bal C K (.leaf s :: u)
  | kw {C : Prop} {K : String → Prop} {u} (k : String) : K k → Bal C K u → Bal C K (.kw k :: u)
  | comma {C : Prop} {K u} : C → Bal C K u → Bal C K (.comma :: u)
  | group {C K u v} : Bal True (fun _ => True) u → Bal C K v → Bal C K (.lp :: (u ++ .rp :: v))

theorem Bal.append {C : Prop} {K : String → Prop} {u v : List Tok} (h : Bal C K u) (hv : Bal C K v) : Bal C K (u ++ v) := by
  induction h with
  | nil => exact hv
  | leaf s _ ih => exact .leaf s (ih hv)
  | kw k hk _ ih => exact .kw k hk (ih hv)
  | comma hc _ ih => exact .comma hc (ih hv)
  | @group C K u v h1 _ _ ih2 =>
    have := Bal.group (C := C) h1 (ih2 hv)
    simpa using this

theorem Bal.mono {C D : Prop} {K M : String → Prop} {u : List Tok} (h : Bal C K u) (hC : C → D) (hK : ∀ k, K k → M k) : Bal D M u := by
  induction h with
  | nil => exact .nil
  | leaf s _ ih => exact .leaf s (ih hC hK)
  | kw k hk _ ih => exact .kw k (hK k hk) (ih hC hK)
  | comma hc _ ih => exact .comma (hC hc) (ih hC hK)
  | group h1 _ _ ih2 => exact .group h1 (ih2 hC hK)

/-! ### What the readers take is balanced -/

/-- What the reader takes off the text is balanced. -/
def Takes {β : Type} (C : Prop) (K : String → Prop) (p : Parser β) : Prop :=
  ∀ t b r, p t = some (b, r) → ∃ u, Bal C K u ∧ t = u ++ r

section
variable {C : Prop} {K : String → Prop}

theorem takes_leaf : Takes C K rLeaf := by
  intro t b r h
  unfold rLeaf at h
  split at h
  · simp only [Option.some.injEq, Prod.mk.injEq] at h
    obtain ⟨_, rfl⟩ := h
    exact ⟨[.leaf _], .leaf _ .nil, rfl⟩
  · cases h

theorem takes_alias (hK : K "AS") (t : List Tok) : ∃ u, Bal C K u ∧ t = u ++ (rAlias t).2 := by
  unfold rAlias
  split
  · exact ⟨[.kw "AS", .leaf _], .kw _ hK (.leaf _ .nil), rfl⟩
  · exact ⟨[.leaf _], .leaf _ .nil, rfl⟩
  · exact ⟨[], .nil, rfl⟩

theorem takes_sepBy {β : Type} {p : Parser β} (hp : Takes C K p) (hC : C) : ∀ n, Takes C K (sepBy p n) := by
  intro n
  induction n with
  | zero => intro t b r h; cases h
  | succ n ih =>
    intro t b r h
    unfold sepBy at h
    split at h
    · cases h
    · rename_i b' r' hb
      obtain ⟨u, hu, rfl⟩ := hp _ _ _ hb
      cases hs : sepBy p n r' with
      | none => simp [hs] at h
      | some q =>
        simp only [hs, Option.map_some, Option.some.injEq, Prod.mk.injEq] at h
        obtain ⟨_, rfl⟩ := h
        obtain ⟨v, hv, rfl⟩ := ih _ _ _ hs
        exact ⟨u ++ .comma :: v, hu.append (.comma hC hv), by simp⟩
    · rename_i b' r' _ hb
      simp only [Option.some.injEq, Prod.mk.injEq] at h
      obtain ⟨_, rfl⟩ := h
      exact hp _ _ _ hb

theorem takes_list {β : Type} {p : Parser β} (hp : Takes C K p) (hC : C) : Takes C K (rList p) := fun t => takes_sepBy hp hC t.length t

theorem takes_item (hK : K "AS") : Takes C K rItem := by
  intro t b r h
  unfold rItem at h
  cases hl : rLeaf t with
  | none => simp [hl] at h
  | some q =>
    simp only [hl, Option.map_some, Option.some.injEq, Prod.mk.injEq] at h
    obtain ⟨_, rfl⟩ := h
    obtain ⟨u, hu, rfl⟩ := takes_leaf (C := C) (K := K) _ _ _ hl
    obtain ⟨v, hv, h2⟩ := takes_alias (C := C) hK q.2
    exact ⟨u ++ v, hu.append hv, by rw [List.append_assoc, ← h2]⟩

variable {σ : Type} {sub : Parser σ}

theorem takes_src (hs : Takes True (fun _ => True) sub) (hK : K "AS") : Takes C K (rSrc sub) := by
  intro t b r h
  unfold rSrc at h
  split at h
  · rename_i s r'
    simp only [Option.some.injEq, Prod.mk.injEq] at h
    obtain ⟨_, rfl⟩ := h
    obtain ⟨v, hv, h2⟩ := takes_alias (C := C) hK r'
    exact ⟨.leaf s :: v, .leaf _ hv, by rw [List.cons_append, ← h2]⟩
  · rename_i r'
    split at h
    · rename_i q r2 hq
      simp only [Option.some.injEq, Prod.mk.injEq] at h
      obtain ⟨_, rfl⟩ := h
      obtain ⟨u, hu, rfl⟩ := hs _ _ _ hq
      obtain ⟨v, hv, h2⟩ := takes_alias (C := C) hK r2
      refine ⟨.lp :: (u ++ .rp :: v), .group hu hv, ?_⟩
      simp only [List.cons_append, List.append_assoc]
      rw [← h2]
    · cases h
  · cases h

theorem takes_cond (hK : K "ON") (hK' : K "USING") : Takes C K rCond := by
  intro t b r h
  unfold rCond at h
  split at h
  · rename_i r'
    cases hl : rLeaf r' with
    | none => simp [hl] at h
    | some q =>
      simp only [hl, Option.map_some, Option.some.injEq, Prod.mk.injEq] at h
      obtain ⟨_, rfl⟩ := h
      obtain ⟨u, hu, rfl⟩ := takes_leaf (C := C) (K := K) _ _ _ hl
      exact ⟨.kw "ON" :: u, .kw _ hK hu, rfl⟩
  · rename_i r'
    split at h
    · rename_i l r2 hl
      simp only [Option.some.injEq, Prod.mk.injEq] at h
      obtain ⟨_, rfl⟩ := h
      obtain ⟨u, hu, e⟩ := takes_sepBy (C := True) (K := fun _ => True) takes_leaf trivial _ _ _ _ hl
      refine ⟨.kw "USING" :: .lp :: (u ++ .rp :: []), .kw _ hK' (.group hu .nil), ?_⟩
      simp [e]
    · cases h
  · cases h
  · simp only [Option.some.injEq, Prod.mk.injEq] at h
    obtain ⟨_, rfl⟩ := h
    exact ⟨[], .nil, rfl⟩

theorem takes_joins (hs : Takes True (fun _ => True) sub) (hK : K "AS") (hO : K "ON") (hU : K "USING") (hJ : ∀ k ∈ mysqlJoins, K k) :
    ∀ n, Takes C K (rJoins sub n) := by
  intro n
  induction n with
  | zero => intro t b r h; cases h
  | succ n ih =>
    intro t b r h
    simp only [rJoins] at h
    split at h
    · rename_i k r'
      split at h
      · rename_i hk
        split at h
        · cases h
        · rename_i s r1 h1
          split at h
          · cases h
          · rename_i c r2 h2
            cases h3 : rJoins sub n r2 with
            | none => simp [h3] at h
            | some q =>
              simp only [h3, Option.map_some, Option.some.injEq, Prod.mk.injEq] at h
              obtain ⟨_, rfl⟩ := h
              obtain ⟨u, hu, rfl⟩ := takes_src (C := C) hs hK _ _ _ h1
              obtain ⟨v, hv, rfl⟩ := takes_cond (C := C) hO hU _ _ _ h2
              obtain ⟨w, hw, rfl⟩ := ih _ _ _ h3
              exact ⟨.kw k :: (u ++ (v ++ w)), .kw _ (hJ k hk) (hu.append (hv.append hw)), by simp⟩
      · simp only [Option.some.injEq, Prod.mk.injEq] at h
        obtain ⟨_, rfl⟩ := h
        exact ⟨[], .nil, rfl⟩
    · simp only [Option.some.injEq, Prod.mk.injEq] at h
      obtain ⟨_, rfl⟩ := h
      exact ⟨[], .nil, rfl⟩

theorem takes_table (hs : Takes True (fun _ => True) sub) (hK : K "AS") (hO : K "ON") (hU : K "USING") (hJ : ∀ k ∈ mysqlJoins, K k) :
    Takes C K (rTable sub) := by
  intro t b r h
  unfold rTable at h
  split at h
  · cases h
  · rename_i s r1 h1
    cases h3 : rJoins sub (r1.length + 1) r1 with
    | none => simp [h3] at h
    | some q =>
      simp only [h3, Option.map_some, Option.some.injEq, Prod.mk.injEq] at h
      obtain ⟨_, rfl⟩ := h
      obtain ⟨u, hu, rfl⟩ := takes_src (C := C) hs hK _ _ _ h1
      obtain ⟨w, hw, e⟩ := takes_joins (C := C) hs hK hO hU hJ _ _ _ _ h3
      exact ⟨u ++ w, hu.append hw, by rw [List.append_assoc, ← e]⟩

theorem takes_opt {β : Type} {p : Parser β} (hp : Takes C K p) (w : String) (hK : K w) (d : β) : Takes C K (rOpt w p d) := by
  intro t b r h
  unfold rOpt at h
  split at h
  · rename_i k r'
    split at h
    · rename_i e
      obtain ⟨u, hu, rfl⟩ := hp _ _ _ h
      exact ⟨.kw k :: u, .kw _ (e ▸ hK) hu, rfl⟩
    · simp only [Option.some.injEq, Prod.mk.injEq] at h
      obtain ⟨_, rfl⟩ := h
      exact ⟨[], .nil, rfl⟩
  · simp only [Option.some.injEq, Prod.mk.injEq] at h
    obtain ⟨_, rfl⟩ := h
    exact ⟨[], .nil, rfl⟩

theorem takes_some : Takes C K rSome := by
  intro t b r h
  unfold rSome at h
  cases hl : rLeaf t with
  | none => simp [hl] at h
  | some q =>
    simp only [hl, Option.map_some, Option.some.injEq, Prod.mk.injEq] at h
    obtain ⟨_, rfl⟩ := h
    exact takes_leaf _ _ _ hl

theorem takes_order (hA : K "ASC") (hD : K "DESC") : Takes C K rOrder := by
  intro t b r h
  unfold rOrder at h
  split at h <;> cases h
  · exact ⟨[.leaf _, .kw _], .leaf _ (.kw _ hA .nil), rfl⟩
  · exact ⟨[.leaf _, .kw _], .leaf _ (.kw _ hD .nil), rfl⟩
  · exact ⟨[.leaf _], .leaf _ .nil, rfl⟩

theorem takes_limit (hC : C) : Takes C K rLimit := by
  intro t b r h
  unfold rLimit at h
  split at h <;> cases h
  · exact ⟨[.leaf _, .comma, .leaf _], .leaf _ (.comma hC (.leaf _ .nil)), rfl⟩
  · exact ⟨[.leaf _], .leaf _ .nil, rfl⟩

theorem takes_offset (hK : K "OFFSET") (l : List String) : Takes C K (rOffset l) := by
  intro t b r h
  unfold rOffset at h
  split at h
  · exact takes_opt takes_some _ hK _ _ _ _ h
  · simp only [Option.some.injEq, Prod.mk.injEq] at h
    obtain ⟨_, rfl⟩ := h
    exact ⟨[], .nil, rfl⟩

theorem takes_bind {β γ : Type} {p : Parser β} (hp : Takes C K p) {f : β × List Tok → Option (γ × List Tok)}
    (hf : ∀ b, Takes C K (fun r => f (b, r))) : Takes C K (fun t => (p t).bind f) := by
  intro t c r h
  simp only [] at h
  cases hq : p t with
  | none => simp [hq] at h
  | some q =>
    simp only [hq, Option.bind_some] at h
    obtain ⟨u, hu, rfl⟩ := hp _ _ _ hq
    obtain ⟨v, hv, e⟩ := hf _ _ _ _ h
    exact ⟨u ++ v, hu.append hv, by rw [List.append_assoc, ← e]⟩

theorem takes_pure {β : Type} (b : β) : Takes C K (fun t => some (b, t)) := by
  intro t c r h
  simp only [Option.some.injEq, Prod.mk.injEq] at h
  obtain ⟨_, rfl⟩ := h
  exact ⟨[], .nil, rfl⟩

theorem takes_query (hs : Takes True (fun _ => True) sub) : Takes True (fun _ => True) (rQuery sub) := by
  intro t b r h
  unfold rQuery at h
  split at h
  · rename_i r'
    have hd : ∃ u, Bal True (fun _ => True) u ∧ r' = u ++ (rDistinct r').2 := by
      unfold rDistinct
      split
      · exact ⟨[.kw "DISTINCT"], .kw _ trivial .nil, rfl⟩
      · exact ⟨[], .nil, rfl⟩
    obtain ⟨u, hu, e⟩ := hd
    have key : ∀ distinct, Takes True (fun _ => True) (fun r => do
        let (items, r) ← rList rItem r
        let (tables, r) ← rOpt "FROM" (rList (rTable sub)) [] r
        let (cond, r) ← rOpt "WHERE" rSome none r
        let (group, r) ← rOpt "GROUP BY" (rList rLeaf) [] r
        let (having, r) ← rOpt "HAVING" rSome none r
        let (order, r) ← rOpt "ORDER BY" (rList rOrder) [] r
        let (limit, r) ← rOpt "LIMIT" rLimit [] r
        let (offset, r) ← rOffset limit r
        some (({ distinct, items, tables, cond, group, having, order, limit, offset } : Query String σ), r)) := by
      intro distinct
      refine takes_bind (C := True) (K := fun _ => True) (takes_list (takes_item (K := fun _ => True) trivial) trivial) fun items => ?_
      refine takes_bind (C := True) (K := fun _ => True) (takes_opt (takes_list (takes_table hs trivial trivial trivial fun _ _ => trivial) trivial) _ trivial _) fun tables => ?_
      refine takes_bind (C := True) (K := fun _ => True) (takes_opt takes_some _ trivial _) fun cond => ?_
      refine takes_bind (C := True) (K := fun _ => True) (takes_opt (takes_list takes_leaf trivial) _ trivial _) fun group => ?_
      refine takes_bind (C := True) (K := fun _ => True) (takes_opt takes_some _ trivial _) fun having => ?_
      refine takes_bind (C := True) (K := fun _ => True) (takes_opt (takes_list (takes_order trivial trivial) trivial) _ trivial _) fun order => ?_
      refine takes_bind (C := True) (K := fun _ => True) (takes_opt (takes_limit trivial) _ trivial _) fun limit => ?_
      refine takes_bind (C := True) (K := fun _ => True) (takes_offset trivial _) fun offset => ?_
      exact takes_pure _
    obtain ⟨v, hv, e2⟩ := key _ _ _ _ h
    refine ⟨.kw "SELECT" :: (u ++ v), .kw _ trivial (hu.append hv), ?_⟩
    have e2 : (rDistinct r').2 = v ++ r := e2
    have e3 : r' = u ++ v ++ r := e.trans (by rw [e2, List.append_assoc])
    rw [List.cons_append, ← e3]
  · cases h

end

theorem takes_deep : ∀ n, Takes True (fun _ => True) (rDeep n)
  | 0 => by intro t b r h; cases h
  | n + 1 => takes_query (takes_deep n)

/-! ### Text without a comma -/

/-- No comma outside of parentheses before the text or its clause ends (`d`: parentheses open at its beginning). -/
def flat : Nat → List Tok → Prop
  | _, [] => True
  | d, .leaf _ :: r => flat d r
  | d, .lp :: r => flat (d + 1) r
  | 0, .rp :: _ => True
  | d + 1, .rp :: r => flat d r
  | 0, .comma :: _ => False
  | d + 1, .comma :: r => flat (d + 1) r
  | 0, .kw k :: r => k ∈ afterFrom ∨ flat 0 r
  | d + 1, .kw _ :: r => flat (d + 1) r

theorem flat_cancel {C : Prop} {K : String → Prop} {u : List Tok} (h : Bal C K u) : ∀ (d : Nat), (d = 0 → ∀ k, K k → k ∉ afterFrom) →
    ∀ r, flat d (u ++ r) → flat d r := by
  induction h with
  | nil => intro d _ r h; exact h
  | leaf s _ ih => intro d hd r h; exact ih d hd r (by simpa [flat] using h)
  | kw k hk _ ih =>
    intro d hd r h
    cases d with
    | zero =>
      simp only [List.cons_append, flat] at h
      exact ih 0 hd r (h.resolve_left (hd rfl k hk))
    | succ d => exact ih _ hd r (by simpa [flat] using h)
  | comma _ _ ih =>
    intro d hd r h
    cases d with
    | zero => simp [flat] at h
    | succ d => exact ih _ hd r (by simpa [flat] using h)
  | group _ _ ih1 ih2 =>
    intro d hd r h
    simp only [List.cons_append, List.append_assoc, flat] at h
    have := ih1 (d + 1) (by simp) _ h
    exact ih2 d hd r (by simpa [flat] using this)

theorem flat_prepend {C : Prop} {K : String → Prop} {u : List Tok} (h : Bal C K u) : ∀ (d : Nat), (d = 0 → ¬ C) →
    ∀ r, flat d r → flat d (u ++ r) := by
  induction h with
  | nil => intro d _ r h; exact h
  | leaf s _ ih => intro d hd r h; simpa [flat] using ih d hd r h
  | kw k hk _ ih =>
    intro d hd r h
    cases d with
    | zero => exact .inr (ih 0 hd r h)
    | succ d => simpa [flat] using ih _ hd r h
  | comma hc _ ih =>
    intro d hd r h
    cases d with
    | zero => exact absurd hc (hd rfl)
    | succ d => simpa [flat] using ih _ hd r h
  | group _ _ ih1 ih2 =>
    intro d hd r h
    simp only [List.cons_append, List.append_assoc, flat]
    refine ih1 (d + 1) (by simp) _ ?_
    simpa [flat] using ih2 d hd r h

theorem flat_of_ends {t : List Tok} (h : Ends afterFrom t) : flat 0 t := by
  match t, h with
  | [], _ => trivial
  | .rp :: _, _ => trivial
  | .kw k :: _, h => exact .inl h

/-- Without a comma, a list has one member. -/
theorem rList_flat {β : Type} {p : Parser β} {C : Prop} {K : String → Prop} (hp : Takes C K p) (hK : ∀ k, K k → k ∉ afterFrom) {t : List Tok}
    (hf : flat 0 t) {l : List β} {r : List Tok} (h : rList p t = some (l, r)) : l.length = 1 := by
  unfold rList at h
  cases hn : t.length with
  | zero => rw [hn] at h; cases h
  | succ n =>
    rw [hn] at h
    unfold sepBy at h
    split at h
    · cases h
    · rename_i b r' hb
      obtain ⟨u, hu, rfl⟩ := hp _ _ _ hb
      have := flat_cancel hu 0 (fun _ => hK) _ hf
      simp [flat] at this
    · simp only [Option.some.injEq, Prod.mk.injEq] at h
      rw [← h.1]; rfl

/-! ### What is written is balanced -/

section
variable {C : Prop} {K : String → Prop}

theorem bal_alias (hK : K "AS") (a : Option String) : Bal C K (aliasToks a) := by
  cases a with
  | none => exact .nil
  | some a => exact .kw _ hK (.leaf _ .nil)

theorem bal_commaSep (hC : C) (l : List (List Tok)) (h : ∀ t ∈ l, Bal C K t) : Bal C K (commaSep l) := by
  induction l with
  | nil => exact .nil
  | cons a l ih =>
    by_cases hl : l = []
    · subst hl; exact h a (by simp)
    · rw [commaSep_cons _ _ hl]
      exact (h a (by simp)).append (.comma hC (ih fun t ht => h t (by simp [ht])))

variable {σ : Type} {P : σ → Prop} {st : σ → List Tok}

theorem bal_src (hs : ∀ s, P s → Bal True (fun _ => True) (st s)) (hK : K "AS") (s : Src Json σ) (h : ∀ q, s.base = .inr q → P q)
    (tx : Json → String) : Bal C K ((s.map tx id).toks st) := by
  obtain ⟨b, a⟩ := s
  cases b with
  | inl e => exact .leaf _ (bal_alias hK _)
  | inr q =>
    have := Bal.group (C := C) (K := K) (hs q (h q rfl)) (bal_alias hK (a.map tx))
    simpa [Src.toks, Src.map, parens] using this

theorem bal_cond (hO : K "ON") (hU : K "USING") (tx : Json → String) (c : JCond Json) : Bal C K (c.written tx) := by
  match c with
  | .none => exact .nil
  | .on e =>
    simp only [JCond.written]
    split
    · exact .kw _ hO (.leaf _ .nil)
    · exact .nil
  | .cols [] => exact .nil
  | .cols [c] =>
    simp only [JCond.written]
    split
    · exact .kw _ hU (.leaf _ .nil)
    · exact .nil
  | .cols (a :: b :: l) =>
    have := Bal.group (C := C) (K := K) (bal_commaSep (C := True) (K := fun _ => True) trivial ((a :: b :: l).map fun s => [.leaf (tx s)]) (by
      intro t ht
      simp only [List.mem_map] at ht
      obtain ⟨s, _, rfl⟩ := ht
      exact .leaf _ .nil)) .nil
    exact .kw _ hU this

theorem bal_table {L : Leaves} {tx : Json → String} (hs : ∀ s, P s → Bal True (fun _ => True) (st s)) (t : Src Json σ × List (Join Json σ))
    (h : t.1.Fits L tx P) (hj : ∀ j ∈ t.2, j.Fits L tx P) : Bal C (fun _ => True) (tableText tx st t) := by
  refine (bal_src hs trivial t.1 h.deep tx).append ?_
  obtain ⟨s, js⟩ := t
  induction js with
  | nil => exact .nil
  | cons j js ih =>
    rw [List.flatMap_cons]
    refine Bal.append ?_ (ih h fun j hj' => hj j (by simp [hj']))
    exact .kw _ trivial ((bal_src hs trivial _ (hj j (by simp)).src.deep tx).append (bal_cond trivial trivial tx _))

theorem bal_flatMap {α : Type} (f : α → List Tok) (l : List α) (h : ∀ a ∈ l, Bal C K (f a)) : Bal C K (l.flatMap f) := by
  induction l with
  | nil => exact .nil
  | cons a l ih =>
    rw [List.flatMap_cons]
    exact (h a (by simp)).append (ih fun a ha => h a (by simp [ha]))

theorem bal_opt (w : String) (hK : K w) (o : Option String) : Bal C K (optToks w o) := by
  cases o with
  | none => exact .nil
  | some s => exact .kw _ hK (.leaf _ .nil)

theorem bal_many (hC : C) (w : String) (hK : K w) (l : List (List Tok)) (h : ∀ t ∈ l, Bal C K t) : Bal C K (manyToks [.kw w] l) := by
  by_cases hl : l = []
  · subst hl; exact .nil
  · rw [manyToks_ne _ hl]
    exact .kw _ hK (bal_commaSep hC l h)

end

theorem bal_written {σ : Type} {P : σ → Prop} {st : σ → List Tok} {L : Leaves} {tx : Json → String}
    (hs : ∀ s, P s → Bal True (fun _ => True) (st s)) (q : Query Json σ) (h : q.Fits L tx P) : Bal True (fun _ => True) (q.written tx st) := by
  have ht : ∀ t ∈ q.tables, Bal True (fun _ => True) (tableText tx st t) := fun t ht =>
    bal_table hs t (h.tables t ht).1 (h.tables t ht).2
  have hleaf : ∀ (l : List String), ∀ t ∈ l.map (fun e => [Tok.leaf e]), Bal True (fun _ => True) t := by
    intro l t ht
    simp only [List.mem_map] at ht
    obtain ⟨s, _, rfl⟩ := ht
    exact .leaf _ .nil
  refine Bal.append ?_ (Bal.append ?_ ?_)
  · refine .kw _ trivial (Bal.append ?_ (bal_commaSep trivial _ ?_))
    · split
      · exact .kw _ trivial .nil
      · exact .nil
    · intro t ht
      simp only [List.mem_map] at ht
      obtain ⟨s, _, rfl⟩ := ht
      exact .leaf _ (bal_alias trivial _)
  · split
    · exact .nil
    · refine .kw _ trivial ?_
      unfold fromText
      split
      · exact bal_flatMap _ _ ht
      · refine bal_commaSep trivial _ ?_
        intro t h'
        simp only [List.mem_map] at h'
        obtain ⟨s, h2, rfl⟩ := h'
        exact ht s h2
  · refine (bal_opt _ trivial _).append ((bal_many trivial _ trivial _ (hleaf _)).append ((bal_opt _ trivial _).append
      ((bal_many trivial _ trivial _ ?_).append ((bal_many trivial _ trivial _ (hleaf _)).append (bal_opt _ trivial _)))))
    intro t ht
    simp only [List.mem_map] at ht
    obtain ⟨s, _, rfl⟩ := ht
    refine .leaf _ ?_
    split
    · exact .nil
    · exact .kw _ trivial .nil

theorem bal_deep {L : Leaves} {tx : Json → String} : ∀ (n : Nat) (q : Deep Json n), q.Fits L tx n → Bal True (fun _ => True) (q.written tx n)
  | 0, q, _ => nomatch q
  | n + 1, _, hq => bal_written (fun s h => bal_deep n s h) _ hq

/-- Where the reader stands after the select items. -/
theorem read_head {σ τ : Type} {sub : Parser τ} (q : Query String σ) (hi : q.items ≠ []) (t : List Tok) (ht : Ends ("FROM" :: afterFrom) t) :
    rQuery sub (q.head ++ t) = (do
      let (tables, r) ← rOpt "FROM" (rList (rTable sub)) [] t
      let (cond, r) ← rOpt "WHERE" rSome none r
      let (group, r) ← rOpt "GROUP BY" (rList rLeaf) [] r
      let (having, r) ← rOpt "HAVING" rSome none r
      let (order, r) ← rOpt "ORDER BY" (rList rOrder) [] r
      let (limit, r) ← rOpt "LIMIT" rLimit [] r
      let (offset, r) ← rOffset limit r
      some (({ distinct := q.distinct, items := q.items, tables, cond, group, having, order, limit, offset } : Query String τ), r)) := by
  have h := rList_toks rItem itemToks id _ _ ht q.items hi (by simp [itemToks]) (fun x _ t ht => rItem_toks ht (by decide) x)
  rw [List.map_id] at h
  have hd : rDistinct ((if q.distinct = true then [Tok.kw "DISTINCT"] else []) ++ (commaSep (q.items.map itemToks) ++ t))
      = (q.distinct, commaSep (q.items.map itemToks) ++ t) := by
    cases hq : q.distinct
    · obtain ⟨a, l, hl⟩ : ∃ a l, q.items = a :: l := by
        cases h' : q.items with
        | nil => exact absurd h' hi
        | cons a l => exact ⟨a, l, rfl⟩
      have : ∃ r, commaSep (q.items.map itemToks) = .leaf a.1 :: r := by
        rw [hl]
        cases l with
        | nil => exact ⟨_, rfl⟩
        | cons b l => exact ⟨_, rfl⟩
      obtain ⟨r, hr⟩ := this
      rw [hr]
      rfl
    · rfl
  simp only [Query.head, List.cons_append, List.append_assoc, rQuery, hd, h, Option.bind_eq_bind, Option.bind_some]

theorem tail_ends {σ : Type} (q : Query String σ) (rest : List Tok) (hr : Ends [] rest) : Ends afterFrom (q.tail ++ rest) := by
  have e6 : Ends ["OFFSET"] (optToks "OFFSET" q.offset ++ rest) := hr.opt _ _
  have e5 := e6.many "LIMIT" (q.limit.map fun e => [.leaf e])
  have e4 := e5.many "ORDER BY" (q.order.map orderToks)
  have e3 := e4.opt "HAVING" q.having
  have e2 := e3.many "GROUP BY" (q.group.map fun e => [.leaf e])
  simpa only [Query.tail, List.append_assoc, afterFrom] using e2.opt "WHERE" q.cond

/-- The text of a query some of whose tables are joined. -/
theorem written_joined {σ : Type} (tx : Json → String) (st : σ → List Tok) (q : Query Json σ) (hm : ∃ t ∈ q.tables, t.2 ≠ []) :
    q.written tx st = (q.map tx id : Query String σ).head ++ ((.kw "FROM" :: q.tables.flatMap (tableText tx st)) ++
      (q.map tx id : Query String σ).tail) := by
  obtain ⟨t, ht, hj⟩ := hm
  have hne : q.tables ≠ [] := by
    intro e; rw [e] at ht; cases ht
  have hany : q.tables.any (fun t => !t.2.isEmpty) = true := by
    rw [List.any_eq_true]
    exact ⟨t, ht, by cases h2 : t.2 with | nil => exact absurd h2 hj | cons a b => rfl⟩
  rw [Query.written, if_neg hne, fromText, if_pos hany]

/-- **A comma next to a join.** Whatever is read for a query with a join has one table in FROM. -/
theorem joined_one {σ τ : Type} {P : σ → Prop} {st : σ → List Tok} {sub : Parser τ} {L : Leaves} {tx : Json → String}
    (hs : ∀ s, P s → Bal True (fun _ => True) (st s)) (hsub : Takes True (fun _ => True) sub) (q : Query Json σ) (h : q.Fits L tx P)
    (hm : ∃ t ∈ q.tables, t.2 ≠ []) (rest : List Tok) (hr : Ends [] rest)
    {q' : Query String τ} {r : List Tok} (hq : rQuery sub (q.written tx st ++ rest) = some (q', r)) : q'.tables.length = 1 := by
  have e1 := tail_ends (q.map tx id : Query String σ) rest hr
  have hflat : flat 0 (q.tables.flatMap (tableText tx st) ++ ((q.map tx id : Query String σ).tail ++ rest)) :=
    flat_prepend (C := False) (K := fun _ => True) (bal_flatMap _ _ fun t ht =>
      bal_table hs t (h.tables t ht).1 (h.tables t ht).2) 0 (by simp) _ (flat_of_ends e1)
  rw [written_joined tx st q hm] at hq
  simp only [List.append_assoc] at hq
  rw [read_head _ (by simpa [Query.map] using h.ne) _ (by simp [Ends]), List.cons_append, rOpt, if_pos rfl] at hq
  cases ht : rList (rTable sub) (q.tables.flatMap (tableText tx st) ++ ((q.map tx id : Query String σ).tail ++ rest)) with
  | none => rw [ht] at hq; cases hq
  | some x =>
    obtain ⟨l, r1⟩ := x
    have hl : l.length = 1 := rList_flat (C := False) (K := fun k => k ∉ afterFrom)
      (takes_table hsub (by decide) (by decide) (by decide) (by decide)) (fun k hk => hk) hflat ht
    rw [ht] at hq
    simp only [Option.bind_eq_bind, Option.bind_some] at hq
    simp only [Option.bind_eq_some_iff] at hq
    obtain ⟨_, _, _, _, _, _, _, _, _, _, _, _, hq⟩ := hq
    simp only [Option.some.injEq, Prod.mk.injEq] at hq
    rw [← hq.1]
    exact hl

end EulerDB.Statement
