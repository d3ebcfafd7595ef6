/-
C62: a query is written back so that MySQL reads that query.
-/
import Verif.Statement.Mixed

namespace EulerDB.Statement

open EulerDB EulerDB.Clause

section
variable {L : Leaves} {tx : Json → String}

/-- Every query — select list with aliases, DISTINCT, tables, subqueries nested to any depth, joins, WHERE, GROUP BY, HAVING,
ORDER BY, LIMIT and OFFSET — is written as a text that MySQL reads as exactly this query, provided no comma stands next to a join
in a FROM, no ON is false for Python, and no USING names a single column. -/
theorem C62_written_partial (n : Nat) (q : Query Json (Deep Json n)) (hf : Deep.Fits L tx (n + 1) q) (hs : Deep.Sound (n + 1) q)
    (fuel : Nat) (hfuel : 2 * n + 3 ≤ fuel) :
    ∃ t, format L fuel (q.dict (Deep.json n)) = .ok t ∧ rDeep (n + 1) t = some (Deep.map tx (n + 1) q, []) := by
  refine ⟨Deep.written tx (n + 1) q, ?_, ?_⟩
  · have := deep_written (n + 1) q hf fuel (by omega) 100 (.inl (by omega))
    rwa [if_pos (by omega)] at this
  · have := deep_read (n + 1) q hf hs [] trivial
    rwa [List.append_nil] at this

/-- Whatever the query, its text exists: the formatter fails only where an expression does. -/
theorem C62_total (n : Nat) (q : Query Json (Deep Json n)) (hf : Deep.Fits L tx (n + 1) q) (fuel : Nat) (hfuel : 2 * n + 3 ≤ fuel) :
    format L fuel (q.dict (Deep.json n)) = .ok (q.written tx (Deep.written tx n)) := by
  have := deep_written (n + 1) q hf fuel (by omega) 100 (.inl (by omega))
  rwa [if_pos (by omega)] at this

/-- As soon as one table of FROM is joined, the commas between the tables are not written: whatever MySQL reads has one table
(with joins), and so never the query, if it had several. -/
theorem C62_fails_comma_join (n : Nat) (q : Query Json (Deep Json n)) (hf : Deep.Fits L tx (n + 1) q)
    (hj : ∃ t ∈ q.tables, t.2 ≠ []) (h2 : 2 ≤ q.tables.length) (fuel : Nat) (hfuel : 2 * n + 3 ≤ fuel) :
    ∃ t, format L fuel (q.dict (Deep.json n)) = .ok t ∧ ∀ q' r, rDeep (n + 1) t = some (q', r) →
      (Query.tables (σ := Deep String n) q').length = 1 ∧ q' ≠ Deep.map tx (n + 1) q := by
  refine ⟨_, C62_total n q hf fuel hfuel, fun q' r h => ?_⟩
  have h1 : (Query.tables (σ := Deep String n) q').length = 1 := by
    refine joined_one (P := Deep.Fits L tx n) (rest := []) (fun s hs => bal_deep n s hs) (takes_deep n) q hf hj trivial ?_ (r := r)
    rw [List.append_nil]
    exact h
  refine ⟨h1, fun e => ?_⟩
  have h3 : (Query.tables (σ := Deep String n) (Deep.map tx (n + 1) q)).length = q.tables.length := by
    simp [Deep.map, Query.map]
  rw [e, h3] at h1
  omega

/-- Exactly: a query whose joins and subqueries are sound is read back if and only if no comma stands next to a join. -/
theorem C62_read_back_iff (n : Nat) (q : Query Json (Deep Json n)) (hf : Deep.Fits L tx (n + 1) q)
    (hs : ∀ t ∈ q.tables, (∀ s, t.1.base = .inr s → Deep.Sound n s) ∧ ∀ j ∈ t.2, j.Sound ∧ ∀ s, j.src.base = .inr s → Deep.Sound n s)
    (fuel : Nat) (hfuel : 2 * n + 3 ≤ fuel) :
    (∃ t, format L fuel (q.dict (Deep.json n)) = .ok t ∧ rDeep (n + 1) t = some (Deep.map tx (n + 1) q, [])) ↔ q.Unmixed := by
  constructor
  · rintro ⟨t, h1, h2⟩
    by_contra hm
    simp only [Query.Unmixed, not_or, not_forall] at hm
    obtain ⟨⟨t', ht, hj⟩, hl⟩ := hm
    have hlen : 2 ≤ q.tables.length := by
      have := List.length_pos_of_mem ht
      omega
    obtain ⟨u, h3, h4⟩ := C62_fails_comma_join n q hf ⟨t', ht, hj⟩ hlen fuel hfuel
    rw [h1, Except.ok.injEq] at h3
    subst h3
    exact (h4 _ _ h2).2 rfl
  · intro hu
    exact C62_written_partial n q hf ⟨⟨hu, fun t ht j hj => ((hs t ht).2 j hj).1⟩, fun t ht => ⟨(hs t ht).1, fun j hj => ((hs t ht).2 j hj).2⟩⟩ fuel hfuel

/-- `FROM a, b JOIN …`: the table `b` becomes the alias of `a`, and the joins are those of `a`. -/
theorem C62_fails_comma_alias (n : Nat) (q : Query Json (Deep Json n)) (hf : Deep.Fits L tx (n + 1) q) (a b : Json)
    (j : Join Json (Deep Json n)) (js : List (Join Json (Deep Json n)))
    (ht : q.tables = [(⟨.inl a, none⟩, []), (⟨.inl b, none⟩, j :: js)])
    (hs : ∀ i ∈ j :: js, i.Sound ∧ ∀ s, i.src.base = .inr s → Deep.Sound n s) (fuel : Nat) (hfuel : 2 * n + 3 ≤ fuel) :
    ∃ t, format L fuel (q.dict (Deep.json n)) = .ok t ∧
      rDeep (n + 1) t = some (Deep.map tx (n + 1) { q with tables := [(⟨.inl a, some b⟩, j :: js)] }, []) := by
  refine ⟨_, C62_total n q hf fuel hfuel, ?_⟩
  let q' : Query Json (Deep Json n) := { q with tables := [(⟨.inl a, some b⟩, j :: js)] }
  have hj : ∃ t ∈ q.tables, t.2 ≠ [] := ⟨(⟨.inl b, none⟩, j :: js), by simp [ht], by simp⟩
  have hfa := (hf.tables (⟨.inl a, none⟩, []) (by simp [ht])).1
  have hfb := hf.tables (⟨.inl b, none⟩, j :: js) (by simp [ht])
  have hf' : Deep.Fits L tx (n + 1) q' :=
    { hf with
      tables := by
        intro t ht'
        simp only [q', List.mem_singleton] at ht'
        subst ht'
        exact ⟨{ base := hfa.base, nick := fun x hx => by cases hx; exact (hfb.1.base b rfl).2, deep := fun _ h => by cases h }, hfb.2⟩ }
  have hs' : Deep.Sound (n + 1) q' :=
    ⟨⟨.inr rfl, by
        intro t ht' i hi
        simp only [q', List.mem_singleton] at ht'
        subst ht'
        exact (hs i hi).1⟩, by
      intro t ht'
      have ht' : t ∈ [((⟨.inl a, some b⟩, j :: js) : Src Json (Deep Json n) × List (Join Json (Deep Json n)))] := ht'
      simp only [List.mem_singleton] at ht'
      subst ht'
      exact ⟨fun _ h => (by cases h), fun i hi => (hs i hi).2⟩⟩
  let jm : Join Json (Deep Json n) → Join String (Deep Json n) := fun i => i.map tx id
  have hsub : SubReads (fun s => Deep.Fits L tx n s ∧ Deep.Sound n s) (Deep.written tx n) (rDeep n) (Deep.map tx n) := by
    rintro s ⟨h1, h2⟩ r
    exact deep_read n s h1 h2 _ trivial
  have hok := Query.Fits.ok (Q := fun s => Deep.Fits L tx n s ∧ Deep.Sound n s) hf' hs'.1.joins
    (fun t ht => ⟨fun s h hp => ⟨hp, (hs'.2 t ht).1 s h⟩, fun i hi s h hp => ⟨hp, (hs'.2 t ht).2 i hi s h⟩⟩)
  have e1 := written_joined tx (Deep.written tx n) q hj
  have hjs := hok.joins (⟨.inl (tx a), some (tx b)⟩, (j :: js).map jm) (by simp [q', Query.map, Src.map, jm])
  have hw : (j :: js).flatMap (Join.written tx (Deep.written tx n)) =
      ((j :: js).map jm).flatMap (Join.toks (Deep.written tx n)) := by
    rw [List.flatMap_map, List.flatMap_def, List.flatMap_def]
    congr 1
    exact List.map_congr_left fun i hi => Join.written_eq tx _ (hs i hi).1
  have ends := tail_ends (q'.map tx id : Query String (Deep Json n)) [] trivial
  have hr := rJoins_toks hsub (.inl ends) (by decide) (by decide) ((j :: js).map jm)
    ((((j :: js).map jm).flatMap (Join.toks (Deep.written tx n)) ++ ((q'.map tx id : Query String (Deep Json n)).tail ++ [])).length + 1)
    (by
      have := length_joins (st := Deep.written tx n) ((j :: js).map jm)
      simp at this ⊢; omega) hjs
  have htab : rTable (rDeep n) (.leaf (tx a) :: .leaf (tx b) :: (((j :: js).map jm).flatMap (Join.toks (Deep.written tx n)) ++
      ((q'.map tx id : Query String (Deep Json n)).tail ++ []))) =
      some (mapTable (Deep.map tx n) (⟨.inl (tx a), some (tx b)⟩, (j :: js).map jm), (q'.map tx id : Query String (Deep Json n)).tail ++ []) := by
    simp only [rTable, rSrc, rAlias]
    rw [hr]
    rfl
  have key := read_query (sub := rDeep n) (q'.map tx id : Query String (Deep Json n)) hok [] trivial
    (.kw "FROM" :: .leaf (tx a) :: .leaf (tx b) :: ((j :: js).map jm).flatMap (Join.toks (Deep.written tx n)))
    [mapTable (Deep.map tx n) (⟨.inl (tx a), some (tx b)⟩, (j :: js).map jm)] (by
      simp only [List.cons_append]
      rw [rOpt, if_pos rfl, rList, List.length_cons, sepBy, htab]
      split
      · rename_i heq; cases heq
      · rename_i heq
        simp only [Option.some.injEq, Prod.mk.injEq] at heq
        rw [heq.2] at ends
        exact absurd ends (by simp [Ends])
      · rename_i heq
        simp only [Option.some.injEq, Prod.mk.injEq] at heq
        rw [← heq.1, ← heq.2]) (by simp [Ends])
  have htext : q.written tx (Deep.written tx n) = (q'.map tx id : Query String (Deep Json n)).head ++
      ((.kw "FROM" :: .leaf (tx a) :: .leaf (tx b) :: ((j :: js).map jm).flatMap (Join.toks (Deep.written tx n))) ++
        ((q'.map tx id : Query String (Deep Json n)).tail ++ [])) := by
    rw [e1, ← hw, ht]
    simp [tableText, Src.toks, Src.map, aliasToks, q', Query.head, Query.tail, Query.map]
    rfl
  show rQuery (rDeep n) (q.written tx (Deep.written tx n)) = _
  rw [htext, key]
  exact congrArg (fun x => some (x, [])) (map_mapTable tx (Deep.map tx n) q')

/-! ### The conditions of joins -/

/-- The condition that is written: one that is false for Python (`ON 0`) is left out. -/
def JCond.kept : JCond Json → JCond Json
  | .on e => if truthy e then .on e else .none
  | c => c

def Join.kept {σ : Type} (j : Join Json σ) : Join Json σ := { j with cond := j.cond.kept }

def Query.kept {σ : Type} (q : Query Json σ) : Query Json σ := { q with tables := q.tables.map fun t => (t.1, t.2.map Join.kept) }

theorem written_kept {σ : Type} (tx : Json → String) (st : σ → List Tok) (q : Query Json σ) : q.kept.written tx st = q.written tx st := by
  have hc : ∀ c : JCond Json, c.kept.written tx = c.written tx := by
    intro c
    cases c with
    | on e =>
      by_cases h : truthy e = true <;> simp [JCond.kept, JCond.written, h]
    | _ => rfl
  have hj : Join.written tx st ∘ Join.kept = Join.written tx st := by
    funext j
    simp [Join.written, Join.kept, hc]
  have ht : tableText tx st ∘ (fun t : Src Json σ × List (Join Json σ) => (t.1, t.2.map Join.kept)) = tableText tx st := by
    funext t
    simp only [Function.comp_apply, tableText, List.flatMap_map]
    rw [← Function.comp_def (Join.written tx st) Join.kept, hj]
  have hf : fromText tx st q.kept.tables = fromText tx st q.tables := by
    simp only [fromText, Query.kept, List.any_map, List.map_map, List.flatMap_map, Function.comp_def]
    simp only [← Function.comp_def, ht, List.isEmpty_map]
  have h0 : q.kept.tables = [] ↔ q.tables = [] := by simp [Query.kept]
  simp only [Query.written, hf, h0]
  rfl

theorem kept_fits {σ : Type} {P : σ → Prop} {q : Query Json σ} (h : q.Fits L tx P) : q.kept.Fits L tx P :=
  { h with
    tables := by
      intro t ht
      simp only [Query.kept, List.mem_map] at ht
      obtain ⟨u, hu, rfl⟩ := ht
      refine ⟨(h.tables u hu).1, fun j hj => ?_⟩
      simp only [List.mem_map] at hj
      obtain ⟨i, hi, rfl⟩ := hj
      have hi := (h.tables u hu).2 i hi
      have hc : ∀ c, i.cond.kept = c → c = i.cond ∨ c = .none := by
        rintro c rfl
        cases h : i.cond with
        | on e => by_cases ht : truthy e = true <;> simp [JCond.kept, ht]
        | _ => exact .inl rfl
      refine ⟨hi.kind, hi.src, fun e he => ?_, fun l hl => ?_⟩
      · rcases hc _ he with h | h
        · exact hi.on e h.symm
        · cases h
      · rcases hc _ hl with h | h
        · exact hi.cols l h.symm
        · cases h }

/-- A join with a condition that is false for Python, `ON 0`, is written without it: MySQL joins every row with every row
where the query asks for none. -/
theorem C62_fails_on_false (n : Nat) (q : Query Json (Deep Json n)) (hf : Deep.Fits L tx (n + 1) q)
    (hs : Deep.Sound (n + 1) (q.kept : Query Json (Deep Json n))) (hz : ∃ t ∈ q.tables, ∃ j ∈ t.2, ∃ e, j.cond = .on e ∧ truthy e = false)
    (fuel : Nat) (hfuel : 2 * n + 3 ≤ fuel) :
    ∃ t, format L fuel (q.dict (Deep.json n)) = .ok t ∧ rDeep (n + 1) t = some (Deep.map tx (n + 1) (q.kept : Query Json (Deep Json n)), []) ∧
      Deep.map tx (n + 1) (q.kept : Query Json (Deep Json n)) ≠ Deep.map tx (n + 1) q := by
  refine ⟨_, C62_total n q hf fuel hfuel, ?_, ?_⟩
  · have := deep_read (n + 1) (q.kept : Query Json (Deep Json n)) (kept_fits hf) hs [] trivial
    rw [List.append_nil] at this
    rw [← this]
    show _ = rDeep (n + 1) (Query.written tx (Deep.written tx n) q.kept)
    rw [written_kept]
  · obtain ⟨t, ht, j, hj, e, he, hz⟩ := hz
    intro h
    have h : (q.kept.map tx (Deep.map tx n) : Query String (Deep String n)) = q.map tx (Deep.map tx n) := h
    have h1 := congrArg Query.tables h
    simp only [Query.map, Query.kept, List.map_map] at h1
    have h2 := List.map_inj_left.1 h1 t ht
    simp only [Function.comp_apply, Prod.mk.injEq, true_and, List.map_map] at h2
    have h3 := List.map_inj_left.1 h2 j hj
    simp [Join.map, Join.kept, he, JCond.kept, hz, JCond.map] at h3

/-- USING with one column, the usual case, is written without parentheses, which MySQL rejects. -/
theorem C62_fails_using (n : Nat) (q : Query Json (Deep Json n)) (hf : Deep.Fits L tx (n + 1) q) (a b c : Json) (a' b' : Option Json)
    (k : String) (hk : k ∈ joinWords) (hc : truthy c = true) (js : List (Join Json (Deep Json n)))
    (ts : List (Src Json (Deep Json n) × List (Join Json (Deep Json n))))
    (ht : q.tables = (⟨.inl a, a'⟩, ⟨k, ⟨.inl b, b'⟩, .cols [c]⟩ :: js) :: ts) (fuel : Nat) (hfuel : 2 * n + 3 ≤ fuel) :
    ∃ t, format L fuel (q.dict (Deep.json n)) = .ok t ∧ rDeep (n + 1) t = none := by
  refine ⟨_, C62_total n q hf fuel hfuel, ?_⟩
  have hj : ∃ t ∈ q.tables, t.2 ≠ [] := ⟨_, by rw [ht]; exact List.mem_cons_self, by simp⟩
  have hne : (q.map tx id : Query String (Deep Json n)).items ≠ [] := by simpa [Query.map] using hf.ne
  show rQuery (rDeep n) (q.written tx (Deep.written tx n)) = none
  rw [written_joined tx (Deep.written tx n) q hj, read_head _ hne _ (by simp [Ends])]
  have hup := toUpper_join hk
  have hal : ∀ (o : Option String) (w : String) (r : List Tok), w ≠ "AS" → rAlias (aliasToks o ++ .kw w :: r) = (o, .kw w :: r) := by
    intro o w r hw
    cases o with
    | none =>
      simp only [aliasToks, List.nil_append]
      unfold rAlias
      split
      · rename_i h; simp at h; exact absurd h.1 hw
      · rename_i h; simp at h
      · rfl
    | some o => rfl
  have hnas : k.toUpper ≠ "AS" := by
    intro e
    rw [e] at hup
    exact absurd hup (by decide)
  have hT : ∀ r : List Tok, rTable (rDeep n) (.leaf (tx a) :: (aliasToks (a'.map tx) ++ .kw k.toUpper :: .leaf (tx b) ::
      (aliasToks (b'.map tx) ++ .kw "USING" :: .leaf (tx c) :: r))) = none := by
    intro r
    simp only [rTable, rSrc, hal _ _ _ hnas]
    rw [rJoins]
    simp only [hup, if_true, rSrc, hal _ "USING" _ (by decide)]
    rfl
  have htext : ∃ r, q.tables.flatMap (tableText tx (Deep.written tx n)) ++ (q.map tx id : Query String (Deep Json n)).tail =
      .leaf (tx a) :: (aliasToks (a'.map tx) ++ .kw k.toUpper :: .leaf (tx b) ::
      (aliasToks (b'.map tx) ++ .kw "USING" :: .leaf (tx c) :: r)) := by
    refine ⟨js.flatMap (Join.written tx (Deep.written tx n)) ++ (ts.flatMap (tableText tx (Deep.written tx n)) ++
      (q.map tx id : Query String (Deep Json n)).tail), ?_⟩
    rw [ht]
    simp [tableText, Src.toks, Src.map, Join.written, JCond.written, hc]
  obtain ⟨r, hr⟩ := htext
  rw [List.cons_append, hr, rOpt, if_pos rfl, rList, List.length_cons, sepBy, hT]
  rfl

/-! ### Parts of a query that are not looked at -/

theorem clauseToks_congr {disp : Json → Nat → Except PyErr (List Tok)} {d d' : Dict String Json}
    (h : ∀ k ∈ ["top", "distinct_on", "offset"], Dict.get? d k = Dict.get? d' k) (k : String) (v : Json) :
    clauseToks L disp d k v = clauseToks L disp d' k v := by
  simp only [clauseToks, hasKey, Dict.getItem, h "top" (by simp), h "distinct_on" (by simp), h "offset" (by simp)]
  rfl

theorem clauses_congr {disp : Json → Nat → Except PyErr (List Tok)} {d d' : Dict String Json}
    (h : ∀ k ∈ ["top", "distinct_on", "offset"], Dict.get? d k = Dict.get? d' k) (ks : List String)
    (hk : ∀ k ∈ ks, (k ≠ "fetch" → Dict.get? d k = Dict.get? d' k) ∧ (Dict.get? d k).isSome = (Dict.get? d' k).isSome) :
    clauses L disp d ks = clauses L disp d' ks := by
  induction ks with
  | nil => rfl
  | cons k ks ih =>
    have ih := ih fun k hk' => hk k (by simp [hk'])
    obtain ⟨h1, h2⟩ := hk k (by simp)
    by_cases hf : k = "fetch"
    · subst hf
      cases hd : Dict.get? d "fetch" with
      | none =>
        rw [hd] at h2
        have hd' : Dict.get? d' "fetch" = none := by
          cases h : Dict.get? d' "fetch" with
          | none => rfl
          | some _ => rw [h] at h2; cases h2
        rw [clauses, clauses, hd, hd']
        exact ih
      | some v =>
        rw [hd] at h2
        obtain ⟨w, hd'⟩ : ∃ w, Dict.get? d' "fetch" = some w := by
          cases h : Dict.get? d' "fetch" with
          | none => rw [h] at h2; cases h2
          | some w => exact ⟨w, rfl⟩
        have hvw : clauseToks L disp d "fetch" v = clauseToks L disp d' "fetch" w := by
          rw [clauseToks_congr h]
          simp (decide := true) only [clauseToks, if_false]
        simp only [clauses, hd, hd', hvw, ih]
    · rw [clauses, clauses, h1 hf, ih]
      cases Dict.get? d' k with
      | none => rfl
      | some v => simp only [clauseToks_congr h]

/-- The keys of a query that the formatter looks at. -/
def queryKeys : List String := "top" :: stmtKeys

theorem dispatch_congr {d d' : Dict String Json} (hs : hasAny d (orderedClauses ++ unorderedClauses) = true)
    (h : ∀ k ∈ queryKeys, (k ≠ "fetch" → Dict.get? d k = Dict.get? d' k) ∧ (Dict.get? d k).isSome = (Dict.get? d' k).isSome)
    (h0 : ∀ k ∈ ["value", "insert"], Dict.get? d k = none) (fuel p : Nat) : dispatch L fuel (.dict d) p = dispatch L fuel (.dict d') p := by
  cases fuel with
  | zero => rfl
  | succ n =>
    have heq : ∀ k ∈ queryKeys, k ≠ "fetch" → Dict.get? d k = Dict.get? d' k := fun k hk => (h k hk).1
    have hany : ∀ ks, (∀ k ∈ ks, k ∈ queryKeys) → hasAny d ks = hasAny d' ks := by
      intro ks hk
      induction ks with
      | nil => rfl
      | cons k ks ih =>
        have ih := ih fun k hk' => hk k (by simp [hk'])
        simp only [hasAny, List.any_cons, hasKey] at ih ⊢
        rw [(h k (hk k (by simp))).2, ih]
    have hs' : hasAny d' (orderedClauses ++ unorderedClauses) = true := by
      rw [← hany _ (by decide)]; exact hs
    have hne : ∀ e : Dict String Json, hasAny e (orderedClauses ++ unorderedClauses) = true → e.isEmpty = false := by
      intro e he
      cases e with
      | nil => simp [hasAny, hasKey] at he
      | cons => rfl
    have hc := clauses_congr (L := L) (disp := dispatch L n) (fun k hk => heq k (by revert hk; revert k; decide) (by revert hk; revert k; decide))
      orderedClauses (fun k hk => h k (by revert hk; revert k; decide))
    have hu := clauses_congr (L := L) (disp := dispatch L n) (fun k hk => heq k (by revert hk; revert k; decide) (by revert hk; revert k; decide))
      unorderedClauses (fun k hk => h k (by revert hk; revert k; decide))
    have hv := h0 "value" (by simp)
    have hv' : Dict.get? d' "value" = none := by rw [← heq "value" (by decide) (by decide)]; exact hv
    have hi := h0 "insert" (by simp)
    have hi' : Dict.get? d' "insert" = none := by rw [← heq "insert" (by decide) (by decide)]; exact hi
    have hor := hany orderedClauses (by decide)
    have hun := hany unorderedClauses (by decide)
    have hun2 := hany (unorderedClauses.filter (· ≠ "from")) (by decide)
    have hdrop := heq "drop" (by decide) (by decide)
    have hjoin := heq "join" (by decide) (by decide)
    have hfrom := heq "from" (by decide) (by decide)
    have hsome : (hasAny d' orderedClauses || hasAny d' unorderedClauses) = true := by
      rw [← hs']; simp [hasAny, List.any_append]
    rw [dispatch, dispatch]
    simp only [hne d hs, hne d' hs', hasKey, hdrop, hv, hv', hjoin, hi, hi', hor, hun, orderedQuery, unorderedQuery, hc, hu, hun2, Dict.getItem, hfrom]
    split
    · rfl
    · split
      · rfl
      · split
        · rfl
        · split
          · rename_i h; cases h
          · split
            · rfl
            · split
              · rfl
              · rename_i h1 h2
                simp [h1, h2] at hsome

/-- Whatever the parser returned under another key is left out of the text: in particular the common table expressions of
WITH RECURSIVE (`with_recursive`). -/
theorem C62_fails_recursive (d : Dict String Json) (v : Json) (hs : hasAny d (orderedClauses ++ unorderedClauses) = true)
    (h0 : ∀ k ∈ ["value", "insert"], Dict.get? d k = none) (fuel : Nat) :
    format L fuel (Dict.set d "with_recursive" v) = format L fuel d := by
  refine (dispatch_congr hs (fun k hk => ?_) h0 fuel 100).symm
  have : Dict.get? (Dict.set d "with_recursive" v) k = Dict.get? d k := Dict.get?_set_ne _ (by revert hk; revert k; decide) _
  rw [this]
  exact ⟨fun _ => rfl, rfl⟩

/-- NULLS FIRST and NULLS LAST are left out of ORDER BY. -/
theorem C62_fails_nulls (disp : Json → Nat → Except PyErr (List Tok)) (d : Dict String Json) (v : Json) :
    orderItem disp (.dict (Dict.set d "nulls" v)) = orderItem disp (.dict d) := by
  have h1 : Dict.get? (Dict.set d "nulls" v) "value" = Dict.get? d "value" := Dict.get?_set_ne _ (by decide) _
  have h2 : Dict.get? (Dict.set d "nulls" v) "sort" = Dict.get? d "sort" := Dict.get?_set_ne _ (by decide) _
  simp only [orderItem, Dict.getItem, h1, h2]

/-- The number of FETCH is not looked at: what is written after it is the number of OFFSET. -/
theorem C62_fails_fetch (d : Dict String Json) (v w : Json) (h0 : ∀ k ∈ ["value", "insert"], Dict.get? d k = none) (fuel : Nat) :
    format L fuel (Dict.set d "fetch" v) = format L fuel (Dict.set d "fetch" w) := by
  have hset : ∀ (v : Json) k, k ≠ "fetch" → Dict.get? (Dict.set d "fetch" v) k = Dict.get? d k := fun v k hk => Dict.get?_set_ne _ hk _
  refine dispatch_congr ?_ (fun k hk => ?_) (fun k hk => ?_) fuel 100
  · simp only [hasAny, List.any_eq_true]
    exact ⟨"fetch", by decide, by rw [hasKey, Dict.get?_set_self]; rfl⟩
  · by_cases hf : k = "fetch"
    · subst hf
      exact ⟨fun h => absurd rfl h, by rw [Dict.get?_set_self, Dict.get?_set_self]; rfl⟩
    · rw [hset v k hf, hset w k hf]
      exact ⟨fun _ => rfl, rfl⟩
  · rw [hset v k (by revert hk; revert k; decide)]
    exact h0 k hk

/-- … and without OFFSET a query with FETCH cannot be written at all. -/
theorem C62_fails_fetch_alone (n : Nat) (q : Query Json (Deep Json n)) (hf : Deep.Fits L tx (n + 1) q) (v : Json) (h1 : q.order = [])
    (h2 : q.limit = []) (h3 : q.offset = none) (fuel : Nat) (hfuel : 2 * n + 3 ≤ fuel) :
    format L fuel (q.dict (Deep.json n) ++ [("fetch", v)]) = .error .keyError := by
  obtain ⟨N, rfl⟩ : ∃ N, fuel = N + 1 := ⟨fuel - 1, by omega⟩
  have hget : ∀ k, k ≠ "fetch" → Dict.get? (q.dict (Deep.json n) ++ [("fetch", v)]) k = Dict.get? (q.dict (Deep.json n)) k := by
    intro k hk
    rw [Dict.get?_append, Dict.get?_cons, if_neg (Ne.symm hk)]
    simp
  have hfe : Dict.get? (q.dict (Deep.json n) ++ [("fetch", v)]) "fetch" = some v := by
    rw [Dict.get?_append, get?_other _ _ _ (by decide)]
    simp [Dict.get?_cons]
  have h0 : ∀ k, k ≠ "fetch" → k ∉ ["select", "select_distinct", "from", "where", "groupby", "having", "orderby", "limit", "offset"] →
      Dict.get? (q.dict (Deep.json n) ++ [("fetch", v)]) k = none := fun k h h' => (hget k h).trans (get?_other _ _ _ h')
  have ho : ∀ k, k = "orderby" ∨ k = "limit" ∨ k = "offset" → Dict.get? (q.dict (Deep.json n) ++ [("fetch", v)]) k = none := by
    rintro k (rfl | rfl | rfl) <;> rw [hget _ (by decide), get?_dict] <;> cases q.distinct <;> simp (decide := true) [h1, h2, h3]
  have hu : clauses L (dispatch L N) (q.dict (Deep.json n) ++ [("fetch", v)]) unorderedClauses =
      clauses L (dispatch L N) (q.dict (Deep.json n)) unorderedClauses := by
    refine clauses_congr (fun k hk => hget k (by revert hk; revert k; decide)) _ fun k hk => ?_
    rw [hget k (by revert hk; revert k; decide)]
    exact ⟨fun _ => rfl, rfl⟩
  have hs : SubWrites L (Deep.Fits L tx n) (Deep.json n) (Deep.written tx n) (2 * n + 1) := by
    intro s h
    match n, s with
    | k + 1, s =>
      refine ⟨Query.dict (Deep.json k) s, rfl, noJoin _ _, noSet _ _, fun N hN p hp => ?_⟩
      rw [deep_written (k + 1) s h N hN p (.inr hp), if_neg (by omega)]
  have hw := unordered_written hs hf (N := N) (by omega) (by omega)
  have hord : hasAny (q.dict (Deep.json n) ++ [("fetch", v)]) orderedClauses = true := by
    simp only [hasAny, List.any_eq_true]
    exact ⟨"fetch", by decide, by rw [hasKey, hfe]; rfl⟩
  have hsel : hasAny (q.dict (Deep.json n) ++ [("fetch", v)]) (unorderedClauses.filter (· ≠ "from")) = true := by
    simp only [hasAny, List.any_eq_true]
    cases hd : q.distinct with
    | true => exact ⟨"select_distinct", by decide, by rw [hasKey, hget _ (by decide), get?_dict]; simp [hd]⟩
    | false => exact ⟨"select", by decide, by rw [hasKey, hget _ (by decide), get?_dict]; simp [hd]⟩
  have hc : clauses L (dispatch L N) (q.dict (Deep.json n) ++ [("fetch", v)]) orderedClauses = .error .keyError := by
    rw [orderedClauses, clauses_none _ (ho _ (.inl rfl)), clauses_none _ (ho _ (.inr (.inl rfl))), clauses_none _ (ho _ (.inr (.inr rfl))),
      clauses, hfe]
    simp (decide := true) [clauseToks, Dict.getItem, ho "offset" (.inr (.inr rfl))]
  have hne : (q.dict (Deep.json n) ++ [("fetch", v)]).isEmpty = false := rfl
  rw [format, dispatch]
  simp only [hne, hasKey, h0 "drop" (by decide) (by decide), h0 "value" (by decide) (by decide), h0 "join" (by decide) (by decide),
    h0 "insert" (by decide) (by decide), hord, orderedQuery, hsel, unorderedQuery, hu, hw, hc, Except.map]
  simp

/-! ### The other statements -/

/-- One assignment. -/
def setToks (tx : Json → String) (e : String × Json) : List Tok := [.leaf (tx (.str e.1)), .kw "=", .leaf (tx e.2)]

theorem setItem_ok {e : String × Json} (h : Good L tx (.str e.1) ∧ Good L tx e.2) (n : Nat) : setItem (dispatch L (n + 1)) e = .ok (setToks tx e) := by
  simp [setItem, dispatch_good h.1, dispatch_good h.2, setToks]

/-- UPDATE is written as `UPDATE t SET c = e, … [WHERE e]`; the name of the table is written as it is. -/
theorem C62_update_partial (t : String) (a : Dict String Json) (ha : ∀ e ∈ a, Good L tx (.str e.1) ∧ Good L tx e.2) (w : Option Json)
    (hw : ∀ e, w = some e → Good L tx e) (n : Nat) :
    format L (n + 2) (("update", .str t) :: ("set", .dict a) :: entry "where" w) =
      .ok (.kw "UPDATE" :: .leaf t :: .kw "SET" :: (commaSep (a.map (setToks tx)) ++ optToks "WHERE" (w.map tx))) := by
  have he := each_ok (f := setItem (dispatch L (n + 1))) a (fun e he => setItem_ok (ha e he) n)
  rw [format, dispatch]
  cases w with
  | none =>
    simp (decide := true) [entry, hasKey, Dict.get?_cons, hasAny, orderedClauses, unorderedClauses, unorderedQuery, clauses, clauseToks, he, Except.map, optToks]
  | some e =>
    simp (decide := true) [entry, hasKey, Dict.get?_cons, hasAny, orderedClauses, unorderedClauses, unorderedQuery, clauses, clauseToks, he, Except.map, optToks,
      dispatch_good (hw e rfl)]

/-- DELETE is written as `DELETE FROM t [WHERE e]`. -/
theorem C62_delete_partial (t : String) (w : Option Json) (hw : ∀ e, w = some e → Good L tx e) (n : Nat) :
    format L (n + 2) (("delete", .str t) :: entry "where" w) = .ok (.kw "DELETE" :: .kw "FROM" :: .leaf t :: optToks "WHERE" (w.map tx)) := by
  rw [format, dispatch]
  cases w with
  | none =>
    simp (decide := true) [entry, hasKey, Dict.get?_cons, hasAny, orderedClauses, unorderedClauses, unorderedQuery, clauses, clauseToks, rawName, Except.map, optToks]
  | some e =>
    simp (decide := true) [entry, hasKey, Dict.get?_cons, hasAny, orderedClauses, unorderedClauses, unorderedQuery, clauses, clauseToks, rawName, Except.map, optToks,
      dispatch_good (hw e rfl)]

/-- DROP looks at the table only: IF EXISTS is lost, and DROP VIEW and DROP INDEX are written as the word DROP. -/
theorem C62_fails_drop (d : Dict String Json) (n : Nat) :
    (∀ t, Dict.get? d "table" = some (.str t) → format L (n + 1) [("drop", .dict d)] = .ok [.kw "DROP", .kw "TABLE", .leaf t]) ∧
    (Dict.get? d "table" = none → format L (n + 1) [("drop", .dict d)] = .ok [.kw "DROP"]) := by
  constructor
  · intro t ht
    rw [format, dispatch]
    simp [hasKey, Dict.get?_cons, dropToks, pyIn, pyItem, ht, Dict.getItem, rawName, Except.map]
  · intro ht
    rw [format, dispatch]
    simp [hasKey, Dict.get?_cons, dropToks, pyIn, ht]

/-- The joins of MySQL that the grammar reads (keywords.py 130-137), without NATURAL, STRAIGHT_JOIN and LATERAL. -/
def parsedJoins : List String :=
  ["join", "inner join", "cross join", "left join", "left outer join", "right join", "right outer join"]

/-- Every one of these joins is written as a join, with its own keyword. -/
theorem C62_joins {disp : Json → Nat → Except PyErr (List Tok)} {k : String} (hk : k ∈ parsedJoins) {src : Json} {t : List Tok}
    (h : disp src 18 = .ok t) : fromItem disp (.dict [(k, src)]) = .ok (true, .kw k.toUpper :: t) := by
  simp only [parsedJoins, List.mem_cons, List.not_mem_nil, or_false] at hk
  rcases hk with rfl | rfl | rfl | rfl | rfl | rfl | rfl <;>
    simp (decide := true) [fromItem, hasAny, joinKeywords, hasKey, Dict.get?_cons, joinOn, Dict.getItem, h, joinCond, Except.map]

/-- `JOIN LATERAL` is read by the grammar but is no join to the formatter: it is written like any other member of FROM, without its
condition and after a comma. -/
theorem C62_fails_lateral {disp : Json → Nat → Except PyErr (List Tok)} (src on : Json) :
    fromItem disp (.dict [("join lateral", src), ("on", on)]) = (disp (.dict [("join lateral", src), ("on", on)]) 29).map (false, ·) := by
  simp (decide := true) [fromItem, hasAny, joinKeywords, hasKey, Dict.get?_cons]

end

/-! ### The hypotheses can be met -/

/-- Names are written as they are, numbers in decimal. -/
def demoLeaves : Leaves where
  ex
    | .str s => .ok s
    | .int z => .ok (intText z)
    | _ => .ok "x"
  repr _ := ""
  floatText _ := ""

def demoText : Json → String
  | .str s => s
  | .int z => intText z
  | _ => "x"

theorem demo_str (s : String) : Good demoLeaves demoText (.str s) := ⟨trivial, rfl⟩
theorem demo_int (z : ℤ) : Good demoLeaves demoText (.int z) := ⟨trivial, rfl⟩

/-- `SELECT id AS i FROM (SELECT id FROM t) AS s LEFT JOIN u USING (id, k) WHERE p ORDER BY id DESC LIMIT 5`. -/
def demoInner : Deep Json 1 := ({ items := [(.str "id", none)], tables := [(⟨.inl (.str "t"), none⟩, [])] } : Query Json (Deep Json 0))

def demoQuery : Query Json (Deep Json 1) where
  items := [(.str "id", some (.str "i"))]
  tables := [(⟨.inr demoInner, some (.str "s")⟩, [⟨"left join", ⟨.inl (.str "u"), none⟩, .cols [.str "id", .str "k"]⟩])]
  cond := some (.str "p")
  order := [(.str "id", some "desc")]
  limit := [.int 5]

theorem demoInner_fits : Deep.Fits demoLeaves demoText 1 demoInner where
  ne := by simp [demoInner]
  items := by
    intro i hi
    simp only [demoInner, List.mem_singleton] at hi
    subst hi
    exact ⟨demo_str _, by simp⟩
  tables := by
    intro t ht
    simp only [demoInner, List.mem_singleton] at ht
    subst ht
    exact ⟨⟨by rintro e ⟨⟩; exact ⟨⟨_, rfl⟩, demo_str _⟩, by simp, by simp⟩, by simp⟩
  cond := by simp [demoInner]
  group := by simp [demoInner]
  having := by simp [demoInner]
  order := by simp [demoInner]
  limit := by simp [demoInner]
  offset := by simp [demoInner]

theorem demoQuery_fits : Deep.Fits demoLeaves demoText 2 demoQuery where
  ne := by simp [demoQuery]
  items := by
    intro i hi
    simp only [demoQuery, List.mem_singleton] at hi
    subst hi
    exact ⟨demo_str _, by rintro a ⟨⟩; exact demo_str _⟩
  tables := by
    intro t ht
    simp only [demoQuery, List.mem_singleton] at ht
    subst ht
    refine ⟨⟨by simp, by rintro a ⟨⟩; exact demo_str _, by rintro q ⟨⟩; exact demoInner_fits⟩, ?_⟩
    intro j hj
    simp only [List.mem_singleton] at hj
    subst hj
    refine ⟨by decide, ⟨by rintro e ⟨⟩; exact ⟨⟨_, rfl⟩, demo_str _⟩, by simp, by simp⟩, by simp, ?_⟩
    rintro l ⟨⟩ e he
    simp only [List.mem_cons, List.not_mem_nil, or_false] at he
    rcases he with rfl | rfl <;> exact demo_str _
  cond := by rintro e ⟨⟩; exact demo_str _
  group := by simp [demoQuery]
  having := by simp [demoQuery]
  order := by
    intro o ho
    simp only [demoQuery, List.mem_singleton] at ho
    subst ho
    exact ⟨demo_str _, by rintro s ⟨⟩; exact .inr rfl⟩
  limit := by
    refine ⟨by simp [demoQuery], ?_⟩
    intro e he
    simp only [demoQuery, List.mem_singleton] at he
    subst he
    exact demo_int _
  offset := by simp [demoQuery]

theorem demoQuery_sound : Deep.Sound 2 demoQuery := by
  refine ⟨⟨.inr rfl, ?_⟩, ?_⟩
  · intro t ht j hj
    simp only [demoQuery, List.mem_singleton] at ht
    subst ht
    simp only [List.mem_singleton] at hj
    subst hj
    exact ⟨by decide, by simp, by rintro l ⟨⟩; simp⟩
  · intro t ht
    have ht : t ∈ demoQuery.tables := ht
    simp only [demoQuery, List.mem_singleton] at ht
    subst ht
    refine ⟨?_, ?_⟩
    · rintro s ⟨⟩
      refine ⟨⟨.inl ?_, ?_⟩, ?_⟩
      · intro t ht
        simp only [demoInner, List.mem_singleton] at ht
        subst ht
        rfl
      · intro t ht
        simp only [demoInner, List.mem_singleton] at ht
        subst ht
        simp
      · intro t ht
        have ht : t ∈ Query.tables (σ := Deep Json 0) demoInner := ht
        simp only [demoInner, List.mem_singleton] at ht
        subst ht
        simp
    · intro j hj
      simp only [List.mem_singleton] at hj
      subst hj
      simp

/-- The text of the example. -/
example : ∃ t, format demoLeaves 5 (demoQuery.dict (Deep.json 1)) = .ok t ∧ rDeep 2 t = some (Deep.map demoText 2 demoQuery, []) :=
  C62_written_partial 1 demoQuery demoQuery_fits demoQuery_sound 5 (by omega)

/-- `SELECT id FROM a, b JOIN c ON p`. -/
def demoMixed : Query Json (Deep Json 0) where
  items := [(.str "id", none)]
  tables := [(⟨.inl (.str "a"), none⟩, []), (⟨.inl (.str "b"), none⟩, [⟨"join", ⟨.inl (.str "c"), none⟩, .on (.str "p")⟩])]

theorem demoMixed_fits : Deep.Fits demoLeaves demoText 1 demoMixed where
  ne := by simp [demoMixed]
  items := by
    intro i hi
    simp only [demoMixed, List.mem_singleton] at hi
    subst hi
    exact ⟨demo_str _, by simp⟩
  tables := by
    intro t ht
    simp only [demoMixed, List.mem_cons, List.not_mem_nil, or_false] at ht
    rcases ht with rfl | rfl
    · exact ⟨⟨by rintro e ⟨⟩; exact ⟨⟨_, rfl⟩, demo_str _⟩, by simp, by simp⟩, by simp⟩
    · refine ⟨⟨by rintro e ⟨⟩; exact ⟨⟨_, rfl⟩, demo_str _⟩, by simp, by simp⟩, ?_⟩
      intro j hj
      simp only [List.mem_singleton] at hj
      subst hj
      exact ⟨by decide, ⟨by rintro e ⟨⟩; exact ⟨⟨_, rfl⟩, demo_str _⟩, by simp, by simp⟩, by rintro e ⟨⟩; exact demo_str _, by simp⟩
  cond := by simp [demoMixed]
  group := by simp [demoMixed]
  having := by simp [demoMixed]
  order := by simp [demoMixed]
  limit := by simp [demoMixed]
  offset := by simp [demoMixed]

/-- It is read as `SELECT id FROM a AS b JOIN c ON p`. -/
example : ∃ t, format demoLeaves 3 (demoMixed.dict (Deep.json 0)) = .ok t ∧ rDeep 1 t = some (Deep.map demoText 1
    ({ demoMixed with tables := [(⟨.inl (.str "a"), some (.str "b")⟩, [⟨"join", ⟨.inl (.str "c"), none⟩, .on (.str "p")⟩])] } : Query Json (Deep Json 0)), []) :=
  C62_fails_comma_alias 0 demoMixed demoMixed_fits _ _ _ _ rfl (by
    intro i hi
    simp only [List.mem_singleton] at hi
    subst hi
    exact ⟨⟨by decide, by rintro e ⟨⟩; rfl, by simp⟩, by simp⟩) 3 (by omega)

end EulerDB.Statement
