/-
Queries with subqueries to any depth: what is written for them, and that it is read back.
-/
import Verif.Statement.Write

namespace EulerDB.Statement

open EulerDB EulerDB.Clause

/-- A query, its subqueries and theirs have expressions that can be written and are queries MySQL accepts. -/
def Deep.Fits (L : Leaves) (tx : Json → String) : (n : Nat) → Deep Json n → Prop
  | 0, q => nomatch q
  | n + 1, q => Query.Fits L tx (Deep.Fits L tx n) q

/-- No comma next to a join, and every join is written with its condition. -/
structure Query.Sound {σ : Type} (q : Query Json σ) : Prop where
  unmixed : q.Unmixed
  joins : ∀ t ∈ q.tables, ∀ j ∈ t.2, j.Sound

/-- The query, its subqueries and theirs are sound. -/
def Deep.Sound : (n : Nat) → Deep Json n → Prop
  | 0, q => nomatch q
  | n + 1, q => Query.Sound (σ := Deep Json n) q ∧ ∀ t ∈ Query.tables (σ := Deep Json n) q,
      (∀ s, t.1.base = .inr s → Deep.Sound n s) ∧ ∀ j ∈ t.2, ∀ s, j.src.base = .inr s → Deep.Sound n s

/-- What the code writes. -/
def Deep.written (tx : Json → String) : (n : Nat) → Deep Json n → List Tok
  | 0, q => nomatch q
  | n + 1, q => Query.written tx (Deep.written tx n) q

theorem deep_written {L : Leaves} {tx : Json → String} : ∀ (n : Nat) (q : Deep Json n), q.Fits L tx n → ∀ N, 2 * n + 1 ≤ N → ∀ p, 50 ≤ p ∨ p < 30 →
    dispatch L N (Deep.json n q) p = .ok (if 50 ≤ p then q.written tx n else parens (q.written tx n))
  | 0, q, _ => nomatch q
  | n + 1, q, hq => by
    intro N hN p hp
    obtain ⟨M, rfl⟩ : ∃ M, N = M + 1 := ⟨N - 1, by omega⟩
    have hs : SubWrites L (Deep.Fits L tx n) (Deep.json n) (Deep.written tx n) (2 * n + 1) := by
      intro s h
      match n, s with
      | k + 1, s =>
        refine ⟨Query.dict (Deep.json k) s, rfl, noJoin _ _, noSet _ _, fun N hN p hp => ?_⟩
        rw [deep_written (k + 1) s h N hN p (.inr hp), if_neg (by omega)]
    exact written_query hs hq (N := M) (by omega) (by omega) p hp

theorem toUpper_eq {s t : String} (h : s.toList.map Char.toUpper = t.toList) : s.toUpper = t := by
  rw [String.toUpper, ← String.toList_inj, String.toList_map, h]

theorem toUpper_join {k : String} (h : k ∈ joinWords) : k.toUpper ∈ mysqlJoins := by
  simp only [joinWords, List.mem_cons, List.not_mem_nil, or_false] at h
  rcases h with rfl | rfl | rfl | rfl | rfl | rfl | rfl
  · rw [toUpper_eq (t := "JOIN") (by decide)]; decide
  · rw [toUpper_eq (t := "CROSS JOIN") (by decide)]; decide
  · rw [toUpper_eq (t := "INNER JOIN") (by decide)]; decide
  · rw [toUpper_eq (t := "LEFT JOIN") (by decide)]; decide
  · rw [toUpper_eq (t := "RIGHT JOIN") (by decide)]; decide
  · rw [toUpper_eq (t := "RIGHT OUTER JOIN") (by decide)]; decide
  · rw [toUpper_eq (t := "LEFT OUTER JOIN") (by decide)]; decide

theorem Query.Fits.ok {σ : Type} {L : Leaves} {tx : Json → String} {P Q : σ → Prop} {q : Query Json σ} (h : q.Fits L tx P)
    (hj : ∀ t ∈ q.tables, ∀ j ∈ t.2, j.Sound)
    (hQ : ∀ t ∈ q.tables, (∀ s, t.1.base = .inr s → P s → Q s) ∧ ∀ j ∈ t.2, ∀ s, j.src.base = .inr s → P s → Q s) :
    (q.map tx id : Query String σ).Ok Q where
  items := by simpa [Query.map] using h.ne
  tables := by
    intro t ht s hs
    simp only [Query.map, List.mem_map] at ht
    obtain ⟨u, hu, rfl⟩ := ht
    simp only [Src.map] at hs
    cases hb : u.1.base with
    | inl a => simp [hb] at hs
    | inr x =>
      simp only [hb, id_eq, Sum.inr.injEq] at hs
      subst hs
      exact (hQ u hu).1 x hb ((h.tables u hu).1.deep x hb)
  joins := by
    intro t ht j hj'
    simp only [Query.map, List.mem_map] at ht
    obtain ⟨u, hu, rfl⟩ := ht
    simp only [List.mem_map] at hj'
    obtain ⟨i, hi, rfl⟩ := hj'
    have hf := (h.tables u hu).2 i hi
    have hs' := hj u hu i hi
    refine ⟨toUpper_join hs'.kind, ?_, ?_⟩
    · intro l hl
      simp only [Join.map] at hl
      cases hc : i.cond with
      | none => simp [hc, JCond.map] at hl
      | on e => simp [hc, JCond.map] at hl
      | cols m =>
        simp only [hc, JCond.map, JCond.cols.injEq] at hl
        subst hl
        have := hs'.cols m hc
        intro e
        simp at e
        simp [e] at this
    · intro s hs
      simp only [Join.map, Src.map] at hs
      cases hb : i.src.base with
      | inl a => simp [hb] at hs
      | inr x =>
        simp only [hb, id_eq, Sum.inr.injEq] at hs
        subst hs
        exact (hQ u hu).2 i hi x hb (hf.src.deep x hb)
  order := by
    intro o ho s hs
    simp only [Query.map, List.mem_map] at ho
    obtain ⟨u, hu, rfl⟩ := ho
    simp only [Option.map_eq_some_iff] at hs
    obtain ⟨x, hx, rfl⟩ := hs
    rcases (h.order u hu).2 x hx with rfl | rfl
    · exact .inl (toUpper_eq (by decide))
    · exact .inr (toUpper_eq (by decide))
  limit := by simpa [Query.map] using h.limit.1
  offset := by
    intro ho
    cases hc : q.offset with
    | none => simp [Query.map, hc] at ho
    | some e => simpa [Query.map] using (h.offset e hc).2

theorem Join.written_eq {σ : Type} (tx : Json → String) (st : σ → List Tok) {j : Join Json σ} (h : j.Sound) :
    j.written tx st = (j.map tx id).toks st := by
  obtain ⟨k, s, c⟩ := j
  match c, h with
  | .none, _ => rfl
  | .on e, h => simp [Join.written, Join.toks, Join.map, JCond.written, JCond.map, JCond.toks, h.on e rfl]
  | .cols [], h => exact absurd (h.cols _ rfl) (by simp)
  | .cols [c], h => exact absurd (h.cols _ rfl) (by simp)
  | .cols (a :: b :: l), h =>
    simp [Join.written, Join.toks, Join.map, JCond.written, JCond.map, JCond.toks, Function.comp_def]

theorem tableText_eq {σ : Type} (tx : Json → String) (st : σ → List Tok) {t : Src Json σ × List (Join Json σ)} (h : ∀ j ∈ t.2, j.Sound) :
    tableText tx st t = tableToks st (t.1.map tx id, t.2.map fun j => j.map tx id) := by
  simp only [tableText, tableToks, List.flatMap_map]
  congr 1
  rw [List.flatMap_def, List.flatMap_def]
  congr 1
  exact List.map_congr_left fun j hj => Join.written_eq tx st (h j hj)

theorem written_eq_toks {σ : Type} (tx : Json → String) (st : σ → List Tok) (q : Query Json σ) (h : q.Sound) :
    q.written tx st = (q.map tx id : Query String σ).toks st := by
  simp only [Query.written, Query.toks]
  congr 2
  have hm : (q.map tx id : Query String σ).tables.map (tableToks st) = q.tables.map (tableText tx st) := by
    simp only [Query.map, List.map_map]
    exact List.map_congr_left fun t ht => (tableText_eq tx st (h.joins t ht)).symm
  rw [hm]
  by_cases hn : q.tables = []
  · rw [if_pos hn, hn]; rfl
  · rw [if_neg hn, manyToks_ne _ (by simpa using hn), fromText]
    congr 1
    rcases h.unmixed with h | h
    · rw [if_neg]
      simp only [List.any_eq_true, not_exists, not_and]
      intro t ht
      simp [h t ht]
    · obtain ⟨t, ht⟩ := List.length_eq_one_iff.1 h
      rw [ht]
      split <;> simp [commaSep]

/-- The tables after their subqueries have been read. -/
theorem map_mapTable {σ τ : Type} (tx : Json → String) (g : σ → τ) (q : Query Json σ) :
    ({ distinct := q.distinct, items := (q.map tx id : Query String σ).items, tables := (q.map tx id).tables.map (mapTable g),
       cond := (q.map tx id : Query String σ).cond, group := (q.map tx id : Query String σ).group,
       having := (q.map tx id : Query String σ).having, order := (q.map tx id : Query String σ).order,
       limit := (q.map tx id : Query String σ).limit, offset := (q.map tx id : Query String σ).offset } : Query String τ) = q.map tx g := by
  have hsrc : ∀ s : Src Json σ, (s.map tx id).map id g = s.map tx g := by
    rintro ⟨b, a⟩
    cases b <;> simp [Src.map]
  simp only [Query.map, List.map_map, Query.mk.injEq, true_and, and_true]
  apply List.map_congr_left
  intro t _
  simp only [Function.comp_apply, mapTable, hsrc, Join.map, List.map_map, Prod.mk.injEq, true_and]
  apply List.map_congr_left
  intro j _
  simp [hsrc]

/-- **Reading back.** What is written for a sound query is read by MySQL as that query. -/
theorem deep_read {L : Leaves} {tx : Json → String} : ∀ (n : Nat) (q : Deep Json n), q.Fits L tx n → q.Sound n → ∀ rest, Ends [] rest →
    rDeep n (q.written tx n ++ rest) = some (q.map tx n, rest)
  | 0, q, _ => nomatch q
  | n + 1, q, hq => by
    intro hu rest hr
    have hs : SubReads (fun s => Deep.Fits L tx n s ∧ Deep.Sound n s) (Deep.written tx n) (rDeep n) (Deep.map tx n) := by
      rintro s ⟨h1, h2⟩ r
      exact deep_read n s h1 h2 _ trivial
    have hok := Query.Fits.ok (Q := fun s => Deep.Fits L tx n s ∧ Deep.Sound n s) hq hu.1.joins
      (fun t ht => ⟨fun s h hp => ⟨hp, (hu.2 t ht).1 s h⟩, fun j hj s h hp => ⟨hp, (hu.2 t ht).2 j hj s h⟩⟩)
    have := rQuery_toks hs _ hok rest hr
    rw [Deep.written, written_eq_toks _ _ _ hu.1, rDeep, this]
    exact congrArg (fun x => some (x, rest)) (map_mapTable tx (Deep.map tx n) q)

end EulerDB.Statement
