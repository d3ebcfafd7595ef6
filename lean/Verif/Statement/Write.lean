/-
What the formatter writes for a parsed query.
-/
import Verif.Statement.Read

namespace EulerDB.Statement

open EulerDB EulerDB.Clause

/-! ### Small facts -/

theorem each_ok {α β : Type} {f : α → Except PyErr β} {g : α → β} : ∀ (l : List α), (∀ x ∈ l, f x = .ok (g x)) → each f l = .ok (l.map g)
  | [], _ => rfl
  | a :: l, h => by simp only [each, h a (by simp), each_ok l (fun x hx => h x (by simp [hx])), List.map_cons]

theorem get?_entry (k k' : String) (o : Option Json) : Dict.get? (entry k o) k' = if k = k' then o else none := by
  cases o <;> simp [entry, Dict.get?_cons]

theorem get?_listEntry (k k' : String) (l : List Json) :
    Dict.get? (listEntry k l) k' = if k = k' ∧ l ≠ [] then some (unlist l) else none := by
  cases l with
  | nil => simp [listEntry]
  | cons a l => simp [listEntry, Dict.get?_cons]

/-- The keys by which `dispatch` recognises a statement, and those of the statements. -/
def stmtKeys : List String := ["drop", "value", "join", "insert"] ++ orderedClauses ++ unorderedClauses

/-- An expression that is no query, list or missing value. -/
def Plain : Json → Prop
  | .list _ => False
  | .null => False
  | .dict d => d ≠ [] ∧ hasAny d stmtKeys = false
  | _ => True

/-- An expression `ex` writes as the text `tx` gives it. -/
def Good (L : Leaves) (tx : Json → String) (e : Json) : Prop := Plain e ∧ L.ex e = .ok (tx e)

theorem dispatch_good {L : Leaves} {tx : Json → String} {e : Json} (h : Good L tx e) (n p : Nat) :
    dispatch L (n + 1) e p = .ok [.leaf (tx e)] := by
  obtain ⟨h1, h2⟩ := h
  cases e with
  | list l => exact absurd h1 (by simp [Plain])
  | null => exact absurd h1 (by simp [Plain])
  | dict d =>
    obtain ⟨h3, h4⟩ := h1
    have h5 : d.isEmpty = false := by simpa using h3
    simp only [hasAny, stmtKeys, List.any_append, Bool.or_eq_false_iff] at h4
    obtain ⟨⟨h6, h7⟩, h8⟩ := h4
    simp only [List.any_cons, List.any_nil, Bool.or_false, Bool.or_eq_false_iff] at h6
    obtain ⟨h9, h10, h11, h12⟩ := h6
    have h13 : Dict.get? d "value" = none := by simpa [hasKey] using h10
    simp [dispatch, h5, h9, h13, h11, h12, hasAny, h7, h8, leafOf, h2, Except.map]
  | int z => simp [dispatch, leafOf, h2, Except.map]
  | float z => simp [dispatch, leafOf, h2, Except.map]
  | str z => simp [dispatch, leafOf, h2, Except.map]

theorem listwrap_unlist (l : List Json) (hn : l ≠ []) (h : ∀ j ∈ l, (∀ m, j ≠ .list m) ∧ j ≠ .null) : listwrap (unlist l) = l := by
  match l, hn with
  | [j], _ =>
    have := h j (by simp)
    cases j with
    | list m => exact absurd rfl (this.1 m)
    | null => exact absurd rfl this.2
    | _ => rfl
  | a :: b :: r, _ => rfl

theorem Good.notList {L : Leaves} {tx : Json → String} {e : Json} (h : Good L tx e) : (∀ m, e ≠ .list m) ∧ e ≠ .null := by
  obtain ⟨h, _⟩ := h
  cases e <;> simp_all [Plain]

/-! ### Which queries -/

section
variable {σ : Type} (L : Leaves) (tx : Json → String) (P : σ → Prop)

/-- The joins of the grammar that MySQL has. -/
def joinWords : List String :=
  ["join", "cross join", "inner join", "left join", "right join", "right outer join", "left outer join"]

structure Src.Fits (s : Src Json σ) : Prop where
  base : ∀ e, s.base = .inl e → (∃ n, e = .str n) ∧ Good L tx e
  nick : ∀ a, s.nick = some a → Good L tx a
  deep : ∀ q, s.base = .inr q → P q

structure Join.Fits (j : Join Json σ) : Prop where
  kind : j.kind ∈ joinKeywords
  src : j.src.Fits L tx P
  on : ∀ e, j.cond = .on e → Good L tx e
  cols : ∀ l, j.cond = .cols l → ∀ e ∈ l, Good L tx e

/-- The expressions of the query can be written, and apart from its joins it is a query MySQL would accept. -/
structure Query.Fits (q : Query Json σ) : Prop where
  ne : q.items ≠ []
  items : ∀ i ∈ q.items, Good L tx i.1 ∧ ∀ a, i.2 = some a → Good L tx a
  tables : ∀ t ∈ q.tables, t.1.Fits L tx P ∧ ∀ j ∈ t.2, j.Fits L tx P
  cond : ∀ e, q.cond = some e → Good L tx e
  group : ∀ e ∈ q.group, Good L tx e
  having : ∀ e, q.having = some e → Good L tx e
  order : ∀ o ∈ q.order, Good L tx o.1 ∧ ∀ s, o.2 = some s → s = "asc" ∨ s = "desc"
  limit : q.limit.length ≤ 2 ∧ ∀ e ∈ q.limit, Good L tx e
  offset : ∀ e, q.offset = some e → Good L tx e ∧ q.limit.length = 1

/-- A join of MySQL whose condition is written: not false for Python, nor USING with one column. -/
structure Join.Sound {σ : Type} (j : Join Json σ) : Prop where
  kind : j.kind ∈ joinWords
  on : ∀ e, j.cond = .on e → truthy e = true
  cols : ∀ l, j.cond = .cols l → 2 ≤ l.length

/-- No comma next to a join. -/
def Query.Unmixed {α : Type} (q : Query α σ) : Prop := (∀ t ∈ q.tables, t.2 = []) ∨ q.tables.length = 1

/-- What is known of the subqueries: `st` is what is written for them between parentheses. -/
def SubWrites (sub : σ → Json) (st : σ → List Tok) (m : Nat) : Prop :=
  ∀ s, P s → ∃ d, sub s = .dict d ∧ hasAny d joinKeywords = false ∧ hasAny d setOps = false ∧
    ∀ N, m ≤ N → ∀ p, p < 30 → dispatch L N (sub s) p = .ok (parens (st s))

end

/-! ### Looking up the clauses -/

section
variable {σ : Type} (sub : σ → Json) (q : Query Json σ)

theorem get?_dict (k : String) : Dict.get? (q.dict sub) k =
    if (if q.distinct then "select_distinct" else "select") = k then some (unlist (q.items.map itemJson))
    else ((if "from" = k ∧ q.tables.flatMap (tableJson sub) ≠ [] then some (unlist (q.tables.flatMap (tableJson sub))) else none).or
      ((if "where" = k then q.cond else none).or
      ((if "groupby" = k ∧ (q.group.map fun e => Json.dict [("value", e)]) ≠ [] then
          some (unlist (q.group.map fun e => Json.dict [("value", e)])) else none).or
      ((if "having" = k then q.having else none).or
      ((if "orderby" = k ∧ q.order.map orderJson ≠ [] then some (unlist (q.order.map orderJson)) else none).or
      ((if "limit" = k ∧ q.limit ≠ [] then some (unlist q.limit) else none).or
      (if "offset" = k then q.offset else none))))))) := by
  simp only [Query.dict, Dict.get?_cons, Dict.get?_append, get?_entry, get?_listEntry, Option.or_assoc]

theorem get?_other (k : String)
    (hk : k ∉ ["select", "select_distinct", "from", "where", "groupby", "having", "orderby", "limit", "offset"]) :
    Dict.get? (q.dict sub) k = none := by
  simp only [List.mem_cons, List.not_mem_nil, or_false, not_or] at hk
  obtain ⟨h1, h2, h3, h4, h5, h6, h7, h8, h9⟩ := hk
  rw [get?_dict]
  have h0 : (if q.distinct then "select_distinct" else "select") ≠ k := by
    split
    · exact fun e => h2 e.symm
    · exact fun e => h1 e.symm
  simp [h0, Ne.symm h3, Ne.symm h4, Ne.symm h5, Ne.symm h6, Ne.symm h7, Ne.symm h8, Ne.symm h9]

theorem noJoin : hasAny (q.dict sub) joinKeywords = false := by
  simp only [hasAny, List.any_eq_false]
  intro k hk
  rw [hasKey, get?_other sub q k]
  · simp
  · revert hk; revert k; decide

theorem noSet : hasAny (q.dict sub) setOps = false := by
  simp only [hasAny, List.any_eq_false]
  intro k hk
  rw [hasKey, get?_other sub q k]
  · simp
  · revert hk; revert k; decide

end

/-! ### Writing the clauses -/

section
variable {σ : Type} {L : Leaves} {tx : Json → String} {sub : σ → Json} {st : σ → List Tok} {m : Nat}

theorem clauses_none {disp : Json → Nat → Except PyErr (List Tok)} {d : Dict String Json} {k : String} (ks : List String)
    (h : Dict.get? d k = none) : clauses L disp d (k :: ks) = clauses L disp d ks := by
  simp [clauses, h]

theorem clauses_some {disp : Json → Nat → Except PyErr (List Tok)} {d : Dict String Json} {k : String} {ks : List String} {v : Json}
    {t r : List Tok} (h : Dict.get? d k = some v) (h1 : clauseToks L disp d k v = .ok t) (h2 : clauses L disp d ks = .ok r) :
    clauses L disp d (k :: ks) = .ok (t ++ r) := by
  simp [clauses, h, h1, h2]

/-- One clause that may be missing. -/
theorem clauses_step {disp : Json → Nat → Except PyErr (List Tok)} {d : Dict String Json} {k : String} {ks : List String}
    {t r : List Tok} (h1 : (Dict.get? d k = none ∧ t = []) ∨ ∃ v, Dict.get? d k = some v ∧ clauseToks L disp d k v = .ok t)
    (h2 : clauses L disp d ks = .ok r) : clauses L disp d (k :: ks) = .ok (t ++ r) := by
  rcases h1 with ⟨h, rfl⟩ | ⟨v, h, h1⟩
  · rw [clauses_none ks h, h2]; rfl
  · exact clauses_some h h1 h2

theorem dispatch_value (v : Json) (n p : Nat) : dispatch L (n + 1) (.dict [("value", v)]) p = dispatch L n v p := by
  rw [dispatch]
  simp (decide := true) [hasKey, Dict.get?_cons, valueToks]
  cases dispatch L n v p <;> rfl

theorem dispatch_named (v a : Json) (n p : Nat) : dispatch L (n + 1) (.dict [("value", v), ("name", a)]) p =
    (match dispatch L n v p with
      | .error e => .error e
      | .ok t =>
        match dispatch L n a 100 with
        | .error e => .error e
        | .ok a => .ok (t ++ .kw "AS" :: a)) := by
  rw [dispatch]
  simp (decide := true) [hasKey, Dict.get?_cons, valueToks]
  cases dispatch L n v p with
  | error e => rfl
  | ok t => cases dispatch L n a 100 <;> rfl

theorem noJoin_named (v a : Json) : hasAny [("value", v), ("name", a)] joinKeywords = false := by
  simp (decide := true) [hasAny, joinKeywords, hasKey, Dict.get?_cons]

theorem noSet_named (v a : Json) : hasAny [("value", v), ("name", a)] setOps = false := by
  simp (decide := true) [hasAny, setOps, hasKey, Dict.get?_cons]

theorem dispatch_item {i : Json × Option Json} (h : Good L tx i.1 ∧ ∀ a, i.2 = some a → Good L tx a) (n p : Nat) :
    dispatch L (n + 2) (itemJson i) p = .ok (itemToks (tx i.1, i.2.map tx)) := by
  obtain ⟨e, a⟩ := i
  cases a with
  | none =>
    simp [itemJson, dispatch_value, dispatch_good h.1, itemToks, aliasToks]
  | some a =>
    simp [itemJson, dispatch_named, dispatch_good h.1, dispatch_good (h.2 a rfl), itemToks, aliasToks]

theorem dispatch_src (hs : SubWrites L P sub st m) {s : Src Json σ} (h : s.Fits L tx P) {N : Nat} (hN : m + 1 ≤ N) (h2 : 2 ≤ N) {p : Nat} (hp : p < 30) :
    dispatch L N (s.json sub) p = .ok ((s.map tx id).toks st) := by
  obtain ⟨b, a⟩ := s
  obtain ⟨n, rfl⟩ : ∃ n, N = n + 2 := ⟨N - 2, by omega⟩
  cases b with
  | inl e =>
    obtain ⟨⟨s, rfl⟩, hg⟩ := h.base e rfl
    cases a with
    | none => simp [Src.json, dispatch_good hg, Src.toks, Src.map, aliasToks]
    | some a =>
      simp [Src.json, dispatch_named, dispatch_good hg, dispatch_good (h.nick a rfl), Src.toks, Src.map, aliasToks]
  | inr q =>
    obtain ⟨d, h3, h4, h5, h6⟩ := hs q (h.deep q rfl)
    cases a with
    | none =>
      simp [Src.json, h6 (n + 2) (by omega) p hp, Src.toks, Src.map, aliasToks]
    | some a =>
      simp [Src.json, dispatch_named, h6 (n + 1) (by omega) p hp, dispatch_good (h.nick a rfl), Src.toks, Src.map, aliasToks]

theorem fromItem_src (hs : SubWrites L P sub st m) {s : Src Json σ} (h : s.Fits L tx P) {N : Nat} (hN : m + 1 ≤ N) (h2 : 2 ≤ N) :
    fromItem (dispatch L N) (s.json sub) = .ok (false, (s.map tx id).toks st) := by
  have h1 := dispatch_src hs h hN h2 (p := 29) (by omega)
  obtain ⟨b, a⟩ := s
  cases a with
  | some a =>
    simp only [Src.json] at h1 ⊢
    simp [fromItem, noJoin_named, h1, Except.map]
  | none =>
    cases b with
    | inl e =>
      obtain ⟨⟨s, rfl⟩, hg⟩ := h.base e rfl
      simp only [Src.json] at h1 ⊢
      simp [fromItem, h1, Except.map]
    | inr q =>
      obtain ⟨d, h3, h4, h5, h6⟩ := hs q (h.deep q rfl)
      simp only [Src.json, h3] at h1 ⊢
      simp [fromItem, h4, h1, Except.map]

theorem dispatch_list {l : List Json} (h : ∀ e ∈ l, Good L tx e) (n p : Nat) :
    dispatch L (n + 2) (.list l) p = .ok (parens (commaSep (l.map fun e => [.leaf (tx e)]))) := by
  have := each_ok (f := fun e => dispatch L (n + 1) e 100) (g := fun e => [Tok.leaf (tx e)]) l (fun e he => dispatch_good (h e he) n 100)
  rw [dispatch]
  simp only [this]
  rfl

theorem unlist_many {l : List Json} (h : 2 ≤ l.length) : unlist l = .list l := by
  match l, h with
  | _ :: _ :: _, _ => rfl

/-- What is written for the condition of a join, formatting.py 448-453. -/
def JCond.written (tx : Json → String) : JCond Json → List Tok
  | .none => []
  | .on e => if truthy e then [.kw "ON", .leaf (tx e)] else []
  | .cols [] => []
  | .cols [c] => if truthy c then [.kw "USING", .leaf (tx c)] else []
  | .cols l => .kw "USING" :: parens (commaSep (l.map fun e => [.leaf (tx e)]))

def Join.written (tx : Json → String) (st : σ → List Tok) (j : Join Json σ) : List Tok :=
  .kw j.kind.toUpper :: ((j.src.map tx id).toks st ++ j.cond.written tx)

def tableText (tx : Json → String) (st : σ → List Tok) (t : Src Json σ × List (Join Json σ)) : List Tok :=
  (t.1.map tx id).toks st ++ t.2.flatMap (Join.written tx st)

theorem fromItem_join (hs : SubWrites L P sub st m) {j : Join Json σ} (h : j.Fits L tx P) {N : Nat} (hN : m + 1 ≤ N) (h2 : 2 ≤ N) :
    fromItem (dispatch L N) (j.json sub) = .ok (true, j.written tx st) := by
  have h1 := dispatch_src hs h.src hN h2 (p := 18) (by omega)
  obtain ⟨n, rfl⟩ : ∃ n, N = n + 2 := ⟨N - 2, by omega⟩
  obtain ⟨k, s, c⟩ := j
  have hk := h.kind
  simp only [] at hk h1
  simp only [joinKeywords, List.mem_cons, List.not_mem_nil, or_false] at hk
  match c, h with
  | .none, h =>
    rcases hk with rfl | rfl | rfl | rfl | rfl | rfl | rfl | rfl | rfl <;>
      simp (decide := true) [Join.json, fromItem, hasAny, joinKeywords, hasKey, Dict.get?_cons, joinOn, Dict.getItem, h1, joinCond, Except.map, Join.written,
        JCond.written]
  | .on e, h =>
    have hg := h.on e rfl
    by_cases ht : truthy e = true <;>
      rcases hk with rfl | rfl | rfl | rfl | rfl | rfl | rfl | rfl | rfl <;>
      simp (decide := true) [Join.json, fromItem, hasAny, joinKeywords, hasKey, Dict.get?_cons, joinOn, Dict.getItem, h1, joinCond, Except.map, Join.written,
        JCond.written, ht, dispatch_good hg]
  | .cols [], h =>
    rcases hk with rfl | rfl | rfl | rfl | rfl | rfl | rfl | rfl | rfl <;>
      simp (decide := true) [Join.json, fromItem, hasAny, joinKeywords, hasKey, Dict.get?_cons, joinOn, Dict.getItem, h1, joinCond, Except.map, Join.written,
        JCond.written, unlist]
  | .cols [c], h =>
    have hg := h.cols _ rfl c (by simp)
    by_cases ht : truthy c = true <;>
      rcases hk with rfl | rfl | rfl | rfl | rfl | rfl | rfl | rfl | rfl <;>
      simp (decide := true) [Join.json, fromItem, hasAny, joinKeywords, hasKey, Dict.get?_cons, joinOn, Dict.getItem, h1, joinCond, Except.map, Join.written,
        JCond.written, unlist, ht, dispatch_good hg]
  | .cols (a :: b :: l), h =>
    have hg := h.cols _ rfl
    rcases hk with rfl | rfl | rfl | rfl | rfl | rfl | rfl | rfl | rfl <;>
      simp (decide := true) [Join.json, fromItem, hasAny, joinKeywords, hasKey, Dict.get?_cons, joinOn, Dict.getItem, h1, joinCond, Except.map, Join.written,
        JCond.written, unlist, truthy, dispatch_list hg]

/-- FROM, whatever its members are. -/
theorem fromToks_unlist {disp : Json → Nat → Except PyErr (List Tok)} {l : List Json} (hl : l ≠ []) {f : Json → Bool × List Tok}
    (h : ∀ j ∈ l, fromItem disp j = .ok (f j)) (hs : ∀ d, .dict d ∈ l → hasAny d setOps = false) (hn : ∀ m, .list m ∉ l) :
    fromToks L disp (unlist l) =
      .ok (.kw "FROM" :: (if l.any (fun j => (f j).1) then (l.map fun j => (f j).2).flatten else commaSep (l.map fun j => (f j).2))) := by
  have he := each_ok l h
  match l, hl with
  | [j], _ =>
    have h1 := h j (by simp)
    cases j with
    | dict d =>
      simp only [unlist, fromToks, hs d (by simp)]
      simp [h1, Except.map, commaSep]
    | list m => exact absurd (by simp) (hn m)
    | null => simp [fromItem] at h1
    | int z => simp [fromItem] at h1
    | float z => simp [fromItem] at h1
    | str z =>
      simp only [unlist, fromToks, listwrap, he]
      simp [commaSep]
  | a :: b :: r, _ =>
    simp only [unlist, fromToks, listwrap, he, List.any_map, List.map_map]
    rfl

theorem Src.json_cases (hs : SubWrites L P sub st m) {s : Src Json σ} (h : s.Fits L tx P) :
    (∀ l, s.json sub ≠ .list l) ∧ ∀ d, s.json sub = .dict d → hasAny d setOps = false := by
  obtain ⟨b, a⟩ := s
  cases a with
  | some a =>
    simp only [Src.json]
    refine ⟨by simp, ?_⟩
    rintro d hd
    simp only [Json.dict.injEq] at hd
    rw [← hd]
    exact noSet_named _ _
  | none =>
    cases b with
    | inl e =>
      obtain ⟨⟨s, rfl⟩, hg⟩ := h.base e rfl
      simp [Src.json]
    | inr q =>
      obtain ⟨d, h3, h4, h5, h6⟩ := hs q (h.deep q rfl)
      simp [Src.json, h3, h5]

theorem Join.json_cases {j : Join Json σ} (h : j.Fits L tx P) :
    (∀ l, j.json sub ≠ .list l) ∧ ∀ d, j.json sub = .dict d → hasAny d setOps = false := by
  obtain ⟨k, s, c⟩ := j
  have hk := h.kind
  simp only [joinKeywords, List.mem_cons, List.not_mem_nil, or_false] at hk
  cases c <;> refine ⟨by simp [Join.json], ?_⟩ <;> rintro d hd <;> simp only [Join.json, Json.dict.injEq] at hd <;> subst hd <;>
    rcases hk with rfl | rfl | rfl | rfl | rfl | rfl | rfl | rfl | rfl <;>
    simp (decide := true) [hasAny, setOps, hasKey, Dict.get?_cons]

/-- What is written for the tables, with or without commas. -/
def fromText (tx : Json → String) (st : σ → List Tok) (ts : List (Src Json σ × List (Join Json σ))) : List Tok :=
  if ts.any (fun t => !t.2.isEmpty) then ts.flatMap (tableText tx st) else commaSep (ts.map (tableText tx st))

theorem fromToks_tables (hs : SubWrites L P sub st m) (ts : List (Src Json σ × List (Join Json σ))) (hne : ts ≠ [])
    (h : ∀ t ∈ ts, t.1.Fits L tx P ∧ ∀ j ∈ t.2, j.Fits L tx P) {N : Nat} (hN : m + 1 ≤ N) (h2 : 2 ≤ N) :
    fromToks L (dispatch L N) (unlist (ts.flatMap (tableJson sub))) =
      .ok (.kw "FROM" :: fromText tx st ts) := by
  classical
  have hitem : ∀ j ∈ ts.flatMap (tableJson sub), ∃ p, fromItem (dispatch L N) j = .ok p := by
    intro j hj
    simp only [List.mem_flatMap, tableJson, List.mem_cons, List.mem_map] at hj
    obtain ⟨t, ht, rfl | ⟨jn, hjn, rfl⟩⟩ := hj
    · exact ⟨_, fromItem_src hs (h t ht).1 hN h2⟩
    · exact ⟨_, fromItem_join hs ((h t ht).2 jn hjn) hN h2⟩
  let f : Json → Bool × List Tok := fun j => match fromItem (dispatch L N) j with | .ok p => p | .error _ => (false, [])
  have hf : ∀ j ∈ ts.flatMap (tableJson sub), fromItem (dispatch L N) j = .ok (f j) := by
    intro j hj
    obtain ⟨p, hp⟩ := hitem j hj
    simp [f, hp]
  have hcases : ∀ j ∈ ts.flatMap (tableJson sub), (∀ l, j ≠ .list l) ∧ ∀ d, j = .dict d → hasAny d setOps = false := by
    intro j hj
    simp only [List.mem_flatMap, tableJson, List.mem_cons, List.mem_map] at hj
    obtain ⟨t, ht, rfl | ⟨jn, hjn, rfl⟩⟩ := hj
    · exact Src.json_cases hs (h t ht).1
    · exact Join.json_cases ((h t ht).2 jn hjn)
  have hl : ts.flatMap (tableJson sub) ≠ [] := by
    cases ts with
    | nil => exact absurd rfl hne
    | cons a b => simp [tableJson]
  rw [fromToks_unlist hl hf (fun d hd => (hcases _ hd).2 d rfl) (fun m hm => (hcases _ hm).1 m rfl)]
  have hfs : ∀ t ∈ ts, f (t.1.json sub) = (false, (t.1.map tx id).toks st) := by
    intro t ht
    simp [f, fromItem_src hs (h t ht).1 hN h2]
  have hfj : ∀ t ∈ ts, ∀ j ∈ t.2, f (j.json sub) = (true, j.written tx st) := by
    intro t ht j hj
    simp [f, fromItem_join hs ((h t ht).2 j hj) hN h2]
  by_cases hj : ∀ t ∈ ts, t.2 = []
  · have h3 : ts.flatMap (tableJson sub) = ts.map fun t => t.1.json sub := by
      rw [List.flatMap_def]
      have : ts.map (tableJson sub) = ts.map fun t => [t.1.json sub] :=
        List.map_congr_left fun t ht => by simp [tableJson, hj t ht]
      rw [this, ← List.flatMap_def, List.map_eq_flatMap]
    have h4 : (ts.flatMap (tableJson sub)).any (fun j => (f j).1) = false := by
      rw [h3, List.any_map, List.any_eq_false]
      intro t ht
      simp [hfs t ht]
    have h5 : ts.any (fun t => !t.2.isEmpty) = false := by
      rw [List.any_eq_false]
      intro t ht
      simp [hj t ht]
    rw [h4, fromText, h5, h3]
    simp only [List.map_map]
    have h6 : ts.map ((fun j => (f j).2) ∘ fun t => t.1.json sub) =
        ts.map (tableText tx st) :=
      List.map_congr_left fun t ht => by simp [hfs t ht, tableText, hj t ht]
    rw [h6]
    rfl
  · simp only [not_forall] at hj
    obtain ⟨t, ht, hj⟩ := hj
    obtain ⟨j, js, hjs⟩ : ∃ j js, t.2 = j :: js := by
      cases h : t.2 with
      | nil => exact absurd h hj
      | cons j js => exact ⟨j, js, rfl⟩
    have h4 : (ts.flatMap (tableJson sub)).any (fun j => (f j).1) = true := by
      rw [List.any_eq_true]
      refine ⟨j.json sub, ?_, ?_⟩
      · simp only [List.mem_flatMap, tableJson, List.mem_cons, List.mem_map]
        exact ⟨t, ht, .inr ⟨j, by simp [hjs], rfl⟩⟩
      · rw [hfj t ht j (by simp [hjs])]
    have h5 : ts.any (fun t => !t.2.isEmpty) = true := by
      rw [List.any_eq_true]
      exact ⟨t, ht, by simp [hjs]⟩
    rw [h4, fromText, h5]
    have h6 : ∀ (us : List (Src Json σ × List (Join Json σ))), (∀ t ∈ us, t ∈ ts) →
        ((us.flatMap (tableJson sub)).map fun j => (f j).2).flatten =
          us.flatMap (tableText tx st) := by
      intro us
      induction us with
      | nil => intro _; rfl
      | cons u us ih =>
        intro hu
        rw [List.flatMap_cons, List.map_append, List.flatten_append, ih (fun t ht => hu t (by simp [ht])), List.flatMap_cons]
        congr 1
        simp only [tableJson, List.map_cons, List.flatten_cons, hfs u (hu u (by simp)), tableText, List.map_map]
        congr 1
        rw [List.flatMap_def]
        congr 1
        exact List.map_congr_left fun j hj => by simp [hfj u (hu u (by simp)) j hj]
    simp only [if_true]
    rw [h6 ts (fun _ h => h)]

/-! ### The whole query -/

theorem orderItem_ok {o : Json × Option String} (h : Good L tx o.1 ∧ ∀ s, o.2 = some s → s = "asc" ∨ s = "desc") (n : Nat) :
    orderItem (dispatch L (n + 1)) (orderJson o) = .ok (orderToks (tx o.1, o.2.map String.toUpper)) := by
  obtain ⟨e, d⟩ := o
  cases d with
  | none => simp (decide := true) [orderJson, orderItem, Dict.getItem, Dict.get?_cons, dispatch_good h.1, orderToks]
  | some s =>
    rcases h.2 s rfl with rfl | rfl <;>
      simp (decide := true) [orderJson, orderItem, Dict.getItem, Dict.get?_cons, dispatch_good h.1, orderToks]

/-- The pieces written for a query: those MySQL wants, except that FROM is `fromText`. -/
def Query.written (tx : Json → String) (st : σ → List Tok) (q : Query Json σ) : List Tok :=
  (q.map tx id : Query String σ).head ++ ((if q.tables = [] then [] else .kw "FROM" :: fromText tx st q.tables) ++
    (q.map tx id : Query String σ).tail)

theorem each_items {q : Query Json σ} (hq : q.Fits L tx P) (n : Nat) :
    each (fun j => dispatch L (n + 2) j 100) (listwrap (unlist (q.items.map itemJson))) = .ok ((q.map tx id : Query String σ).items.map itemToks) := by
  rw [listwrap_unlist _ (by simpa using hq.ne)]
  · have h : ∀ (l : List (Json × Option Json)), (∀ i ∈ l, Good L tx i.1 ∧ ∀ a, i.2 = some a → Good L tx a) →
        each (fun j => dispatch L (n + 2) j 100) (l.map itemJson) = .ok ((l.map fun i => (tx i.1, i.2.map tx)).map itemToks) := by
      intro l
      induction l with
      | nil => intro _; rfl
      | cons i l ih =>
        intro hl
        simp only [List.map_cons, each, dispatch_item (hl i (by simp)) n 100, ih (fun i hi => hl i (by simp [hi]))]
    exact h q.items hq.items
  · intro j hj
    simp only [List.mem_map] at hj
    obtain ⟨⟨e, a⟩, _, rfl⟩ := hj
    cases a <;> simp [itemJson]

theorem each_map {α β γ : Type} {f : α → Except PyErr β} {k : γ → α} {g : γ → β} : ∀ (l : List γ), (∀ x ∈ l, f (k x) = .ok (g x)) →
    each f (l.map k) = .ok (l.map g)
  | [], _ => rfl
  | a :: l, h => by simp only [List.map_cons, each, h a (by simp), each_map l (fun x hx => h x (by simp [hx]))]

theorem manyToks_ne (w : Tok) {l : List (List Tok)} (h : l ≠ []) : manyToks [w] l = w :: commaSep l := by
  cases l with
  | nil => exact absurd rfl h
  | cons a l => rfl

theorem unordered_written (hs : SubWrites L P sub st m) {q : Query Json σ} (hq : q.Fits L tx P) {N : Nat} (hN : m + 1 ≤ N) (h2 : 2 ≤ N) :
    clauses L (dispatch L N) (q.dict sub) unorderedClauses =
      .ok ((q.map tx id : Query String σ).head ++ ((if q.tables = [] then [] else .kw "FROM" :: fromText tx st q.tables) ++
        (optToks "WHERE" (q.cond.map tx) ++ (manyToks [.kw "GROUP BY"] ((q.group.map tx).map fun e => [.leaf e]) ++
          optToks "HAVING" (q.having.map tx))))) := by
  obtain ⟨n, rfl⟩ : ∃ n, N = n + 2 := ⟨N - 2, by omega⟩
  have hitems := each_items (σ := σ) hq n
  have h0 := fun k hk => get?_other sub q k hk
  -- HAVING
  have c11 : clauses L (dispatch L (n + 2)) (q.dict sub) ["having"] = .ok (optToks "HAVING" (q.having.map tx) ++ []) := by
    refine clauses_step ?_ rfl
    have hg : Dict.get? (q.dict sub) "having" = q.having := by
      rw [get?_dict]
      cases q.distinct <;> cases q.having <;> simp (decide := true)
    cases hh : q.having with
    | none => exact .inl ⟨by rw [hg, hh], rfl⟩
    | some e =>
      refine .inr ⟨e, by rw [hg, hh], ?_⟩
      simp (decide := true) [clauseToks, dispatch_good (hq.having e hh), Except.map, optToks]
  -- GROUP BY
  have c10 := clauses_step (k := "groupby") (t := manyToks [.kw "GROUP BY"] ((q.group.map tx).map fun e => [.leaf e])) (by
    have hg : Dict.get? (q.dict sub) "groupby" = if q.group = [] then none else some (unlist (q.group.map fun e => Json.dict [("value", e)])) := by
      rw [get?_dict]
      cases q.distinct <;> cases q.group <;> simp (decide := true)
    by_cases hh : q.group = []
    · exact .inl ⟨by rw [hg, if_pos hh], by rw [hh]; rfl⟩
    · refine .inr ⟨_, by rw [hg, if_neg hh], ?_⟩
      have he : each (fun j => dispatch L (n + 2) j 100) (q.group.map fun e => Json.dict [("value", e)]) =
          .ok (q.group.map fun e => [.leaf (tx e)]) :=
        each_map q.group (fun e he => by rw [dispatch_value, dispatch_good (hq.group e he)])
      have hw := listwrap_unlist (q.group.map fun e => Json.dict [("value", e)]) (by simpa using hh) (by simp)
      have hm := manyToks_ne (.kw "GROUP BY") (l := (q.group.map tx).map fun e => [.leaf e]) (by simpa using hh)
      rw [hm]
      simp (decide := true) [clauseToks, listToks, hw, he, Except.map, Function.comp_def]) c11
  -- WHERE
  have c9 := clauses_step (k := "where") (t := optToks "WHERE" (q.cond.map tx)) (by
    have hg : Dict.get? (q.dict sub) "where" = q.cond := by
      rw [get?_dict]
      cases q.distinct <;> cases q.cond <;> simp (decide := true)
    cases hh : q.cond with
    | none => exact .inl ⟨by rw [hg, hh], rfl⟩
    | some e =>
      refine .inr ⟨e, by rw [hg, hh], ?_⟩
      simp (decide := true) [clauseToks, dispatch_good (hq.cond e hh), Except.map, optToks]) c10
  -- FROM
  have c8 := clauses_step (k := "from") (t := if q.tables = [] then [] else .kw "FROM" :: fromText tx st q.tables) (by
    have hg : Dict.get? (q.dict sub) "from" = if q.tables = [] then none else some (unlist (q.tables.flatMap (tableJson sub))) := by
      rw [get?_dict]
      have : q.tables.flatMap (tableJson sub) = [] ↔ q.tables = [] := by
        cases q.tables <;> simp [tableJson]
      cases q.distinct <;> simp (decide := true) [this]
    by_cases hh : q.tables = []
    · exact .inl ⟨by rw [hg, if_pos hh], by rw [if_pos hh]⟩
    · refine .inr ⟨_, by rw [hg, if_neg hh], ?_⟩
      rw [if_neg hh]
      have := fromToks_tables hs q.tables hh hq.tables hN h2
      simpa (decide := true) [clauseToks, Query.map] using this) c9
  have c7 := (clauses_none (L := L) (disp := dispatch L (n + 2)) ["from", "where", "groupby", "having"] (h0 "set" (by decide))).trans c8
  have c6 := (clauses_none (L := L) (disp := dispatch L (n + 2)) ["set", "from", "where", "groupby", "having"] (h0 "update" (by decide))).trans c7
  have c5 := (clauses_none (L := L) (disp := dispatch L (n + 2)) ["update", "set", "from", "where", "groupby", "having"] (h0 "delete" (by decide))).trans c6
  have c4 := clauses_step (k := "select") (t := if q.distinct then [] else (q.map tx id : Query String σ).head) (by
    cases hd : q.distinct with
    | true => exact .inl ⟨by rw [get?_dict]; simp (decide := true) [hd], rfl⟩
    | false =>
      refine .inr ⟨unlist (q.items.map itemJson), by rw [get?_dict]; simp (decide := true) [hd], ?_⟩
      have ht := h0 "top" (by decide)
      have hon := h0 "distinct_on" (by decide)
      simp (decide := true) [clauseToks, hitems, ht, hasKey, hon, Query.head, Query.map, hd]) c5
  have c3 := clauses_step (k := "select_distinct") (t := if q.distinct then (q.map tx id : Query String σ).head else []) (by
    cases hd : q.distinct with
    | false => exact .inl ⟨by rw [get?_dict]; simp (decide := true) [hd], rfl⟩
    | true =>
      refine .inr ⟨unlist (q.items.map itemJson), by rw [get?_dict]; simp (decide := true) [hd], ?_⟩
      simp (decide := true) [clauseToks, listToks, hitems, Query.head, Query.map, hd, Except.map]) c4
  have c2 := (clauses_none (L := L) (disp := dispatch L (n + 2)) _ (h0 "distinct_on" (by decide))).trans c3
  have c1 := (clauses_none (L := L) (disp := dispatch L (n + 2)) _ (h0 "with" (by decide))).trans c2
  rw [unorderedClauses, c1]
  cases q.distinct <;> simp

theorem ordered_written {q : Query Json σ} (hq : q.Fits L tx P) {N : Nat} (h2 : 2 ≤ N) :
    clauses L (dispatch L N) (q.dict sub) orderedClauses =
      .ok (manyToks [.kw "ORDER BY"] ((q.map tx id : Query String σ).order.map orderToks) ++
        (manyToks [.kw "LIMIT"] ((q.limit.map tx).map fun e => [.leaf e]) ++ optToks "OFFSET" (q.offset.map tx))) := by
  obtain ⟨n, rfl⟩ : ∃ n, N = n + 2 := ⟨N - 2, by omega⟩
  have h0 := fun k hk => get?_other sub q k hk
  have c4 : clauses L (dispatch L (n + 2)) (q.dict sub) ["fetch"] = .ok [] := by
    rw [clauses_none _ (h0 "fetch" (by decide))]; rfl
  have c3 := clauses_step (k := "offset") (t := optToks "OFFSET" (q.offset.map tx)) (by
    have hg : Dict.get? (q.dict sub) "offset" = q.offset := by
      rw [get?_dict]
      cases q.distinct <;> cases q.offset <;> simp (decide := true)
    cases hh : q.offset with
    | none => exact .inl ⟨by rw [hg, hh], rfl⟩
    | some e =>
      refine .inr ⟨e, by rw [hg, hh], ?_⟩
      simp (decide := true) [clauseToks, dispatch_good (hq.offset e hh).1, Except.map, optToks]) c4
  have c2 := clauses_step (k := "limit") (t := manyToks [.kw "LIMIT"] ((q.limit.map tx).map fun e => [.leaf e])) (by
    have hg : Dict.get? (q.dict sub) "limit" = if q.limit = [] then none else some (unlist q.limit) := by
      rw [get?_dict]
      cases q.distinct <;> cases q.limit <;> simp (decide := true)
    by_cases hh : q.limit = []
    · exact .inl ⟨by rw [hg, if_pos hh], by rw [hh]; rfl⟩
    · refine .inr ⟨_, by rw [hg, if_neg hh], ?_⟩
      have he : each (fun j => dispatch L (n + 2) j 100) q.limit = .ok (q.limit.map fun e => [.leaf (tx e)]) :=
        each_ok q.limit (fun e he => by rw [dispatch_good (hq.limit.2 e he)])
      have hw := listwrap_unlist q.limit hh (fun e he => (hq.limit.2 e he).notList)
      have hm := manyToks_ne (.kw "LIMIT") (l := (q.limit.map tx).map fun e => [.leaf e]) (by simpa using hh)
      rw [hm]
      simp (decide := true) [clauseToks, listToks, hw, he, Except.map, Function.comp_def]) c3
  have c1 := clauses_step (k := "orderby") (t := manyToks [.kw "ORDER BY"] ((q.map tx id : Query String σ).order.map orderToks)) (by
    have hg : Dict.get? (q.dict sub) "orderby" = if q.order = [] then none else some (unlist (q.order.map orderJson)) := by
      rw [get?_dict]
      cases q.distinct <;> cases q.order <;> simp (decide := true)
    by_cases hh : q.order = []
    · exact .inl ⟨by rw [hg, if_pos hh], by simp [Query.map, hh, manyToks]⟩
    · refine .inr ⟨_, by rw [hg, if_neg hh], ?_⟩
      have he : each (orderItem (dispatch L (n + 2))) (q.order.map orderJson) =
          .ok (q.order.map fun o => orderToks (tx o.1, o.2.map String.toUpper)) :=
        each_map q.order (fun o ho => orderItem_ok (hq.order o ho) (n + 1))
      have hw := listwrap_unlist (q.order.map orderJson) (by simpa using hh) (by
        intro j hj
        simp only [List.mem_map] at hj
        obtain ⟨⟨e, d⟩, _, rfl⟩ := hj
        cases d <;> simp [orderJson])
      have hm := manyToks_ne (.kw "ORDER BY") (l := (q.map tx id : Query String σ).order.map orderToks) (by simpa [Query.map] using hh)
      rw [hm]
      simp (decide := true) [clauseToks, hw, he, Except.map, Query.map, Function.comp_def]) c2
  rw [orderedClauses, c1]
  simp

theorem written_query (hs : SubWrites L P sub st m) {q : Query Json σ} (hq : q.Fits L tx P) {N : Nat} (hN : m + 1 ≤ N) (h2 : 2 ≤ N) (p : Nat)
    (hp : 50 ≤ p ∨ p < 30) :
    dispatch L (N + 1) (.dict (q.dict sub)) p =
      .ok (if 50 ≤ p then q.written tx st else parens (q.written tx st)) := by
  have h0 := fun k hk => get?_other sub q k hk
  have hu := unordered_written hs hq hN h2
  have ho := ordered_written (sub := sub) hq h2
  have hsel : hasAny (q.dict sub) (unorderedClauses.filter (· ≠ "from")) = true := by
    simp only [hasAny, List.any_eq_true]
    cases hd : q.distinct with
    | true => exact ⟨"select_distinct", by decide, by rw [hasKey, get?_dict]; simp [hd]⟩
    | false => exact ⟨"select", by decide, by rw [hasKey, get?_dict]; simp [hd]⟩
  have hsel' : hasAny (q.dict sub) unorderedClauses = true := by
    simp only [hasAny, List.any_eq_true] at hsel ⊢
    obtain ⟨k, hk, h⟩ := hsel
    exact ⟨k, List.mem_of_mem_filter hk, h⟩
  have hne : (q.dict sub).isEmpty = false := rfl
  have htail : ((q.map tx id : Query String σ).head ++ ((if q.tables = [] then [] else .kw "FROM" :: fromText tx st q.tables) ++
        (optToks "WHERE" (q.cond.map tx) ++ (manyToks [.kw "GROUP BY"] ((q.group.map tx).map fun e => [.leaf e]) ++
          optToks "HAVING" (q.having.map tx))))) ++ (manyToks [.kw "ORDER BY"] ((q.map tx id : Query String σ).order.map orderToks) ++
        (manyToks [.kw "LIMIT"] ((q.limit.map tx).map fun e => [.leaf e]) ++ optToks "OFFSET" (q.offset.map tx))) =
      q.written tx st := by
    simp only [Query.written, Query.tail, List.append_assoc]
    rfl
  rw [dispatch]
  simp only [hne, hasKey, h0 "drop" (by decide), h0 "value" (by decide), h0 "join" (by decide), h0 "insert" (by decide)]
  by_cases hord : hasAny (q.dict sub) orderedClauses = true
  · simp only [hord, orderedQuery, hsel, unorderedQuery, hu, ho, Except.map]
    simp only [← htail]
    simp
  · simp only [hord, hsel', unorderedQuery, hu, Except.map]
    have hnil : clauses L (dispatch L N) (q.dict sub) orderedClauses = .ok [] := by
      simp only [hasAny, List.any_eq_true, not_exists, not_and, hasKey, Bool.not_eq_true, Option.isSome_eq_false_iff, Option.isNone_iff_eq_none] at hord
      rw [orderedClauses, clauses_none _ (hord "orderby" (by decide)), clauses_none _ (hord "limit" (by decide)),
        clauses_none _ (hord "offset" (by decide)), clauses_none _ (hord "fetch" (by decide))]
      rfl
    rw [hnil, Except.ok.injEq] at ho
    rw [← htail, ← ho, List.append_nil]
    have : (30 ≤ p) = (50 ≤ p) := by
      apply propext; omega
    simp [this]

end

end EulerDB.Statement
