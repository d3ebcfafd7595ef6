/-
Reading what the formatter is meant to write: the pieces of a query, and the proof that MySQL's
grammar reads them as that query.
-/
import Verif.Statement.Grammar

namespace EulerDB.Statement

/-! ### The pieces of a query -/

def aliasToks : Option String → List Tok
  | none => []
  | some a => [.kw "AS", .leaf a]

def itemToks (i : String × Option String) : List Tok := .leaf i.1 :: aliasToks i.2

def orderToks (o : String × Option String) : List Tok :=
  .leaf o.1 :: match o.2 with | none => [] | some s => [.kw s]

def optToks (w : String) : Option String → List Tok
  | none => []
  | some s => [.kw w, .leaf s]

def manyToks (w : List Tok) : List (List Tok) → List Tok
  | [] => []
  | l => w ++ commaSep l

section
variable {σ : Type} (st : σ → List Tok)

def Src.toks (s : Src String σ) : List Tok :=
  (match s.base with | .inl e => [.leaf e] | .inr q => parens (st q)) ++ aliasToks s.nick

def JCond.toks : JCond String → List Tok
  | .none => []
  | .on e => [.kw "ON", .leaf e]
  | .cols l => .kw "USING" :: parens (commaSep (l.map fun s => [.leaf s]))

def Join.toks (j : Join String σ) : List Tok := .kw j.kind :: (j.src.toks st ++ j.cond.toks)

def tableToks (t : Src String σ × List (Join String σ)) : List Tok := t.1.toks st ++ t.2.flatMap (Join.toks st)

/-- Everything after FROM's tables. -/
def Query.tail (q : Query String σ) : List Tok :=
  optToks "WHERE" q.cond ++ (manyToks [.kw "GROUP BY"] (q.group.map fun e => [.leaf e]) ++ (optToks "HAVING" q.having ++
    (manyToks [.kw "ORDER BY"] (q.order.map orderToks) ++ (manyToks [.kw "LIMIT"] (q.limit.map fun e => [.leaf e]) ++
      optToks "OFFSET" q.offset))))

def Query.head (q : Query String σ) : List Tok :=
  .kw "SELECT" :: ((if q.distinct then [.kw "DISTINCT"] else []) ++ commaSep (q.items.map itemToks))

/-- The pieces of a query, as MySQL wants them. -/
def Query.toks (q : Query String σ) : List Tok :=
  q.head ++ (manyToks [.kw "FROM"] (q.tables.map (tableToks st)) ++ q.tail)

end

/-! ### Well-formed queries -/

/-- The subquery, if it is one, is among the `P`. -/
def Src.All {σ : Type} (P : σ → Prop) (s : Src String σ) : Prop := ∀ q, s.base = .inr q → P q

def Join.Ok {σ : Type} (P : σ → Prop) (j : Join String σ) : Prop :=
  j.kind ∈ mysqlJoins ∧ (∀ l, j.cond = .cols l → l ≠ []) ∧ j.src.All P

/-- What MySQL demands of a query apart from its expressions. -/
structure Query.Ok {σ : Type} (P : σ → Prop) (q : Query String σ) : Prop where
  items : q.items ≠ []
  tables : ∀ t ∈ q.tables, t.1.All P
  joins : ∀ t ∈ q.tables, ∀ j ∈ t.2, j.Ok P
  order : ∀ o ∈ q.order, ∀ s, o.2 = some s → s = "ASC" ∨ s = "DESC"
  limit : q.limit.length ≤ 2
  offset : q.offset ≠ none → q.limit.length = 1

/-! ### Reading them -/

/-- The text ends, or goes on with a closing parenthesis or one of the words `ks`. -/
def Ends (ks : List String) : List Tok → Prop
  | [] => True
  | .rp :: _ => True
  | .kw k :: _ => k ∈ ks
  | _ => False

/-- … or with a comma. -/
def Next (ks : List String) (t : List Tok) : Prop := Ends ks t ∨ ∃ r, t = .comma :: r

theorem Ends.mono {ks ls : List String} {t : List Tok} (h : Ends ks t) (hs : ∀ k ∈ ks, k ∈ ls) : Ends ls t := by
  match t, h with
  | [], _ => trivial
  | .rp :: _, _ => trivial
  | .kw k :: _, h => exact hs k h

theorem Ends.opt {ks : List String} {t : List Tok} (h : Ends ks t) (w : String) (o : Option String) : Ends (w :: ks) (optToks w o ++ t) := by
  cases o with
  | none => exact h.mono (by simp +contextual)
  | some s => simp [optToks, Ends]

theorem Ends.many {ks : List String} {t : List Tok} (h : Ends ks t) (w : String) (l : List (List Tok)) :
    Ends (w :: ks) (manyToks [.kw w] l ++ t) := by
  cases l with
  | nil => exact h.mono (by simp +contextual)
  | cons a l => simp [manyToks, Ends]

theorem rOpt_skip {β : Type} {ks : List String} {t : List Tok} (h : Ends ks t) {w : String} (hw : w ∉ ks) (p : Parser β) (d : β) :
    rOpt w p d t = some (d, t) := by
  match t, h with
  | [], _ => rfl
  | .rp :: _, _ => rfl
  | .kw k :: _, h =>
    have : k ≠ w := fun e => hw (e ▸ h)
    simp [rOpt, this]

theorem rAlias_none {ks : List String} {t : List Tok} (h : Next ks t) (hk : "AS" ∉ ks) : rAlias t = (none, t) := by
  rcases h with h | ⟨r, rfl⟩
  · match t, h with
    | [], _ => rfl
    | .rp :: _, _ => rfl
    | .kw k :: _, h =>
      have : k ≠ "AS" := fun e => hk (e ▸ h)
      unfold rAlias
      split
      · rename_i heq; simp at heq; exact absurd heq.1 this
      · rename_i heq; simp at heq
      · rfl
  · rfl

theorem rAlias_toks {ks : List String} {t : List Tok} (h : Next ks t) (hk : "AS" ∉ ks) (a : Option String) :
    rAlias (aliasToks a ++ t) = (a, t) := by
  cases a with
  | none => exact rAlias_none h hk
  | some a => rfl

theorem commaSep_cons (p : List Tok) (ps : List (List Tok)) (h : ps ≠ []) : commaSep (p :: ps) = p ++ .comma :: commaSep ps := by
  cases ps with
  | nil => exact absurd rfl h
  | cons a b => rfl

theorem sepBy_toks {β γ : Type} (p : Parser β) (tk : γ → List Tok) (v : γ → β) (ks : List String) (t : List Tok) (ht : Ends ks t) :
    ∀ (l : List γ) (n : Nat), l ≠ [] → l.length ≤ n → (∀ x ∈ l, ∀ t, Next ks t → p (tk x ++ t) = some (v x, t)) →
      sepBy p n (commaSep (l.map tk) ++ t) = some (l.map v, t) := by
  intro l
  induction l with
  | nil => intro n h; exact absurd rfl h
  | cons a l ih =>
    intro n _ hn hp
    obtain ⟨m, rfl⟩ : ∃ m, n = m + 1 := ⟨n - 1, by simp at hn; omega⟩
    by_cases hl : l = []
    · subst hl
      have hne : ∀ r, t ≠ .comma :: r := by
        intro r e; subst e; exact ht
      simp only [List.map_cons, List.map_nil, commaSep, sepBy, hp a (by simp) t (.inl ht)]
    · have hm : l.map tk ≠ [] := by simpa using hl
      rw [List.map_cons, commaSep_cons _ _ hm, List.append_assoc, List.cons_append]
      simp only [sepBy, hp a (by simp) _ (.inr ⟨_, rfl⟩)]
      rw [ih m hl (by simp at hn; omega) (fun x hx => hp x (by simp [hx]))]
      rfl

theorem length_commaSep (l : List (List Tok)) (h : ∀ t ∈ l, t ≠ []) : l.length ≤ (commaSep l).length := by
  induction l with
  | nil => simp
  | cons a l ih =>
    have ha : 1 ≤ a.length := List.length_pos_iff.2 (h a (by simp))
    by_cases hl : l = []
    · subst hl; simpa [commaSep] using ha
    · rw [commaSep_cons _ _ hl]
      have := ih (fun t ht => h t (by simp [ht]))
      simp; omega

theorem rList_toks {β γ : Type} (p : Parser β) (tk : γ → List Tok) (v : γ → β) (ks : List String) (t : List Tok) (ht : Ends ks t)
    (l : List γ) (hl : l ≠ []) (hne : ∀ x, tk x ≠ []) (hp : ∀ x ∈ l, ∀ t, Next ks t → p (tk x ++ t) = some (v x, t)) :
    rList p (commaSep (l.map tk) ++ t) = some (l.map v, t) := by
  unfold rList
  refine sepBy_toks p tk v ks t ht l _ hl ?_ hp
  have := length_commaSep (l.map tk) (by simp [hne])
  simp at this ⊢; omega

theorem rItem_toks {ks : List String} {t : List Tok} (h : Next ks t) (hk : "AS" ∉ ks) (i : String × Option String) :
    rItem (itemToks i ++ t) = some (i, t) := by
  simp [rItem, itemToks, rLeaf, rAlias_toks h hk]

theorem rLeaf_toks (s : String) (t : List Tok) : rLeaf ([.leaf s] ++ t) = some (s, t) := rfl

section
variable {σ τ : Type} {P : σ → Prop} {st : σ → List Tok} {sub : Parser τ} {g : σ → τ}

/-- Subqueries are read back. -/
def SubReads (P : σ → Prop) (st : σ → List Tok) (sub : Parser τ) (g : σ → τ) : Prop := ∀ s, P s → ∀ r, sub (st s ++ .rp :: r) = some (g s, .rp :: r)

theorem rSrc_toks (hs : SubReads P st sub g) {ks : List String} {t : List Tok} (h : Next ks t) (hk : "AS" ∉ ks) (s : Src String σ) (ha : s.All P) :
    rSrc sub (s.toks st ++ t) = some (s.map id g, t) := by
  obtain ⟨b, a⟩ := s
  cases b with
  | inl e => simp [Src.toks, rSrc, rAlias_toks h hk, Src.map]
  | inr q =>
    have h1 := hs q (ha q rfl) (aliasToks a ++ t)
    simp only [Src.toks, parens, List.cons_append, List.append_assoc, rSrc, List.nil_append]
    rw [h1]
    simp [rAlias_toks h hk, Src.map]

/-- The words that may follow a join. -/
def afterJoin : List String := mysqlJoins ++ ["WHERE", "GROUP BY", "HAVING", "ORDER BY", "LIMIT", "OFFSET"]

theorem Next.head {ks : List String} {t : List Tok} (h : Next ks t) : ∀ k r, t = .kw k :: r → k ∈ ks := by
  rintro k r rfl
  rcases h with h | ⟨r', h⟩
  · exact h
  · cases h

theorem rCond_toks {t : List Tok} (h : Next afterJoin t) (c : JCond String) (hc : ∀ l, c = .cols l → l ≠ []) :
    rCond (c.toks ++ t) = some (c, t) := by
  cases c with
  | none =>
    have h1 : ∀ r, t ≠ .kw "ON" :: r := fun r e => absurd (h.head _ _ e) (by decide)
    have h2 : ∀ r, t ≠ .kw "USING" :: r := fun r e => absurd (h.head _ _ e) (by decide)
    simp only [JCond.toks, List.nil_append]
    unfold rCond
    split
    · exact absurd rfl (h1 _)
    · exact absurd rfl (h2 _)
    · exact absurd rfl (h2 _)
    · rfl
  | on e => rfl
  | cols l =>
    have hl := hc l rfl
    have := sepBy_toks rLeaf (fun s => [.leaf s]) id [] (.rp :: t) trivial l
      (commaSep (l.map fun s => [.leaf s]) ++ .rp :: t).length hl (by
        have := length_commaSep (l.map fun s => [.leaf s]) (by simp)
        simp at this ⊢; omega) (fun x _ t _ => rfl)
    simp only [JCond.toks, parens, List.cons_append, List.append_assoc, List.nil_append, rCond, this]
    simp

theorem Src.toks_next (s : Join String σ) (t : List Tok) (h : Next afterJoin t) :
    Next ("ON" :: "USING" :: afterJoin) (s.cond.toks ++ t) := by
  cases s.cond with
  | none =>
    rcases h with h | h
    · exact .inl (h.mono (by simp +contextual))
    · exact .inr h
  | on e => exact .inl (by simp [JCond.toks, Ends])
  | cols l => exact .inl (by simp [JCond.toks, Ends])

theorem rJoins_toks (hs : SubReads P st sub g) {ks : List String} {t : List Tok} (h : Next ks t) (hk : ∀ k ∈ ks, k ∉ mysqlJoins)
    (hk2 : ∀ k ∈ ks, k ∈ afterJoin) :
    ∀ (js : List (Join String σ)) (n : Nat), js.length < n → (∀ j ∈ js, j.Ok P) →
      rJoins sub n (js.flatMap (Join.toks st) ++ t) = some (js.map (fun j => ⟨j.kind, j.src.map id g, j.cond⟩), t) := by
  intro js
  induction js with
  | nil =>
    intro n hn _
    obtain ⟨m, rfl⟩ : ∃ m, n = m + 1 := ⟨n - 1, by simp at hn; omega⟩
    simp only [List.flatMap_nil, List.nil_append, List.map_nil]
    unfold rJoins
    split
    · rename_i k r
      rw [if_neg (hk k (h.head k r rfl))]
    · rfl
  | cons j js ih =>
    intro n hn hj
    obtain ⟨m, rfl⟩ : ∃ m, n = m + 1 := ⟨n - 1, by simp at hn; omega⟩
    have hj1 := hj j (by simp)
    have hnext : Next afterJoin (js.flatMap (Join.toks st) ++ t) := by
      cases js with
      | nil =>
        rcases h with h | h
        · exact .inl (h.mono hk2)
        · exact .inr h
      | cons j' js' =>
        refine .inl ?_
        have := (hj j' (by simp)).1
        simp [Join.toks, Ends, afterJoin, this]
    rw [List.flatMap_cons, List.append_assoc]
    simp only [Join.toks, List.cons_append, List.append_assoc, rJoins, hj1.1, if_true]
    rw [rSrc_toks hs (Src.toks_next j _ hnext) (by decide) _ hj1.2.2]
    simp only [rCond_toks hnext j.cond hj1.2.1]
    have hl : js.length < m := by simp at hn; omega
    rw [ih m hl (fun j hj' => hj j (by simp [hj']))]
    rfl

theorem Src.toks_ne (s : Src String σ) : s.toks st ≠ [] := by
  obtain ⟨b, a⟩ := s
  cases b <;> simp [Src.toks, parens]

/-- The words that may follow the tables. -/
def afterFrom : List String := ["WHERE", "GROUP BY", "HAVING", "ORDER BY", "LIMIT", "OFFSET"]

theorem length_joins (js : List (Join String σ)) : js.length ≤ (js.flatMap (Join.toks st)).length := by
  induction js with
  | nil => simp
  | cons j js ih => simp [Join.toks] at ih ⊢; omega

def mapTable (g : σ → τ) (t : Src String σ × List (Join String σ)) : Src String τ × List (Join String τ) :=
  (t.1.map id g, t.2.map fun j => ⟨j.kind, j.src.map id g, j.cond⟩)

theorem rTable_toks (hs : SubReads P st sub g) {t : List Tok} (h : Next afterFrom t) (x : Src String σ × List (Join String σ))
    (ha : x.1.All P) (hj : ∀ j ∈ x.2, j.Ok P) : rTable sub (tableToks st x ++ t) = some (mapTable g x, t) := by
  obtain ⟨s, js⟩ := x
  have hnext : Next afterJoin (js.flatMap (Join.toks st) ++ t) := by
    cases js with
    | nil =>
      rcases h with h | h
      · exact .inl (h.mono (by decide))
      · exact .inr h
    | cons j' js' =>
      refine .inl ?_
      have := (hj j' (by simp)).1
      simp [Join.toks, Ends, afterJoin, this]
  simp only [tableToks, List.append_assoc, rTable]
  rw [rSrc_toks hs hnext (by decide) _ ha]
  simp only []
  rw [rJoins_toks hs h (by decide) (by decide) js _ (by
    have := length_joins (st := st) js
    simp at this ⊢; omega) hj]
  rfl

theorem rOrder_toks {ks : List String} {t : List Tok} (h : Next ks t) (hk : "ASC" ∉ ks) (hk' : "DESC" ∉ ks) (o : String × Option String)
    (ho : ∀ s, o.2 = some s → s = "ASC" ∨ s = "DESC") : rOrder (orderToks o ++ t) = some (o, t) := by
  obtain ⟨e, d⟩ := o
  cases d with
  | none =>
    have h1 : ∀ r, t ≠ .kw "ASC" :: r := fun r e => hk (h.head _ _ e)
    have h2 : ∀ r, t ≠ .kw "DESC" :: r := fun r e => hk' (h.head _ _ e)
    simp only [orderToks, List.cons_append, List.nil_append]
    unfold rOrder
    split
    · rename_i heq; simp at heq; exact absurd heq.2 (h1 _)
    · rename_i heq; simp at heq; exact absurd heq.2 (h2 _)
    · rename_i heq; simp at heq; simp [heq]
    · rename_i h3; exact absurd rfl (h3 _ _)
  | some s => rcases ho s rfl with rfl | rfl <;> rfl

theorem rLimit_toks {t : List Tok} (h : Ends ["OFFSET"] t) (l : List String) (hl : l ≠ []) (h2 : l.length ≤ 2) :
    rLimit (commaSep (l.map fun s => [.leaf s]) ++ t) = some (l, t) := by
  match l, hl, h2 with
  | [a], _, _ =>
    have h1 : ∀ b r, t ≠ .comma :: .leaf b :: r := by rintro b r rfl; exact h
    simp only [List.map_cons, List.map_nil, commaSep, List.cons_append, List.nil_append]
    unfold rLimit
    split
    · rename_i heq; simp at heq; exact absurd heq.2 (h1 _ _)
    · rename_i heq; simp at heq; simp [heq]
    · rename_i h3; exact absurd rfl (h3 _ _)
  | [a, b], _, _ => rfl

/-- What follows the tables is read as written. -/
theorem read_tail (q : Query String σ) (ho : q.Ok P) (rest : List Tok) (hr : Ends [] rest) (distinct : Bool)
    (items : List (String × Option String)) (tables : List (Src String τ × List (Join String τ))) :
    (do
      let (cond, r) ← rOpt "WHERE" rSome none (q.tail ++ rest)
      let (group, r) ← rOpt "GROUP BY" (rList rLeaf) [] r
      let (having, r) ← rOpt "HAVING" rSome none r
      let (order, r) ← rOpt "ORDER BY" (rList rOrder) [] r
      let (limit, r) ← rOpt "LIMIT" rLimit [] r
      let (offset, r) ← rOffset limit r
      some (({ distinct, items, tables, cond, group, having, order, limit, offset } : Query String τ), r)) =
    some ({ distinct, items, tables, cond := q.cond, group := q.group, having := q.having, order := q.order, limit := q.limit,
            offset := q.offset }, rest) := by
  have e6 : Ends ["OFFSET"] (optToks "OFFSET" q.offset ++ rest) := hr.opt _ _
  have e5 : Ends ["LIMIT", "OFFSET"] (manyToks [.kw "LIMIT"] (q.limit.map fun e => [.leaf e]) ++ (optToks "OFFSET" q.offset ++ rest)) :=
    e6.many _ _
  have e4 := e5.many "ORDER BY" (q.order.map orderToks)
  have e3 := e4.opt "HAVING" q.having
  have e2 := e3.many "GROUP BY" (q.group.map fun e => [.leaf e])
  simp only [Query.tail, List.append_assoc]
  have r1 : ∀ (w : String) (ks : List String) (o : Option String) (t : List Tok), Ends ks t → w ∉ ks →
      rOpt w rSome none (optToks w o ++ t) = some (o, t) := by
    intro w ks o t ht hw
    cases o with
    | none => exact rOpt_skip ht hw _ _
    | some s => simp [optToks, rOpt, rSome, rLeaf]
  have r2 : rOpt "GROUP BY" (rList rLeaf) [] (manyToks [.kw "GROUP BY"] (q.group.map fun e => [.leaf e]) ++ (optToks "HAVING" q.having ++
      (manyToks [.kw "ORDER BY"] (q.order.map orderToks) ++ (manyToks [.kw "LIMIT"] (q.limit.map fun e => [.leaf e]) ++
        (optToks "OFFSET" q.offset ++ rest))))) = some (q.group, optToks "HAVING" q.having ++
      (manyToks [.kw "ORDER BY"] (q.order.map orderToks) ++ (manyToks [.kw "LIMIT"] (q.limit.map fun e => [.leaf e]) ++
        (optToks "OFFSET" q.offset ++ rest)))) := by
    by_cases hg : q.group = []
    · simp only [hg, List.map_nil, manyToks, List.nil_append]
      exact rOpt_skip e3 (by decide) _ _
    · have hm : manyToks [Tok.kw "GROUP BY"] (q.group.map fun e => [Tok.leaf e]) = .kw "GROUP BY" :: commaSep (q.group.map fun e => [Tok.leaf e]) := by
        cases hq : q.group with
        | nil => exact absurd hq hg
        | cons a b => rfl
      rw [hm, List.cons_append, rOpt, if_pos rfl]
      have := rList_toks rLeaf (fun e => [Tok.leaf e]) id _ _ e3 q.group hg (by simp) (fun x _ t _ => rfl)
      simpa using this
  have r4 : rOpt "ORDER BY" (rList rOrder) [] (manyToks [.kw "ORDER BY"] (q.order.map orderToks) ++
      (manyToks [.kw "LIMIT"] (q.limit.map fun e => [.leaf e]) ++ (optToks "OFFSET" q.offset ++ rest))) =
      some (q.order, manyToks [.kw "LIMIT"] (q.limit.map fun e => [.leaf e]) ++ (optToks "OFFSET" q.offset ++ rest)) := by
    by_cases hg : q.order = []
    · simp only [hg, List.map_nil, manyToks, List.nil_append]
      exact rOpt_skip e5 (by decide) _ _
    · have hm : manyToks [Tok.kw "ORDER BY"] (q.order.map orderToks) = .kw "ORDER BY" :: commaSep (q.order.map orderToks) := by
        cases hq : q.order with
        | nil => exact absurd hq hg
        | cons a b => rfl
      rw [hm, List.cons_append, rOpt, if_pos rfl]
      have := rList_toks rOrder orderToks id _ _ e5 q.order hg (by simp [orderToks])
        (fun x hx t ht => rOrder_toks ht (by decide) (by decide) x (ho.order x hx))
      simpa using this
  have r5 : rOpt "LIMIT" rLimit [] (manyToks [.kw "LIMIT"] (q.limit.map fun e => [.leaf e]) ++ (optToks "OFFSET" q.offset ++ rest)) =
      some (q.limit, optToks "OFFSET" q.offset ++ rest) := by
    by_cases hg : q.limit = []
    · simp only [hg, List.map_nil, manyToks, List.nil_append]
      exact rOpt_skip e6 (by decide) _ _
    · have hm : manyToks [Tok.kw "LIMIT"] (q.limit.map fun e => [Tok.leaf e]) = .kw "LIMIT" :: commaSep (q.limit.map fun e => [Tok.leaf e]) := by
        cases hq : q.limit with
        | nil => exact absurd hq hg
        | cons a b => rfl
      rw [hm, List.cons_append, rOpt, if_pos rfl]
      exact rLimit_toks e6 q.limit hg ho.limit
  have r6 : rOffset q.limit (optToks "OFFSET" q.offset ++ rest) = some (q.offset, rest) := by
    unfold rOffset
    split
    · exact r1 _ _ _ _ hr (by decide)
    · rename_i h
      have : q.offset = none := by
        by_contra hc
        exact h (ho.offset hc)
      simp [this, optToks]
  rw [r1 "WHERE" _ _ _ e2 (by decide)]
  simp only [Option.bind_eq_bind, Option.bind_some, r2]
  rw [r1 "HAVING" _ _ _ e4 (by decide)]
  simp only [Option.bind_some, r4, r5, r6]

/-- A query whose tables are read as `tables` from `from_` is read as written, with these tables. -/
theorem read_query (q : Query String σ) (ho : q.Ok P) (rest : List Tok) (hr : Ends [] rest) (from_ : List Tok)
    (tables : List (Src String τ × List (Join String τ)))
    (hf : rOpt "FROM" (rList (rTable sub)) [] (from_ ++ (q.tail ++ rest)) = some (tables, q.tail ++ rest))
    (he : Ends ("FROM" :: afterFrom) (from_ ++ (q.tail ++ rest))) :
    rQuery sub (q.head ++ (from_ ++ (q.tail ++ rest))) =
      some ({ distinct := q.distinct, items := q.items, tables, cond := q.cond, group := q.group, having := q.having, order := q.order,
              limit := q.limit, offset := q.offset }, rest) := by
  have hi := rList_toks rItem itemToks id _ _ he q.items ho.items (by simp [itemToks]) (fun x _ t ht => rItem_toks ht (by decide) x)
  have := read_tail q ho rest hr q.distinct q.items tables
  simp only [Query.head, List.cons_append, List.append_assoc, rQuery]
  rw [List.map_id] at hi
  have hd : rDistinct ((if q.distinct = true then [Tok.kw "DISTINCT"] else []) ++ (commaSep (q.items.map itemToks) ++ (from_ ++ (q.tail ++ rest))))
      = (q.distinct, commaSep (q.items.map itemToks) ++ (from_ ++ (q.tail ++ rest))) := by
    cases hq : q.distinct
    · obtain ⟨a, l, hl⟩ : ∃ a l, q.items = a :: l := by
        cases h : q.items with
        | nil => exact absurd h ho.items
        | cons a l => exact ⟨a, l, rfl⟩
      have : ∃ r, commaSep (q.items.map itemToks) = .leaf a.1 :: r := by
        rw [hl]
        cases l with
        | nil => exact ⟨_, rfl⟩
        | cons b l => exact ⟨_, rfl⟩
      obtain ⟨r, hr⟩ := this
      rw [hr]
      rfl
    · rfl
  rw [hd]
  simp only [hi, Option.bind_eq_bind, Option.bind_some, hf] at this ⊢
  exact this

/-- **Reading back.** The pieces of a well-formed query are read by MySQL's grammar as that query. -/
theorem rQuery_toks (hs : SubReads P st sub g) (q : Query String σ) (ho : q.Ok P) (rest : List Tok) (hr : Ends [] rest) :
    rQuery sub (q.toks st ++ rest) =
      some ({ distinct := q.distinct, items := q.items, tables := q.tables.map (mapTable g), cond := q.cond, group := q.group,
              having := q.having, order := q.order, limit := q.limit, offset := q.offset }, rest) := by
  have e1 : Ends afterFrom (q.tail ++ rest) := by
    have e6 : Ends ["OFFSET"] (optToks "OFFSET" q.offset ++ rest) := hr.opt _ _
    have e5 := e6.many "LIMIT" (q.limit.map fun e => [.leaf e])
    have e4 := e5.many "ORDER BY" (q.order.map orderToks)
    have e3 := e4.opt "HAVING" q.having
    have e2 := e3.many "GROUP BY" (q.group.map fun e => [.leaf e])
    simpa only [Query.tail, List.append_assoc, afterFrom] using e2.opt "WHERE" q.cond
  simp only [Query.toks, List.append_assoc]
  refine read_query q ho rest hr _ _ ?_ (e1.many _ _)
  by_cases hg : q.tables = []
  · simp only [hg, List.map_nil, manyToks, List.nil_append]
    exact rOpt_skip e1 (by decide) _ _
  · have hm : manyToks [Tok.kw "FROM"] (q.tables.map (tableToks st)) = .kw "FROM" :: commaSep (q.tables.map (tableToks st)) := by
      cases hq : q.tables with
      | nil => exact absurd hq hg
      | cons a b => rfl
    rw [hm, List.cons_append, rOpt, if_pos rfl]
    exact rList_toks (rTable sub) (tableToks st) (mapTable g) _ _ e1 q.tables hg
      (fun x => by simp [tableToks, Src.toks_ne]) (fun x hx t ht => rTable_toks hs ht x (ho.tables x hx) (ho.joins x hx))

end

end EulerDB.Statement
