/-
Spelled queries: SELECT [DISTINCT] .. FROM .. [joins] [WHERE ..] [GROUP BY ..] [HAVING ..] [ORDER BY ..] [LIMIT ..] as a client writes them, and what
follows each of their clauses.
-/
import Verif.Sql.StmtProps
import Verif.Sql.Query

namespace EulerDB.Sql

open EulerDB EulerDB.Parse

/-! ### Queries as written -/

/-- Several keywords, with the gap before them; what follows is separated from them. -/
def Kws (ws : List String) (t u : List Char) : Prop := ∃ g k, Gap g ∧ Words ws k ∧ boundary u = true ∧ t = g ++ (k ++ u)

section
variable (env : Env)

/-- The joins after the tables: what they are, and what is left. -/
inductive SpJoins : Edge → List Char → List Json → Edge → List Char → Prop
  | nil {d : Edge} {t : List Char} : SpJoins d t [] d t
  | plain {d e f : Edge} {t u r z : List Char} {ws : List String} {j : Json} {js : List Json} : ws ∈ joinForms → Sep d t → Kws ws t (u ++ r) →
      ¬ Opens "lateral" (u ++ r) → SpTable e u j → SpJoins e r js f z → SpJoins d t (.dict [(" ".intercalate ws, j)] :: js) f z
  | cond {d e f x : Edge} {t u r y z q : List Char} {ws : List String} {w : String} {v : V} {j : Json} {js : List Json} : ws ∈ joinForms → Sep d t →
      Kws ws t (u ++ r) → ¬ Opens "lateral" (u ++ r) → SpTable e u j → Sep e r → w = "on" ∨ w = "using" → Kw w r (y ++ z) → Spells env f y v →
      SpJoins f z js x q → SpJoins d t (.dict [(" ".intercalate ws, j), (w, scrub v)] :: js) x q

/-- `[w expr]`. -/
inductive SpOpt (w : String) : Edge → List Char → Option V → Edge → List Char → Prop
  | absent {d : Edge} {t : List Char} : SpOpt w d t none d t
  | given {d e : Edge} {t u r : List Char} {v : V} : Sep d t → Kw w t (u ++ r) → Spells env e u v → SpOpt w d t (some v) e r

/-- A column of GROUP BY. -/
def SpKey (d : Edge) (t : List Char) (j : Json) : Prop := ∃ v, Spells env d t v ∧ j = .dict [("value", scrub v)]

/-- `[GROUP BY exprs]`. -/
inductive SpGroup : Edge → List Char → List Json → Edge → List Char → Prop
  | absent {d : Edge} {t : List Char} : SpGroup d t [] d t
  | given {d e : Edge} {t u r : List Char} {l : List Json} : Sep d t → Kws ["group", "by"] t (u ++ r) → SpList (SpKey env) e u l → SpGroup d t l e r

/-- A sort key. -/
inductive SpSort : Edge → List Char → Json → Prop
  | plain {d : Edge} {t : List Char} {v : V} : Spells env d t v → SpSort d t (.dict [("value", scrub v)])
  | dir {d : Edge} {t g k : List Char} {w : String} {v : V} : Spells env d t v → Gap g → Sep d (g ++ k) → w = "asc" ∨ w = "desc" → Word w k →
      SpSort .lit (t ++ (g ++ k)) (.dict [("value", scrub v), ("sort", .str w)])

/-- `[ORDER BY keys]`. -/
inductive SpOrder : Edge → List Char → List Json → Edge → List Char → Prop
  | absent {d : Edge} {t : List Char} : SpOrder d t [] d t
  | given {d e : Edge} {t u r : List Char} {l : List Json} : Sep d t → Kws ["order", "by"] t (u ++ r) → SpList (SpSort env) e u l → SpOrder d t l e r

end

/-- A number, with the gap before it. -/
def SpNat (t : List Char) (n : Nat) : Prop := ∃ g ds, Gap g ∧ ds ≠ [] ∧ (∀ c ∈ ds, c.isDigit = true) ∧ t = g ++ ds ∧ n = natOf 0 ds

/-- `[LIMIT n [OFFSET m] | LIMIT m, n]` and the end of the statement. -/
inductive SpLimit : Edge → List Char → Option Json → Option Json → Prop
  | absent {d : Edge} {e : List Char} : EndAfter d e → SpLimit d e none none
  | one {d : Edge} {t u e : List Char} {n : Nat} : Sep d t → Kw "limit" t (u ++ e) → SpNat u n → EndAfter .lit e → SpLimit d t (some (.int n)) none
  | both {d : Edge} {t u r x e : List Char} {n m : Nat} : Sep d t → Kw "limit" t (u ++ r) → SpNat u n → Sep .lit r → Kw "offset" r (x ++ e) → SpNat x m →
      EndAfter .lit e → SpLimit d t (some (.int n)) (some (.int m))
  | pair {d : Edge} {t u g x e : List Char} {n m : Nat} : Sep d t → Kw "limit" t (u ++ (g ++ ',' :: (x ++ e))) → SpNat u m → Gap g → SpNat x n →
      EndAfter .lit e → SpLimit d t (some (.list [.int m, .int n])) none

/-- The parts of a query. -/
structure Parts where
  distinct : Bool
  cols : List Json
  tables : List Json
  joins : List Json
  cond : Option V
  group : List Json
  having : Option V
  order : List Json
  limit : Option Json
  offset : Option Json

/-- An entry of the dict if there are values. -/
def listEntry (k : String) : List Json → List (String × Json)
  | [] => []
  | l => [(k, listJson l)]

def Parts.json (p : Parts) : Json :=
  .dict ((if p.distinct then "select_distinct" else "select", listJson p.cols) :: ("from", listJson (p.tables ++ p.joins)) ::
    (whereJson p.cond ++ (listEntry "groupby" p.group ++ (optEntry "having" (p.having.map scrub) ++ (listEntry "orderby" p.order ++
      (optEntry "limit" p.limit ++ optEntry "offset" p.offset))))))

/-- What follows SELECT: DISTINCT or not. -/
inductive SpDistinct : List Char → Bool → List Char → Prop
  | no {s : List Char} : ¬ Opens "top" s → SpDistinct s false s
  | yes {s r : List Char} : Kw "distinct" s r → ¬ Opens "on" r → SpDistinct s true r

/-- A query up to ORDER BY. -/
inductive SpHead (env : Env) : List Char → Parts → Edge → List Char → Prop
  | mk {s s1 t u v x1 x2 x3 x4 x5 : List Char} {d e1 e2 e3 e4 e5 : Edge} {p : Parts} : Kw "select" s s1 → SpDistinct s1 p.distinct (t ++ u) →
      SpList (SpItem env) d t p.cols → Sep d u → Kw "from" u (v ++ x1) → SpList SpTable e1 v p.tables → SpJoins env e1 x1 p.joins e2 x2 →
      SpOpt env "where" e2 x2 p.cond e3 x3 → SpGroup env e3 x3 p.group e4 x4 → SpOpt env "having" e4 x4 p.having e5 x5 → SpHead env s p e5 x5

inductive SpQuery (env : Env) : List Char → Parts → Prop
  | mk {s x y : List Char} {d e : Edge} {p : Parts} : SpHead env s p d x → SpOrder env d x p.order e y → SpLimit e y p.limit p.offset → SpQuery env s p

/-! ### What follows a clause -/

/-- The words that begin a clause. -/
def clauseWords : List String :=
  ["cross", "outer", "inner", "full", "left", "right", "join", "on", "using", "where", "group", "having", "order", "limit", "offset"]

/-- The end of the statement, or one of the words. -/
def Starts (ws : List String) (d : Edge) (t : List Char) : Prop := EndAfter d t ∨ (Sep d t ∧ ∃ w ∈ ws, ∃ u, Kw w t u)

theorem Starts.mono {ws ws' : List String} {d : Edge} {t : List Char} (h : Starts ws d t) (hw : ∀ w ∈ ws, w ∈ ws') : Starts ws' d t := by
  rcases h with h | ⟨hs, w, hm, u, hk⟩
  · exact .inl h
  · exact .inr ⟨hs, w, hw w hm, u, hk⟩

theorem clause_words : ∀ w ∈ clauseWords, Wordy w.toList ∧ w.toList ≠ [] ∧ w ∈ reservedWords ∧
    ∀ v ∈ opWords ++ ["over", "within", "filter", "as", "with", "tablesample"], w.toList ≠ v.toList := by decide

theorem Starts.quiet {ws : List String} {d : Edge} {t : List Char} (h : Starts ws d t) (hw : ∀ w ∈ ws, w ∈ clauseWords) : Quiet d t := by
  rcases h with h | ⟨hs, w, hm, u, hk⟩
  · exact quiet_end h
  · obtain ⟨_, _, h3, h4⟩ := clause_words w (hw w hm)
    exact quiet_kw hk hs h3 h4

theorem Starts.comma {ws : List String} {d : Edge} {t : List Char} (h : Starts ws d t) (hw : ∀ w ∈ ws, w ∈ clauseWords) : lit "," t = none := by
  rcases h with h | ⟨hs, w, hm, u, hk⟩
  · exact lit_nil "," (d := ',') (l := []) rfl h.1.skip
  · obtain ⟨h1, h2, _, _⟩ := clause_words w (hw w hm)
    exact hk.lit h1 h2 "," (d := ',') (l := []) rfl (by decide)

theorem Starts.other {ws : List String} {d : Edge} {t : List Char} (h : Starts ws d t) (hw : ∀ w ∈ ws, w ∈ clauseWords) {no : List String}
    (hno : ∀ v ∈ no, Wordy v.toList ∧ v.toList ≠ [] ∧ v ∉ ws) : anyKw no t = false := by
  rcases h with h | ⟨hs, w, hm, u, hk⟩
  · have hb : Begins no t := ⟨[], [], first_nil h.1.skip, fun w hw hx => (hno w hw).2.1 hx.symm⟩
    exact hb.anyKw fun w hw => ⟨hw, (hno w hw).1⟩
  · obtain ⟨h1, h2, _, _⟩ := clause_words w (hw w hm)
    exact hk.other h1 h2 fun v hv => ⟨(hno v hv).1, fun hx => (hno v hv).2.2 (by rw [← String.toList_injective hx]; exact hm)⟩

theorem Starts.kw {ws : List String} {d : Edge} {t : List Char} (h : Starts ws d t) (hw : ∀ w ∈ ws, w ∈ clauseWords) {v : String}
    (hv : Wordy v.toList ∧ v.toList ≠ [] ∧ v ∉ ws) : Sql.kw v t = none := by
  have := h.other hw (no := [v]) (by simpa using hv)
  simpa [anyKw] using this

theorem Starts.kws {ws : List String} {d : Edge} {t : List Char} (h : Starts ws d t) (hw : ∀ w ∈ ws, w ∈ clauseWords) {v : String} (vs : List String)
    (hv : Wordy v.toList ∧ v.toList ≠ [] ∧ v ∉ ws) : Sql.kws (v :: vs) t = none := by
  rw [Sql.kws, h.kw hw hv]

/-! ### Several keywords -/

theorem Kws.head {w : String} {ws : List String} {t u : List Char} (h : Kws (w :: ws) t u) (hw : Wordy w.toList) (hne : w.toList ≠ []) : ∃ r, Kw w t r := by
  obtain ⟨g, k, hg, hk, hb, rfl⟩ := h
  obtain ⟨n, r, h1, h2, h3, h4, h5, _, _⟩ := hk.first hw hne hb
  exact ⟨r, g, n, hg, h1, h4, by rw [h5]⟩

theorem Kws.first {w : String} {ws : List String} {t u : List Char} (h : Kws (w :: ws) t u) (hw : ∀ v ∈ w :: ws, Wordy v.toList ∧ v.toList ≠ []) (vs : List String)
    (hv : ∀ v ∈ vs, Wordy v.toList) (hvn : vs ≠ []) :
    (w :: ws <+: vs → kws vs t = kwsTail (vs.drop (w :: ws).length) u) ∧ (¬ w :: ws <+: vs → ¬ vs <+: w :: ws → kws vs t = none) := by
  obtain ⟨g, k, hg, hk, hb, rfl⟩ := h
  obtain ⟨n, r, h1, h2, h3, h4, h5, _, _⟩ := hk.first (hw w (by simp)).1 (hw w (by simp)).2 hb
  obtain ⟨v, vs, rfl⟩ := List.exists_cons_of_ne_nil hvn
  have hf : First (g ++ (k ++ u)) n r := by rw [h5]; exact (first_word h3 h2 h4).gap hg
  rw [kws_tail hf h2, ← h5]
  exact Words.tail _ hk hw hb (v :: vs) hv (by simp)

theorem Kws.read {w : String} {ws : List String} {t u : List Char} (h : Kws (w :: ws) t u) (hw : ∀ v ∈ w :: ws, Wordy v.toList ∧ v.toList ≠ []) :
    kws (w :: ws) t = some u := by
  have := (h.first hw (w :: ws) (fun v hv => (hw v hv).1) (by simp)).1 (List.prefix_refl _)
  rw [this, List.drop_length, kwsTail]

theorem Kws.length {ws : List String} {t u : List Char} (h : Kws ws t u) : u.length ≤ t.length := by
  obtain ⟨g, k, _, _, _, rfl⟩ := h
  simp; omega

end EulerDB.Sql
