/-
UPDATE: the assignments as they are rewritten, written and read.
-/
import Verif.Whole.Rewrite
import Verif.Clause.SetProps

namespace EulerDB.Whole

open EulerDB EulerDB.Clause EulerDB.Delta

/-! ### The values -/

/-- The literal of a plaintext column. -/
def plainRhs : Val → Rhs
  | .int z => .int z
  | .text s => .lit s

/-- The fuzzy ciphertext. -/
def fz (c : Crypto) (key : String) (s : List Char) : String := String.ofList (Fuzzy.flat (Aes.ct (c.aes key)) (Fuzzy.toks c.alnum s))

/-- The literal that an UPDATE writes to the column of cipher `enc`. -/
def setRhs (c : Crypto) (cm : ColMeta) (enc : String) : Val → Rhs
  | .int z =>
    if enc = "fuzzy" then .quoted (fz c cm.key (Text.intStr z))
    else if enc = "symmetric" then .quoted (String.ofList (Aes.ct (c.aes cm.key) (Text.intStr z)))
    else .int z
  | .text s =>
    if enc = "fuzzy" then .lit (fz c cm.key s.toList)
    else if enc = "symmetric" then .lit (String.ofList (Aes.ct (c.aes cm.key) s.toList))
    else .lit s

/-- The value may be assigned to the column: an integer (of 64 bits and at least three characters where they matter) to an int column, a text to a column without a
numeric type.  A text is not to be changed by its way to the backend. -/
def Assignable (cm : ColMeta) : Val → Prop
  | .int z => cm.type = "int" ∧ (cm.plaintext = false → Int64 z ∧ ((∃ b, ("fuzzy", b) ∈ cm.encCols) → 3 ≤ (Text.intStr z).length))
  | .text s => (cm.type ≠ "int" ∧ cm.type ≠ "float" ∧ cm.type ≠ "double") ∧ ¬ Aes.EndsInNul s.toList ∧ (cm.plaintext = true → Format.kept s.toList = true) ∧
      (cm.plaintext = false → ∀ e b, (e, b) ∈ cm.encCols →
        (e = "fuzzy" → '%' ∉ s.toList ∧ (s.toList = [] ∨ 3 ≤ s.toList.length)) ∧ (e ≠ "fuzzy" → e ≠ "symmetric" → Format.kept s.toList = true))

theorem like_ok {c : Crypto} {key : String} {s : List Char} (h0 : '%' ∉ s) (h : s = [] ∨ 3 ≤ s.length) : c.like key (String.ofList s) = .ok (fz c key s) := by
  unfold Crypto.like Fuzzy.likeRewrite
  rw [String.toList_ofList, Fuzzy.splitPct_word s (fun ch hch he => h0 (he ▸ hch))]
  rcases h with rfl | h
  · rfl
  · have h1 : ¬ s = [] := by rintro rfl; simp at h
    have h2 : ¬ s.length < 3 := by omega
    simp [Fuzzy.encWords, h1, h2, Fuzzy.fuzzyEncrypt_eq, Fuzzy.joinPct, Except.map, fz]

theorem fz_chars {c : Crypto} {key : String} {s : List Char} {x : Char} (h : x ∈ Fuzzy.flat (Aes.ct (c.aes key)) (Fuzzy.toks c.alnum s)) :
    x ≠ '.' ∧ x ≠ Format.markB ∧ x ≠ '\n' ∧ x ≠ '\\' := by
  generalize Fuzzy.toks c.alnum s = l at h
  induction l with
  | nil => simp [Fuzzy.flat] at h
  | cons a l ih =>
    rw [Fuzzy.flat_cons] at h
    rcases List.mem_append.1 h with h | h
    · exact ct_chars h
    · exact ih h

theorem fz_eq_mem {c : Crypto} {key : String} {s : List Char} (h3 : 3 ≤ s.length) : '=' ∈ Fuzzy.flat (Aes.ct (c.aes key)) (Fuzzy.toks c.alnum s) := by
  rw [Fuzzy.toks_word s (Or.inr h3)]
  cases s with
  | nil => simp at h3
  | cons a r =>
    have hg : Fuzzy.gramSize c.alnum (a :: r) = 3 ∨ Fuzzy.gramSize c.alnum (a :: r) = 2 := by unfold Fuzzy.gramSize; split <;> simp
    rw [Fuzzy.grams_cons _ _ _ (by simp only [List.length_cons] at h3; omega), Fuzzy.flat_cons]
    apply List.mem_append_left
    have hlen : ((a :: r).take (Fuzzy.gramSize c.alnum (a :: r))).length ≤ 4 := by rw [List.length_take]; omega
    have hne : (a :: r).take (Fuzzy.gramSize c.alnum (a :: r)) ≠ [] := by
      intro h0
      have := congrArg List.length h0
      rw [List.length_take, List.length_cons, List.length_nil] at this
      omega
    unfold Aes.ct
    apply b64_pad
    rw [Aes.ecbBlocks_length _ (c.aes key).E_length, Fuzzy.blocks_small _ hne hlen]
    · decide
    · rw [Aes.zeroPad_length]; rfl

/-- The assignment is rewritten to it. -/
theorem set_leaf {c : Crypto} {db : Db} {t : String} {cm : ColMeta} {v : Val} (h : Assignable cm v) (hp : cm.plaintext = false) {e b : String} (hb : (e, b) ∈ cm.encCols) :
    whereRw c db (.str t) e cm.key v.rhs = .ok (setRhs c cm e v).json := by
  cases v with
  | int z =>
    obtain ⟨hz, hf⟩ := h.2 hp
    simp only [Val.rhs, whereRw, rewriteLeaf, setRhs]
    by_cases h1 : e = "fuzzy"
    · subst h1
      have := like_ok (c := c) (key := cm.key) (intStr_no_pct z) (Or.inr (hf ⟨b, hb⟩))
      simp (decide := true) [intText, this, Except.map, Rhs.json]
    · by_cases h2 : e = "symmetric"
      · subst h2
        simp (decide := true) [sym_eq, intText, Except.map, Rhs.json]
      · have hz' : c.opeEnc cm.key z = .ok z := Ope.C04_fails_ope_is_identity (c.ope cm.key) z hz.1 hz.2
        by_cases h3 : e = "order-preserving"
        · subst h3
          simp (decide := true) [hz', Except.map, Rhs.json]
        · simp [h1, h2, h3, Rhs.json]
  | text s =>
    obtain ⟨_, _, _, hs⟩ := h
    have hs := hs hp e b hb
    have hrw : whereRw c db (.str t) e cm.key (Json.lit s) =
        match rewriteLeaf c e cm.key (.str s) with
        | .error e => .error e
        | .ok v' => .ok (.dict [("literal", v')]) := by
      simp (decide := true) only [Json.lit, whereRw, whereDict, if_false, if_true]
      rfl
    simp only [Val.rhs]
    rw [hrw]
    simp only [rewriteLeaf, setRhs]
    by_cases h1 : e = "fuzzy"
    · subst h1
      have := like_ok (c := c) (key := cm.key) (hs.1 rfl).1 (hs.1 rfl).2
      rw [String.ofList_toList] at this
      simp (decide := true) [this, Except.map, Rhs.json, Json.lit]
    · by_cases h2 : e = "symmetric"
      · subst h2
        simp (decide := true) [sym_eq, Except.map, Rhs.json, Json.lit]
      · simp [h1, h2, Rhs.json, Json.lit]

/-- It is written and read back. -/
theorem setRhs_ok {P : Writer} {c : Crypto} {cm : ColMeta} {v : Val} (h : Assignable cm v) (hp : cm.plaintext = false) {e b : String} (hb : (e, b) ∈ cm.encCols) :
    (setRhs c cm e v).Ok P := by
  cases v with
  | int z =>
    obtain ⟨hz, hf⟩ := h.2 hp
    simp only [setRhs]
    by_cases h1 : e = "fuzzy"
    · subst h1
      rw [if_pos rfl]
      exact opaque_of (fun x hx => fz_chars hx) (fz_eq_mem (hf ⟨b, hb⟩))
    · rw [if_neg h1]
      by_cases h2 : e = "symmetric"
      · rw [if_pos h2]
        exact opaque_of (fun x hx => ct_chars hx) (ct_eq_mem _ hz)
      · rw [if_neg h2]
        trivial
  | text s =>
    obtain ⟨_, _, _, hs⟩ := h
    have hs := hs hp e b hb
    simp only [setRhs]
    by_cases h1 : e = "fuzzy"
    · rw [if_pos h1, Rhs.Ok, fz, String.toList_ofList]
      exact Statement.kept_of fun h => (fz_chars h).2.2.2 rfl
    · rw [if_neg h1]
      by_cases h2 : e = "symmetric"
      · rw [if_pos h2, Rhs.Ok, String.toList_ofList]
        exact ct_kept _ _
      · rw [if_neg h2]
        exact hs.2 h1 h2

theorem plainRhs_ok {P : Writer} {cm : ColMeta} {v : Val} (h : Assignable cm v) (hp : cm.plaintext = true) : (plainRhs v).Ok P := by
  cases v with
  | int z => trivial
  | text s => exact h.2.2.1 hp

theorem plainRhs_json (v : Val) : (plainRhs v).json = v.rhs := by cases v <;> rfl
theorem plainRhs_val (v : Val) : (plainRhs v).val = v.db := by cases v <;> rfl

/-! ### The list of assignments -/

/-- The backend columns written for one assignment. -/
def cells (c : Crypto) (cm : ColMeta) (n : String) (v : Val) : List (String × Rhs) :=
  if cm.plaintext then [(n, plainRhs v)] else cm.encCols.map fun p => (p.2, setRhs c cm p.1 v)

def assignOut (c : Crypto) (cols : Dict String ColMeta) (sets : List (String × Val)) : List (String × Rhs) :=
  sets.flatMap fun e => match Dict.get? cols e.1 with | none => [] | some cm => cells c cm e.1 e.2

def jsons (l : List (String × Rhs)) : Dict String Json := l.map fun e => (e.1, e.2.json)

theorem cells_names (c : Crypto) (cm : ColMeta) (n : String) (v : Val) : (cells c cm n v).map Prod.fst = if cm.plaintext then [n] else cm.encCols.map Prod.snd := by
  unfold cells
  split <;> simp [Function.comp_def]

theorem assignOut_names (c : Crypto) (cols : Dict String ColMeta) (sets : List (String × Val)) :
    (assignOut c cols sets).map Prod.fst = sets.flatMap fun e => targets cols e.1 := by
  unfold assignOut
  induction sets with
  | nil => rfl
  | cons e l ih =>
    rw [List.flatMap_cons, List.flatMap_cons, List.map_append, ih]
    congr 1
    unfold targets
    cases Dict.get? cols e.1 with
    | none => rfl
    | some cm => exact cells_names c cm e.1 e.2

theorem set_append {acc : Dict String Json} {b : String} {j : Json} (h : b ∉ acc.map Prod.fst) : Dict.set acc b j = acc ++ [(b, j)] :=
  Dict.set_of_none _ _ _ ((Dict.get?_eq_none_iff _ _).2 h)

theorem setCols_out {c : Crypto} {db : Db} {t : String} {cm : ColMeta} {v : Val} (h : Assignable cm v) (hp : cm.plaintext = false) :
    ∀ (l : Dict String String) (acc : Dict String Json), (∀ p ∈ l, p ∈ cm.encCols) → (acc.map Prod.fst ++ l.map Prod.snd).Nodup →
    setCols c db t cm.key v.rhs l acc = .ok (acc ++ jsons (l.map fun p => (p.2, setRhs c cm p.1 v)))
  | [], acc, _, _ => by simp [setCols, jsons]
  | (e, b) :: l, acc, hl, hn => by
    rw [setCols, set_leaf h hp (hl (e, b) (by simp))]
    simp only
    have h1 : b ∉ acc.map Prod.fst := by
      intro hm
      rw [List.nodup_append] at hn
      exact hn.2.2 b hm b (by simp) rfl
    rw [set_append h1, setCols_out h hp l _ (fun p hp => hl p (by simp [hp]))]
    · simp [jsons]
    · simpa [List.append_assoc] using hn

theorem setLoop_out {c : Crypto} {db : Db} {t : String} {cols : Dict String ColMeta} : ∀ (sets : List (String × Val)) (acc : Dict String Json),
    (∀ e ∈ sets, ∃ cm, Dict.get? cols e.1 = some cm ∧ Assignable cm e.2) → (acc.map Prod.fst ++ sets.flatMap fun e => targets cols e.1).Nodup →
    setLoop c db t cols (sets.map fun e => (e.1, e.2.rhs)) acc = .ok (acc ++ jsons (assignOut c cols sets))
  | [], acc, _, _ => by simp [setLoop, jsons, assignOut]
  | (n, v) :: l, acc, hs, hn => by
    obtain ⟨cm, hc, hv⟩ := hs (n, v) (by simp)
    have hs' : ∀ e ∈ l, ∃ cm, Dict.get? cols e.1 = some cm ∧ Assignable cm e.2 := fun e he => hs e (by simp [he])
    have ht : targets cols n = if cm.plaintext then [n] else cm.encCols.map Prod.snd := by simp [targets, hc]
    have ho : assignOut c cols ((n, v) :: l) = cells c cm n v ++ assignOut c cols l := by simp [assignOut, hc]
    rw [List.map_cons, setLoop, getItem_ok.2 hc, ho]
    rw [List.flatMap_cons, ht] at hn
    simp only
    by_cases hp : cm.plaintext = true
    · rw [if_pos hp] at hn ⊢
      have h1 : n ∉ acc.map Prod.fst := by
        intro hm
        rw [List.nodup_append] at hn
        exact hn.2.2 n hm n (by simp) rfl
      rw [set_append h1, setLoop_out l _ hs']
      · simp [jsons, cells, hp, plainRhs_json]
      · simpa [List.append_assoc] using hn
    · rw [if_neg hp] at hn ⊢
      have hp' : cm.plaintext = false := by simpa using hp
      rw [setCols_out hv hp' cm.encCols acc (fun _ h => h)]
      · simp only
        rw [setLoop_out l _ hs']
        · simp [jsons, cells, hp, Function.comp_def]
        · simpa [jsons, List.append_assoc, Function.comp_def] using hn
      · rw [← List.append_assoc] at hn
        exact (List.nodup_append.1 hn).1

/-! ### The statement -/

def updateIn (t : String) (sets : List (String × Val)) (w : Option Cond) : Dict String Json :=
  ("set", .dict (sets.map fun e => (e.1, e.2.rhs))) :: (whereIn w ++ [("update", .str t)])
def updateOut (t : String) (l : List (String × Rhs)) (w : Option W) : Dict String Json := ("set", .dict (jsons l)) :: (whereOut w ++ [("update", .str t)])

theorem update_rewritten {c : Crypto} {db : Db} {t : String} {tm : TableMeta ColMeta} (ht : Dict.get? db t = some tm) {sets : List (String × Val)}
    (hs : ∀ e ∈ sets, ∃ cm, Dict.get? tm.columns e.1 = some cm ∧ Assignable cm e.2) (hd : (sets.flatMap fun e => targets tm.columns e.1).Nodup)
    {w : Option Cond} (h : TypedW tm.columns w) (fuel : Nat) :
    rewriteQuery c db fuel (updateIn t sets w) = .ok (updateOut tm.anonymous (assignOut c tm.columns sets) (sentW c tm.columns w), .str t, {}) := by
  have htab : tableOf db t = .ok tm := getItem_ok.2 ht
  have hset : setRw c db t (sets.map fun e => (e.1, e.2.rhs)) = .ok (jsons (assignOut c tm.columns sets)) := by
    have := setLoop_out (c := c) (db := db) (t := t) sets [] hs (by simpa using hd)
    rw [setRw, htab]
    simpa using this
  cases w with
  | none =>
    simp (decide := true) [rewriteQuery, updateIn, updateOut, whereIn, whereOut, sentW, findTable, tableKeys, Dict.get?_cons, clauseKeys, clauseLoop, stepKey,
      anonRw, tableOfJson, htab, Except.map, Dict.set, Dict.get?, hset]
  | some x =>
    have hw := where_sent (c := c) ht (h x rfl)
    simp (decide := true) [rewriteQuery, updateIn, updateOut, whereIn, whereOut, sentW, findTable, tableKeys, Dict.get?_cons, clauseKeys, clauseLoop, stepKey,
      anonRw, tableOfJson, htab, Except.map, Dict.set, Dict.get?, hset, hw]

theorem rhs_good {P : Proxy} {r : Rhs} (h : r.Ok P.w) (n p : Nat) : Statement.dispatch P.leaves (n + 1) r.json p = .ok [.leaf (String.ofList r.text)] := by
  refine Statement.dispatch_good (tx := fun _ => String.ofList r.text) ⟨?_, ?_⟩ n p
  · cases r <;>
      simp (decide := true) [Rhs.json, Json.lit, Statement.Plain, Statement.hasAny, Statement.hasKey, Statement.stmtKeys, Statement.orderedClauses,
        Statement.unorderedClauses, Dict.get?_cons]
  · simp [Proxy.leaves, rhs_text h, Except.map]

theorem update_written {P : Proxy} {res : List Char → Bool} {c : Crypto} {tm : TableMeta ColMeta} (hn : Named P.w res tm) {l : List (String × Rhs)}
    (hb : ∀ e ∈ l, Bare P.w res e.1) (hr : ∀ e ∈ l, e.2.Ok P.w) {w : Option Cond} (h : TypedW tm.columns w) {n : Nat} (hd : P.depth = n + 2) :
    P.text (updateOut tm.anonymous l (sentW c tm.columns w)) = .ok (Statement.spell (updateText tm.anonymous l (sentW c tm.columns w))).toList := by
  have hk : ∀ k, k ≠ "where" → k ≠ "set" → k ≠ "update" → Dict.get? (updateOut tm.anonymous l (sentW c tm.columns w)) k = none := by
    intro k h1 h2 h3
    cases w <;> simp [updateOut, whereOut, sentW, Dict.get?_cons, Dict.get?, Ne.symm h1, Ne.symm h2, Ne.symm h3]
  have hset : Dict.get? (updateOut tm.anonymous l (sentW c tm.columns w)) "set" = some (.dict (jsons l)) := by
    simp [updateOut, Dict.get?_cons]
  have hup : Dict.get? (updateOut tm.anonymous l (sentW c tm.columns w)) "update" = some (.str tm.anonymous) := by
    cases w <;> simp (decide := true) [updateOut, whereOut, sentW, Dict.get?_cons]
  have hw : Dict.get? (updateOut tm.anonymous l (sentW c tm.columns w)) "where" = Dict.get? (whereOut (sentW c tm.columns w)) "where" := by
    cases w <;> simp (decide := true) [updateOut, whereOut, sentW, Dict.get?_cons, Dict.get?]
  have hc := clauses_where hn h n _ hw (hk "groupby" (by decide) (by decide) (by decide)) (hk "having" (by decide) (by decide) (by decide))
  have he : Statement.each (Statement.setItem (Statement.dispatch P.leaves (n + 1))) (jsons l) = .ok (l.map setToks) := by
    clear hk hset hup hw hc
    induction l with
    | nil => rfl
    | cons e l ih =>
      have ih := ih (fun e he => hb e (by simp [he])) (fun e he => hr e (by simp [he]))
      unfold jsons at ih ⊢
      rw [List.map_cons, Statement.each, Statement.setItem, name_good (hb e (by simp)) n 100, rhs_good (hr e (by simp)) n 100]
      simp only [ih]
      rfl
  refine text_of_clauses (k := "update") hd (fun k hm => ?_) (by decide) (by simp [hup]) ?_
  · have := (by decide : ∀ k ∈ ["alter", "drop", "value", "join", "insert", "orderby", "limit", "offset", "fetch"], k ≠ "where" ∧ k ≠ "set" ∧ k ≠ "update") k hm
    exact hk k this.1 this.2.1 this.2.2
  · have := clauses_append (l := before) (b := .kw "UPDATE" :: .leaf tm.anonymous :: .kw "SET" :: Statement.commaSep (l.map setToks)) ?_ hc
    · refine this.trans ?_
      simp [updateText]
    · have h1 : Statement.clauseToks P.leaves (Statement.dispatch P.leaves (n + 1)) (updateOut tm.anonymous l (sentW c tm.columns w)) "set" (.dict (jsons l)) =
          .ok (.kw "SET" :: Statement.commaSep (l.map setToks)) := by
        simp (decide := true) only [Statement.clauseToks, he, ↓reduceIte, Except.map]
      have h2 : Statement.clauseToks P.leaves (Statement.dispatch P.leaves (n + 1)) (updateOut tm.anonymous l (sentW c tm.columns w)) "update" (.str tm.anonymous) =
          .ok [.kw "UPDATE", .leaf tm.anonymous] := by
        simp (decide := true) [Statement.clauseToks]
      simp (decide := true) [before, Statement.clauses, hk, hset, hup, h1, h2]

end EulerDB.Whole
