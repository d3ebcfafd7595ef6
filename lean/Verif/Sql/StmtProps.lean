/-
C70: the proxy reads a statement as what it spells.
-/
import Verif.Sql.Stmt

namespace EulerDB.Sql

open EulerDB EulerDB.Parse

/-! ### Semicolons and spaces at the end -/

theorem rstrip_append (p : Char → Bool) (s u : List Char) (hu : ∀ c ∈ u, p c = true) : rstrip p (s ++ u) = rstrip p s := by
  rw [rstrip, rstrip, List.reverse_append, List.dropWhile_append_of_pos (by simpa using hu)]

theorem rstrip_self (p : Char → Bool) (s : List Char) (h : ∀ c, s.getLast? = some c → p c = false) : rstrip p s = s := by
  rw [rstrip]
  cases hr : s.reverse with
  | nil => simpa using hr.symm
  | cons c r =>
    have hs : s = r.reverse ++ [c] := by rw [← List.reverse_reverse s, hr]; simp
    rw [List.dropWhile_cons_of_neg (by rw [h c (by rw [hs]; simp)]; simp), hs]
    simp

/-- A statement: its text, then semicolons, then spaces. -/
structure Trimmed (space : Char → Bool) (sql s : List Char) : Prop where
  last : ∀ c, s.getLast? = some c → space c = false ∧ c ≠ ';'
  semi : space ';' = false
  split : ∃ u v, sql = s ++ (u ++ v) ∧ (∀ c ∈ u, c = ';') ∧ (∀ c ∈ v, space c = true)

theorem Trimmed.strip {space : Char → Bool} {sql s : List Char} (h : Trimmed space sql s) : rstrip (· == ';') (rstrip space sql) = s := by
  obtain ⟨u, v, rfl, hu, hv⟩ := h.split
  have h1 : rstrip space (s ++ u) = s ++ u := by
    refine rstrip_self _ _ fun c hc => ?_
    rw [List.getLast?_append] at hc
    cases hl : u.getLast? with
    | none => rw [hl] at hc; exact (h.last c (by simpa using hc)).1
    | some x =>
      rw [hl] at hc
      simp at hc
      subst hc
      rw [hu x (List.mem_of_getLast? hl)]
      exact h.semi
  rw [← List.append_assoc, rstrip_append _ _ _ hv, h1, rstrip_append _ _ _ (by simpa using hu), rstrip_self]
  intro c hc
  simpa using (h.last c hc).2

theorem parse_of {env : Env} {space : Char → Bool} {sql s r : List Char} {j : Json} (h : Trimmed space sql s) (hs : statement env s = .ok j r)
    (hr : skip r = []) : parse env space sql = .json j := by
  rw [parse, h.strip, hs]
  simp only [atEnd, hr]
  rfl

/-! ### DELETE -/

/-- A DELETE is read as the table and the condition that it spells. -/
theorem C70_delete_partial (env : Env) (space : Char → Bool) {sql s n : List Char} {w : Option V} (ht : Trimmed space sql s) (h : SpDelete env s n w) :
    parse env space sql = .json (.dict (whereJson w ++ [("delete", .str (strOf n))])) := by
  cases h with
  | mk h1 h2 h3 h4 =>
    obtain ⟨e, he, hs⟩ := h4.read (k := s.length) (Nat.le_trans h3.length (Nat.le_trans h2.length h1.length))
    refine parse_of ht (r := e) ?_ hs
    rw [statement, h1.other (by decide) (by decide) (by decide), h1.lit (by decide) (by decide) "(" (d := '(') (l := []) rfl (by decide),
      h1.other (by decide) (by decide) (by decide), h1.other (by decide) (by decide) (by decide), h1.other (by decide) (by decide) (by decide)]
    simp only [Option.isSome_none, Bool.or_self, Bool.false_eq_true, if_false]
    rw [deleteStmt, h1.read (by decide) (by decide)]
    simp only
    rw [h2.read (by decide) (by decide)]
    simp only
    rw [h3.read fun _ h => h]
    simp only [he]

/-! ### UPDATE -/

theorem addTo_fresh (k : String) (v : V) : ∀ l : List (String × List V), (∀ e ∈ l, e.1 ≠ k) → addTo k v l = l ++ [(k, [v])]
  | [], _ => rfl
  | e :: l, h => by rw [addTo, if_neg (h e (by simp)), addTo_fresh k v l fun x hx => h x (by simp [hx])]; rfl

theorem setDict_nodup : ∀ (l : List (String × V)) (d : List (String × List V)), (l.map Prod.fst).Nodup → (∀ e ∈ d, ∀ p ∈ l, e.1 ≠ p.1) →
    setDict d l = d ++ l.map fun p => (p.1, [p.2])
  | [], d, _, _ => by simp [setDict]
  | (k, v) :: l, d, hn, hd => by
    simp only [List.map_cons, List.nodup_cons, List.mem_map] at hn
    rw [setDict, addTo_fresh k v d fun e he => hd e he (k, v) (by simp), setDict_nodup l _ hn.2]
    · simp
    · intro e he p hp
      simp only [List.mem_append, List.mem_singleton] at he
      rcases he with he | rfl
      · exact hd e he p (by simp [hp])
      · intro hk; exact hn.1 ⟨p, hp, hk.symm⟩

theorem setJson_nodup (l : List (String × V)) (h : (l.map Prod.fst).Nodup) : setJson l = .dict (l.map fun p => (p.1, scrub p.2)) := by
  rw [setJson, setDict_nodup l [] h (by simp)]
  simp [scrubs, listJson]

/-- An UPDATE is read as the table, the assignments in order and the condition that it spells. -/
theorem C70_update_partial (env : Env) (space : Char → Bool) {sql s n : List Char} {l : List (String × V)} {w : Option V} (ht : Trimmed space sql s)
    (h : SpUpdate env s n l w) (hl : (l.map Prod.fst).Nodup) :
    parse env space sql =
      .json (.dict (("set", .dict (l.map fun p => (p.1, scrub p.2))) :: (whereJson w ++ [("update", .str (strOf n))]))) := by
  cases h with
  | @mk s1 s2 t u n d l w h1 h2 h3 h4 h5 =>
    have hlen := Nat.le_trans h3.length (Nat.le_trans h2.length h1.length)
    simp only [List.length_append] at hlen
    obtain ⟨e, he, hs⟩ := h5.read (k := s.length) (by omega)
    refine parse_of ht (r := e) ?_ hs
    have hl' : listOf (assignment (expr env (s.length + 1))) (t ++ u) = .ok l u :=
      listOf_reads (assign_reads env s.length) (h4.mono fun d x a hx ha => ⟨by omega, ha⟩) h5.fin h5.comma
    rw [statement, h1.other (by decide) (by decide) (by decide), h1.lit (by decide) (by decide) "(" (d := '(') (l := []) rfl (by decide),
      h1.other (by decide) (by decide) (by decide), h1.other (by decide) (by decide) (by decide), h1.any (by decide) (by decide) (by decide)]
    simp only [Option.isSome_none, Bool.or_self, Bool.false_eq_true, if_false, if_true]
    rw [updateStmt, h1.read (by decide) (by decide)]
    simp only
    rw [h2.read fun _ h => h]
    simp only
    rw [h3.read (by decide) (by decide)]
    simp only [hl', he, setJson_nodup l hl]

/-! ### INSERT -/

/-- An INSERT is read as the table, the columns and the rows that it spells. -/
theorem C70_insert_partial (env : Env) (space : Char → Bool) {sql s n : List Char} {cols : List (List Char)} {rows : List (List V)} (ht : Trimmed space sql s)
    (h : SpInsert env s n cols rows) {es : List (String × Json)} {x : List Char} (hes : insertEntries (cols.map strOf) rows = .ok es x) :
    parse env space sql = .json (.dict (es ++ [("insert", .str (strOf n))])) := by
  cases h with
  | @mk s1 s2 s3 s4 t e n cols rows h1 h2 h3 h4 h5 h6 h7 =>
    have hlen4 : s4.length ≤ s3.length := by
      cases h4 with
      | absent => exact Nat.le_refl _
      | given => simp only [List.length_append, List.length_cons]; omega
    have hlen := Nat.le_trans h5.length (Nat.le_trans hlen4 (Nat.le_trans h3.length (Nat.le_trans h2.length h1.length)))
    simp only [List.length_append] at hlen
    refine parse_of ht (r := e) ?_ h7.1.skip
    have hrows : listOf (rowOf (expr env (s.length + 1))) (t ++ e) = .ok rows e :=
      listOf_reads (row_reads env s.length) (h6.mono fun d x a hx ha => ⟨by omega, ha⟩) h7.fin (lit_nil "," (d := ',') (l := []) rfl h7.1.skip)
    have hcols := h4.read (h5.lit (by decide) (by decide) "(" (d := '(') (l := []) rfl (by decide))
    have htab : kw "table" s2 = none := by
      obtain ⟨g, k, hg, hk, hp, hd, rfl⟩ := h3
      exact ((begins_name (ws := ["table"]) hk (by decide) hp).gap hg).kw (by decide) (by decide)
    have hany : anyKw ["values"] s4 = true := h5.any (by decide) (by decide) (by decide)
    have hif : anyKw ["if"] s4 = false := h5.other (by decide) (by decide) (by decide)
    rw [statement, h1.other (by decide) (by decide) (by decide), h1.lit (by decide) (by decide) "(" (d := '(') (l := []) rfl (by decide),
      h1.other (by decide) (by decide) (by decide), h1.any (by decide) (by decide) (by decide)]
    simp only [Option.isSome_none, Bool.or_self, Bool.false_eq_true, if_false, if_true]
    rw [insertStmt, h1.read (by decide) (by decide)]
    simp only
    rw [h2.read (by decide) (by decide)]
    simp only
    rw [htab, Option.getD_none, h3.read (by decide)]
    simp only
    rw [hcols]
    simp only [hany, hif, Bool.not_true, Bool.and_false, Bool.or_self, Bool.false_eq_true, if_false]
    rw [h5.read (by decide) (by decide)]
    simp only [hrows, hes]

/-! ### SELECT -/

theorem item_words {env : Env} {d : Edge} {t : List Char} {j : Json} (h : SpItem env d t j) {r : List Char} (hr : Quiet d r) :
    kw "distinct" (t ++ r) = none := by
  have key : ∀ {d t v}, Spells env d t v → ∀ {r}, Fin d r → kw "distinct" (t ++ r) = none := by
    rintro d t v ⟨n, h⟩ r hr
    cases n with
    | zero => exact h.elim
    | succ n =>
      rcases h with ⟨l, hl, _⟩ | ⟨rfl, rfl, g, hg, rfl⟩
      · exact (hl.words hr).1
      · have hB : Begins ["distinct"] (g ++ ['*'] ++ r) := by
          rw [List.append_assoc]
          exact (begins_char (by decide) (c := '*') (by decide) (by decide) r).gap hg
        exact hB.kw (by decide) (by decide)
  cases h with
  | plain hv _ => exact key hv hr.toFin
  | named hv ha _ => rw [List.append_assoc]; exact key hv (ha.read hr).2.1

theorem items_words {env : Env} {d : Edge} {t : List Char} {l : List Json} (h : SpList (SpItem env) d t l) {r : List Char} (hr : Quiet d r) :
    kw "distinct" (t ++ r) = none := by
  cases h with
  | one h => exact item_words h hr
  | @cons _ _ t g u a l h hg hl =>
    have e : t ++ g ++ ',' :: u ++ r = t ++ (g ++ ',' :: (u ++ r)) := by simp
    rw [e]
    exact item_words h (quiet_comma _ g _ hg)

/-- A SELECT without further clauses is read as the columns, the tables and the condition that it spells. -/
theorem C70_select_partial (env : Env) (space : Char → Bool) {sql s : List Char} {cols tables : List Json} {w : Option V} (ht : Trimmed space sql s)
    (h : SpSelect env s cols tables w) :
    parse env space sql = .json (.dict (("select", listJson cols) :: ("from", listJson tables) :: whereJson w)) := by
  cases h with
  | @mk t u v x d e cols tables w h1 h2 h3 h4 h5 h6 h7 =>
    have hl1 := h1.length
    have hl5 := h5.length
    simp only [List.length_append] at hl1 hl5
    obtain ⟨z, hz, hs⟩ := h7.read (k := s.length) (by omega)
    refine parse_of ht (r := z) ?_ hs
    have hq : Quiet d u := quiet_kw h5 h4 (by decide) (by decide)
    have hcols : listOf (selectColumn (expr env (s.length + 1))) (t ++ u) = .ok cols u :=
      listOf_readsE quiet_comma (item_reads env s.length) (h3.mono fun d x a hx ha => ⟨by omega, ha⟩) hq
        (h5.lit (by decide) (by decide) "," (d := ',') (l := []) rfl (by decide))
    have htabs : listOf tableSource (v ++ x) = .ok tables x := listOf_readsE quiet_comma table_reads h6 h7.quiet h7.comma
    have hdis := items_words h3 hq
    have htop : kw "top" (t ++ u) = none := by
      have := mt (kw_opens (w := "top") (by decide) (by decide) (t ++ u)).mp h2
      simpa using this
    have hdt : anyKw ["distinct", "top"] (t ++ u) = false := by simp [anyKw, hdis, htop]
    have hjoin : anyKw joinWords x = false := h7.other (by decide)
    have hend : anyKw queryWords z = false := by
      have hb : Begins queryWords z := ⟨[], [], first_nil hs, by decide⟩
      exact hb.anyKw (by decide)
    rw [statement, h1.other (by decide) (by decide) (by decide), h1.lit (by decide) (by decide) "(" (d := '(') (l := []) rfl (by decide),
      h1.any (by decide) (by decide) (by decide)]
    simp only [Option.isSome_none, Bool.or_self, Bool.false_eq_true, if_false, if_true]
    rw [selectStmt, h1.read (by decide) (by decide)]
    simp only [hdt, Bool.false_eq_true, if_false, hcols]
    rw [h5.read (by decide) (by decide)]
    simp only [htabs, hjoin, Bool.false_eq_true, if_false, hz, hend]

end EulerDB.Sql
