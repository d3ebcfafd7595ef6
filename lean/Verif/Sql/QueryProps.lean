/-
C86: the proxy reads a query as what it spells: columns, tables, joins, condition, grouping, order and limits.
-/
import Verif.Sql.QueryRead

namespace EulerDB.Sql

open EulerDB EulerDB.Parse

/-! ### LIMIT -/

theorem SpNat.length {t : List Char} {n : Nat} (h : SpNat t n) : 0 < t.length := by
  obtain ⟨g, ds, _, hne, _, rfl, _⟩ := h
  have := List.length_pos_iff.2 hne
  simp only [List.length_append]; omega

theorem SpNat.spells {t : List Char} {n : Nat} (h : SpNat t n) (env : Env) : Spells env .lit t (.int n) := by
  obtain ⟨g, ds, hg, hne, hd, rfl, rfl⟩ := h
  exact ⟨1, .inl ⟨[.val (.int (natOf 0 ds))], .one (.atom hg (.int hne hd)), rfl⟩⟩

theorem SpNat.int {t : List Char} {n : Nat} (h : SpNat t n) {r : List Char} (hr : Sep .lit r) : intAt (t ++ r) = .ok n r := by
  obtain ⟨g, ds, hg, hne, hd, rfl, rfl⟩ := h
  obtain ⟨c, ds', rfl⟩ := List.exists_cons_of_ne_nil hne
  have hs : skip (g ++ (c :: ds') ++ r) = c :: ds' ++ r := by
    rw [List.append_assoc, hg.skip]
    exact skip_solid (solidChar_of_key (keyChar_digit (hd c (by simp)))) _
  have h1 := signOf_ne (digits_head (r := r) hne hd (x := '-') (by decide)) (digits_head hne hd (x := '+') (by decide))
  have h2 := digits_read (c :: ds') r hd hr.digit
  have h3 : intNum (c :: ds' ++ r) = some ((false, c :: ds', none), r) := by
    simp only [intNum, h1, h2, intExp_sep hr]
    rw [if_neg hne]
  rw [intAt, hs, h3]
  rfl

theorem SpNat.atom {t : List Char} {n : Nat} (h : SpNat t n) (env : Env) (k : Nat) {r : List Char} (hr : Stop .lit r) :
    atom env (expr env (k + 1)) (t ++ r) = .ok (.int n) r := by
  obtain ⟨g, ds, hg, hne, hd, rfl, rfl⟩ := h
  rw [List.append_assoc]
  exact (SpAtom.int hne hd).read (good env (k + 1)) hg hr

theorem SpNat.limit {t : List Char} {n : Nat} (h : SpNat t n) (env : Env) (k : Nat) {r : List Char} (hr : Stop .lit r) (hc : lit "," r = none) :
    limitVal env (expr env (k + 1)) (t ++ r) = .ok (.int n) r := by
  rw [limitVal, h.int hr.sep]
  simp only [hc, h.atom env k hr, R.next, scrub]

theorem limit_end {env : Env} {ex : List Char → R V} {d : Edge} {e : List Char} (h : EndAfter d e) (n : Nat) (l o : Option Json) :
    limitsFrom env ex n l o e = .ok (l, o) e := by
  have hb : Begins ["fetch", "offset", "limit"] e := ⟨[], [], first_nil h.1.skip, by decide⟩
  cases n with
  | zero => rfl
  | succ n =>
    rw [limitsFrom, hb.anyKw (by decide), hb.kw (by decide) (by decide), hb.kw (by decide) (by decide)]
    simp

theorem rows_end {d : Edge} {e : List Char} (h : EndAfter d e) : rowsOpt e = e := by
  have hb : Begins ["row", "rows"] e := ⟨[], [], first_nil h.1.skip, by decide⟩
  rw [rowsOpt, hb.kw (by decide) (by decide), hb.kw (by decide) (by decide)]
  rfl

theorem SpLimit.starts {d : Edge} {t : List Char} {l o : Option Json} (h : SpLimit d t l o) : Starts ["limit"] d t := by
  cases h with
  | absent h => exact .inl h
  | one hs hk _ _ => exact .inr ⟨hs, "limit", by simp, _, hk⟩
  | both hs hk _ _ _ _ _ => exact .inr ⟨hs, "limit", by simp, _, hk⟩
  | pair hs hk _ _ _ _ => exact .inr ⟨hs, "limit", by simp, _, hk⟩

theorem limit_kw {t u : List Char} (h : Kw "limit" t u) : anyKw ["fetch"] t = false ∧ kw "offset" t = none ∧ kw "limit" t = some u := by
  refine ⟨h.other (by decide) (by decide) (by decide), ?_, h.read (by decide) (by decide)⟩
  have := h.other (by decide) (by decide) (no := ["offset"]) (by decide)
  simpa [anyKw] using this

theorem SpLimit.read {env : Env} {d : Edge} {t : List Char} {l o : Option Json} (h : SpLimit d t l o) {k : Nat} (hk : t.length ≤ k) :
    ∃ e, limitsFrom env (expr env (k + 1)) 3 none none t = .ok (l, o) e ∧ skip e = [] := by
  cases h with
  | absent h => exact ⟨t, limit_end h 3 _ _, h.1.skip⟩
  | @one u e n hs hkw hn he =>
    obtain ⟨h1, h2, h3⟩ := limit_kw hkw
    refine ⟨e, ?_, he.1.skip⟩
    rw [limitsFrom, h1, h2, h3]
    simp only [Option.isNone_none, Bool.false_eq_true, if_false, if_true, hn.limit env k he.fin.toStop (lit_nil "," (d := ',') (l := []) rfl he.1.skip)]
    exact limit_end he 2 _ _
  | @both u r x e n m hs hkw hn hsr hko hm he =>
    obtain ⟨h1, h2, h3⟩ := limit_kw hkw
    have hst : Starts ["offset"] .lit r := .inr ⟨hsr, "offset", by simp, _, hko⟩
    have hoff : kw "offset" r = some (x ++ e) := hko.read (by decide) (by decide)
    have hfe : anyKw ["fetch"] r = false := hko.other (by decide) (by decide) (by decide)
    have hl1 := hkw.length
    have hl2 := hko.length
    simp only [List.length_append] at hl1 hl2
    have hx : expr env (k + 1) (x ++ e) = .ok (.int m) e := (hm.spells env).read he.fin (by omega)
    refine ⟨e, ?_, he.1.skip⟩
    rw [limitsFrom, h1, h2, h3]
    simp only [Option.isNone_none, Bool.false_eq_true, if_false, if_true, hn.limit env k (hst.quiet (by decide)).toStop (hst.comma (by decide))]
    rw [limitsFrom, hfe, hoff]
    simp only [Option.isNone_none, Bool.false_eq_true, if_false, if_true, hx, rows_end he, scrub]
    exact limit_end he 1 _ _
  | @pair u g x e n m hs hkw hm hg hn he =>
    obtain ⟨h1, h2, h3⟩ := limit_kw hkw
    have hf : Fin .lit (g ++ ',' :: (x ++ e)) := fin_char ⟨hg, by simp⟩ (by decide) _
    have hlim : limitVal env (expr env (k + 1)) (u ++ (g ++ ',' :: (x ++ e))) = .ok (.list [.int m, .int n]) e := by
      rw [limitVal, hm.int hf.sep]
      simp only [lit_char "," (c := ',') rfl (by decide) hg, hn.int he.sep, R.next, R.orElse]
    refine ⟨e, ?_, he.1.skip⟩
    rw [limitsFrom, h1, h2, h3]
    simp only [Option.isNone_none, Bool.false_eq_true, if_false, if_true, hlim]
    exact limit_end he 2 _ _

/-! ### The statement -/

theorem parseQ_of {env : Env} {space : Char → Bool} {sql s r : List Char} {j : Json} (h : Trimmed space sql s) (hs : statementQ env s = .ok j r)
    (hr : skip r = []) : parseQ env space sql = .json j := by
  rw [parseQ, h.strip, hs]
  simp only [atEnd, hr]
  rfl

theorem SpDistinct.length {s r : List Char} {b : Bool} (h : SpDistinct s b r) : r.length ≤ s.length := by
  cases h with
  | no => exact Nat.le_refl _
  | yes hk _ => exact hk.length

theorem SpDistinct.read {env : Env} {k : Nat} {s t u : List Char} {b : Bool} (h : SpDistinct s b (t ++ u)) {d : Edge} {cols : List Json}
    (hc : SpList (SpItem env) d t cols) (hq : Quiet d u) (hl : listOf (selectColumn (expr env (k + 1))) (t ++ u) = .ok cols u) :
    selection (expr env (k + 1)) s = .ok (if b then "select_distinct" else "select", cols) u := by
  cases h with
  | no ht =>
    have htop : anyKw ["top"] (t ++ u) = false := by simp [anyKw, no_opens ht (by decide) (by decide)]
    rw [selection, items_words hc hq, htop]
    simp only [Bool.false_eq_true, if_false, hl, R.next]
  | yes hk ho =>
    have hon : anyKw ["on"] (t ++ u) = false := by simp [anyKw, no_opens ho (by decide) (by decide)]
    rw [selection, hk.read (by decide) (by decide)]
    simp only [hon, Bool.false_eq_true, if_false, if_true, hl]

theorem SpHead.length {env : Env} {s x : List Char} {d : Edge} {p : Parts} (h : SpHead env s p d x) : x.length ≤ s.length := by
  cases h with
  | mk h1 hd hc hsu hf htab hj hw hg hh =>
    have l1 := h1.length
    have l2 := hd.length
    have l3 := hf.length
    have l4 := hj.length
    have l5 := hw.length
    have l6 := hg.length
    have l7 := hh.length
    simp only [List.length_append] at l2 l3
    omega

/-- What is done with the rest of a query. -/
def afterHead (env : Env) (ex : List Char → R V) (p : Parts) (x : List Char) : R Json :=
  (orderOpt ex x).next fun o r3 => (limitsFrom env ex 3 none none r3).next fun l r4 =>
    .ok (.dict ((if p.distinct then "select_distinct" else "select", listJson p.cols) :: ("from", listJson (p.tables ++ p.joins)) ::
      (whereJson p.cond ++ (listEntry "groupby" p.group ++ (optEntry "having" (p.having.map scrub) ++ (o ++ (optEntry "limit" l.1 ++ optEntry "offset" l.2))))))) r4

theorem SpHead.read {env : Env} {s x : List Char} {d : Edge} {p : Parts} (h : SpHead env s p d x) (q5 : Starts ["order", "limit"] d x) :
    statementQ env s = afterHead env (expr env (s.length + 1)) p x := by
  cases h with
  | @mk s1 t u v x1 x2 x3 x4 _ d e1 e2 e3 e4 _ _ h1 hd hc hsu hf htab hj hw hg hh =>
    have l1 := h1.length
    have l2 := hd.length
    have l3 := hf.length
    have l4 := hj.length
    have l5 := hw.length
    have l6 := hg.length
    have l7 := hh.length
    simp only [List.length_append] at l2 l3
    have q4 := hh.starts q5
    have q3 := hg.starts q4
    have q2 := hw.starts q3
    have q1 := hj.starts q2
    have hA : AfterJoins ["where", "group", "having", "order", "limit"] := ⟨by decide, by decide⟩
    have hq : Quiet d u := quiet_kw hf hsu (by decide) (by decide)
    have hcols : listOf (selectColumn (expr env (s.length + 1))) (t ++ u) = .ok p.cols u :=
      listOf_readsE quiet_comma (item_reads env s.length) (hc.mono fun d x a hx ha => ⟨by omega, ha⟩) hq
        (hf.lit (by decide) (by decide) "," (d := ',') (l := []) rfl (by decide))
    have htabs : listOf tableSource (v ++ x1) = .ok p.tables x1 := listOf_readsE quiet_comma table_reads htab (q1.quiet hA.all) (q1.comma hA.all)
    have hun : anyKw ["union", "intersect", "except", "minus"] x = false := q5.other (by decide) (by decide)
    rw [statementQ, h1.other (by decide) (by decide) (by decide), h1.lit (by decide) (by decide) "(" (d := '(') (l := []) rfl (by decide),
      h1.any (by decide) (by decide) (by decide)]
    simp only [Option.isSome_none, Bool.or_self, Bool.false_eq_true, if_false, if_true]
    rw [queryStmt, h1.read (by decide) (by decide)]
    simp only [hd.read hc hq hcols, R.next]
    rw [fromOpt, hf.read (by decide) (by decide)]
    simp only [htabs, hj.read q2 hA (by omega : x1.length ≤ s.length) x1.length (Nat.le_refl _), R.next,
      hw.where q3 (by decide) (by decide) (by omega : x2.length ≤ s.length), hg.read q4 (by decide) (by decide) (by omega : x3.length ≤ s.length),
      hh.having q5 (by decide) (by decide) (by omega : x4.length ≤ s.length), hun, Bool.false_eq_true, if_false]
    simp only [afterHead, R.next, List.cons_append, List.append_assoc]

/-- **C86, queries**: a query is read as the columns, tables, joins, condition, grouping, order and limits that it spells. -/
theorem C86_query_partial (env : Env) (space : Char → Bool) {sql s : List Char} {p : Parts} (ht : Trimmed space sql s) (h : SpQuery env s p) :
    parseQ env space sql = .json p.json := by
  cases h with
  | @mk x y d e _ hh ho hl =>
    have l1 := hh.length
    have l2 := ho.length
    obtain ⟨z, hz, hs⟩ := hl.read (env := env) (k := s.length) (by omega)
    refine parseQ_of ht (r := z) ?_ hs
    rw [hh.read (ho.starts hl.starts), afterHead, ho.read hl.starts (by decide) (by decide) (by omega : x.length ≤ s.length)]
    simp only [R.next, hz, Parts.json]

/-- **C86 (the words of a join).** JOIN with LEFT, RIGHT, FULL or nothing, and INNER, OUTER or nothing before it, and CROSS JOIN, are read as what they are. -/
theorem C86_joins {t u : List Char} :
    (∀ side ∈ [[], ["left"], ["right"], ["full"]], ∀ kind ∈ [[], ["inner"], ["outer"]], Kws (side ++ (kind ++ ["join"])) t u →
      joinHead t = some (" ".intercalate (side ++ (kind ++ ["join"])), u)) ∧
    (Kws ["cross", "join"] t u → joinHead t = some ("cross join", u)) := by
  have key : ∀ side ∈ [[], ["left"], ["right"], ["full"]], ∀ kind ∈ [[], ["inner"], ["outer"]], side ++ (kind ++ ["join"]) ∈ joinForms := by decide
  exact ⟨fun side h1 kind h2 h => h.join (key side h1 kind h2), fun h => h.join (by decide)⟩

end EulerDB.Sql
