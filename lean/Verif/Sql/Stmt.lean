/-
Spelled statements: UPDATE, DELETE, INSERT .. VALUES and SELECT .. FROM .. WHERE as a client writes them.
-/
import Verif.Sql.ReadRun

namespace EulerDB.Sql

open EulerDB EulerDB.Parse

/-- The text spells the expression. -/
def Spells (env : Env) (d : Edge) (t : List Char) (v : V) : Prop := ∃ n, SpExpr env n d t v

/-- The end of a statement: a gap, or a gap and a comment up to the end. -/
inductive Ending : List Char → Prop
  | gap {g : List Char} : Gap g → Ending g
  | dashes {g b : List Char} : Gap g → '\n' ∉ b → Ending (g ++ '-' :: '-' :: b)
  | hash {g b : List Char} : Gap g → '\n' ∉ b → Ending (g ++ '#' :: b)

/-- The end of a statement after a token. -/
def EndAfter (d : Edge) (t : List Char) : Prop := Ending t ∧ (d = .name → t.head? ≠ some '-')

/-- `[WHERE expr]` and the end of the statement. -/
inductive SpWhere (env : Env) (d : Edge) : List Char → Option V → Prop
  | absent {e : List Char} : EndAfter d e → SpWhere env d e none
  | given {x : Edge} {g w t e : List Char} {v : V} : Gap g → Sep d (g ++ w) → Word "where" w → boundary t = true → Spells env x t v → EndAfter x e →
      SpWhere env d (g ++ (w ++ (t ++ e))) (some v)

/-- `name = expr`. -/
inductive SpAssign (env : Env) : Edge → List Char → String × V → Prop
  | mk {d : Edge} {g t h u n : List Char} {v : V} : Gap g → SpName reservedWords t n → After .name h → Spells env d u v →
      SpAssign env d (g ++ (t ++ (h ++ '=' :: u))) (strOf n, v)

/-- A keyword, with the gap before it; what follows is separated from it. -/
def Kw (w : String) (t u : List Char) : Prop := ∃ g k, Gap g ∧ Word w k ∧ boundary u = true ∧ t = g ++ (k ++ u)

/-- A name, with the gap before it; what follows is separated from it. -/
def Nm (no : List String) (n t u : List Char) : Prop :=
  ∃ g k, Gap g ∧ SpName no k n ∧ PEnd u ∧ (skipWhite u).head? ≠ some '.' ∧ t = g ++ (k ++ u)

/-- `DELETE FROM name [WHERE expr]`. -/
inductive SpDelete (env : Env) : List Char → List Char → Option V → Prop
  | mk {s s1 s2 s3 n : List Char} {w : Option V} : Kw "delete" s s1 → Kw "from" s1 s2 → Nm reservedWords n s2 s3 → SpWhere env .name s3 w →
      SpDelete env s n w

/-- `UPDATE name SET name = expr, .. [WHERE expr]`. -/
inductive SpUpdate (env : Env) : List Char → List Char → List (String × V) → Option V → Prop
  | mk {s s1 s2 t u n : List Char} {d : Edge} {l : List (String × V)} {w : Option V} : Kw "update" s s1 → Nm reservedWords n s1 s2 →
      Kw "set" s2 (t ++ u) → SpList (SpAssign env) d t l → SpWhere env d u w → SpUpdate env s n l w

/-- A column of an INSERT. -/
def SpCol (d : Edge) (t n : List Char) : Prop := d = .name ∧ ∃ g k, Gap g ∧ SpName reservedWords k n ∧ t = g ++ k

/-- The columns of an INSERT. -/
inductive SpCols : List Char → List Char → List (List Char) → Prop
  | absent {s : List Char} : SpCols s s []
  | given {g t h s : List Char} {l : List (List Char)} : Gap g → SpList SpCol .name t l → After .name h → SpCols (g ++ '(' :: (t ++ (h ++ ')' :: s))) s l

/-- A row of an INSERT. -/
def SpRow (env : Env) (d : Edge) (t : List Char) (l : List V) : Prop :=
  d = .shut ∧ ∃ e g u h, Gap g ∧ SpList (Spells env) e u l ∧ After e h ∧ t = g ++ '(' :: (u ++ (h ++ [')']))

/-- `INSERT INTO name [(columns)] VALUES (exprs), ..`. -/
inductive SpInsert (env : Env) : List Char → List Char → List (List Char) → List (List V) → Prop
  | mk {s s1 s2 s3 s4 t e n : List Char} {cols : List (List Char)} {rows : List (List V)} : Kw "insert" s s1 → Kw "into" s1 s2 →
      Nm ("table" :: reservedWords) n s2 s3 → SpCols s3 s4 cols → Kw "values" s4 (t ++ e) → SpList (SpRow env) .shut t rows → EndAfter .shut e →
      SpInsert env s n cols rows

/-- Words that are no alias: they continue the expression or the table. -/
def noAliases : List String := reservedWords ++ opWords ++ ["over", "within", "filter", "tablesample"]

/-- An alias after a token. -/
inductive SpAlias (d : Edge) : List Char → List Char → Prop
  | as {g k h t n : List Char} : Gap g → Sep d (g ++ k) → Word "as" k → Gap h → boundary (h ++ t) = true → SpName reservedWords t n →
      SpAlias d (g ++ (k ++ (h ++ t))) n
  | bare {g t n : List Char} : g ≠ [] → After d g → SpName noAliases t n → SpAlias d (g ++ t) n

/-- A column of a SELECT. -/
inductive SpItem (env : Env) : Edge → List Char → Json → Prop
  | plain {d : Edge} {t : List Char} {v : V} {j : Json} : Spells env d t v → columnJson v none = some j → SpItem env d t j
  | named {d : Edge} {t u n : List Char} {v : V} {j : Json} : Spells env d t v → SpAlias d u n → columnJson v (some (strOf n)) = some j →
      SpItem env .name (t ++ u) j

/-- A table of a SELECT. -/
inductive SpTable : Edge → List Char → Json → Prop
  | plain {g t n : List Char} : Gap g → SpName ("stack" :: reservedWords) t n → SpTable .name (g ++ t) (.str (strOf n))
  | named {g t n u m : List Char} : Gap g → SpName ("stack" :: reservedWords) t n → SpAlias .name u m →
      SpTable .name (g ++ (t ++ u)) (.dict [("value", .str (strOf n)), ("name", .str (strOf m))])

/-- `SELECT exprs FROM tables [WHERE expr]`. -/
inductive SpSelect (env : Env) : List Char → List Json → List Json → Option V → Prop
  | mk {s t u v x : List Char} {d e : Edge} {cols tables : List Json} {w : Option V} : Kw "select" s (t ++ u) → ¬ Opens "top" (t ++ u) →
      SpList (SpItem env) d t cols → Sep d u → Kw "from" u (v ++ x) → SpList SpTable e v tables → SpWhere env e x w → SpSelect env s cols tables w

/-! ### Nesting depth -/

section
variable {env : Env} {Ex Ex' : Edge → List Char → V → Prop}

theorem SpList.mono {α : Type} {P Q : Edge → List Char → α → Prop} {d : Edge} {t : List Char} {l : List α} (h : SpList P d t l) :
    (∀ d u a, u.length ≤ t.length → P d u a → Q d u a) → SpList Q d t l := by
  induction h with
  | one ha => exact fun hq => .one (hq _ _ _ (Nat.le_refl _) ha)
  | cons ha hg _ ih =>
    intro hq
    refine .cons (hq _ _ _ (by simp only [List.length_append, List.length_cons]; omega) ha) hg (ih fun d u a hu => hq d u a ?_)
    simp only [List.length_append, List.length_cons]
    omega

theorem SpAtom.mono {d : Edge} {t : List Char} {v : V} (h : SpAtom env Ex d t v) (hq : ∀ d u a, u.length < t.length → Ex d u a → Ex' d u a) :
    SpAtom env Ex' d t v := by
  cases h with
  | null h => exact .null h
  | name h => exact .name h
  | int h1 h2 => exact .int h1 h2
  | real h1 h2 h3 => exact .real h1 h2 h3
  | str h => exact .str h
  | dstr h => exact .dstr h
  | paren hl hg => exact .paren (hl.mono fun d u a hu => hq d u a (by simp; omega)) hg
  | call h1 h2 h3 hl hg => exact .call h1 h2 h3 (hl.mono fun d u a hu => hq d u a (by simp; omega)) hg
  | call0 h1 h2 h3 h4 => exact .call0 h1 h2 h3 h4

theorem SpOperand.mono {d : Edge} {t : List Char} {m : List F} (h : SpOperand env Ex d t m) :
    (∀ d u a, u.length < t.length → Ex d u a → Ex' d u a) → SpOperand env Ex' d t m := by
  induction h with
  | atom hg ha => exact fun hq => .atom hg (ha.mono fun d u a hu => hq d u a (by simp; omega))
  | neg hg hn _ ih => exact fun hq => .neg hg hn (ih fun d u a hu => hq d u a (by simp; omega))
  | bnot hg _ ih => exact fun hq => .bnot hg (ih fun d u a hu => hq d u a (by simp; omega))
  | knot hg hw hb _ ih => exact fun hq => .knot hg hw hb (ih fun d u a hu => hq d u a (by simp; omega))

theorem SpRun.mono {d : Edge} {t : List Char} {l : List F} (h : SpRun env Ex d t l) :
    (∀ d u a, u.length < t.length → Ex d u a → Ex' d u a) → SpRun env Ex' d t l := by
  induction h with
  | one h => exact fun hq => .one (h.mono hq)
  | cons h hg hs ho _ ih =>
    exact fun hq => .cons (h.mono fun d u a hu => hq d u a (by simp; omega)) hg hs ho (ih fun d u a hu => hq d u a (by simp; omega))

end

theorem SpExpr.depth (env : Env) : ∀ (n : Nat) {d : Edge} {t : List Char} {v : V}, SpExpr env n d t v → ∀ k, t.length ≤ k → SpExpr env (k + 1) d t v
  | 0, _, _, _, h, _, _ => h.elim
  | n + 1, d, t, v, h, k, hk => by
    rcases h with ⟨l, hl, hv⟩ | h
    · refine .inl ⟨l, hl.mono fun d u a hu ha => ?_, hv⟩
      obtain ⟨k, rfl⟩ : ∃ j, k = j + 1 := ⟨k - 1, by omega⟩
      exact SpExpr.depth env n ha k (by omega)
    · exact .inr h

theorem Spells.depth {env : Env} {d : Edge} {t : List Char} {v : V} (h : Spells env d t v) {k : Nat} (hk : t.length ≤ k) : SpExpr env (k + 1) d t v := by
  obtain ⟨n, h⟩ := h
  exact SpExpr.depth env n h k hk

/-- An expression is read as what it spells. -/
theorem Spells.read {env : Env} {d : Edge} {t : List Char} {v : V} (h : Spells env d t v) {r : List Char} (hr : Fin d r) {k : Nat} (hk : t.length ≤ k) :
    expr env (k + 1) (t ++ r) = .ok v r := (good env (k + 1)).read d t v r (h.depth hk) hr

/-! ### Clauses -/

theorem Ending.skip {t : List Char} (h : Ending t) : skip t = [] := by
  cases h with
  | gap h => have := h.skip []; simpa [Sql.skip, skipM] using this
  | @dashes g b hg hb =>
    rw [hg.skip, Sql.skip, skipM, if_neg (by decide), if_neg (by decide), if_pos (by simp), skipM, if_neg (by decide)]
    exact skip_line b hb
  | @hash g b hg hb =>
    rw [hg.skip, Sql.skip, skipM, if_neg (by decide), if_pos rfl]
    exact skip_line b hb

theorem Ending.head {t : List Char} (h : Ending t) {c : Char} (hc : t.head? = some c) : endChar c = true := by
  have key : ∀ {g : List Char}, Gap g → ∀ {b : List Char} {x : Char}, endChar x = true → (g ++ x :: b).head? = some c → endChar c = true := by
    intro g hg b x hx hh
    cases hgc : g with
    | nil => rw [hgc] at hh; simp at hh; subst hh; exact hx
    | cons y g' => rw [hgc] at hh; simp at hh; subst hh; exact (hg.head (by rw [hgc]; rfl)).1
  cases h with
  | gap h => exact (h.head hc).1
  | dashes hg _ => exact key hg (by decide) hc
  | hash hg _ => exact key hg (by decide) hc

theorem EndAfter.sep {d : Edge} {t : List Char} (h : EndAfter d t) : Sep d t := fun c hc =>
  ⟨endChar_shut (h.1.head hc), fun _ => h.1.head hc, fun hd hx => h.2 hd (by rw [hc, hx])⟩

theorem EndAfter.boundary {d : Edge} {t : List Char} (h : EndAfter d t) : boundary t = true := by
  cases t with
  | nil => rfl
  | cons c t => simp [Sql.boundary, endChar_key (h.1.head (c := c) rfl)]

theorem EndAfter.fin {d : Edge} {t : List Char} (h : EndAfter d t) : Fin d t := fin_nil h.sep h.1.skip

theorem where_words {w : List Char} (hw : Word "where" w) {no : List String} (h : ∀ v ∈ no, "where".toList ≠ v.toList) : ∀ v ∈ no, ¬ Word v w :=
  fun v hv => not_word hw (h v hv)

theorem SpWhere.fin {env : Env} {d : Edge} {t : List Char} {v : Option V} (h : SpWhere env d t v) : Fin d t := by
  cases h with
  | absent h => exact h.fin
  | @given x g w t e v hg hs hw hb ht _ =>
    have hb' : boundary (t ++ e) = true := by
      obtain ⟨n, ht⟩ := ht
      cases n with
      | zero => exact ht.elim
      | succ n =>
        have : t ≠ [] := by
          rcases ht with ⟨l, hl, _⟩ | ⟨_, _, g, _, rfl⟩
          · obtain ⟨c, u, rfl, _⟩ := hl.head; simp
          · simp
        cases t with
        | nil => exact absurd rfl this
        | cons c t => exact hb
    rw [← List.append_assoc]
    exact fin_word hg hs (wordy_of hw (by decide)) (ne_nil_of hw (by decide)) hb' (where_words hw (by decide))

theorem SpWhere.comma {env : Env} {d : Edge} {t : List Char} {v : Option V} (h : SpWhere env d t v) : lit "," t = none := by
  cases h with
  | absent h => exact lit_nil "," (d := ',') (l := []) rfl h.1.skip
  | @given x g w t e v hg hs hw hb ht _ =>
    obtain ⟨c, w', hc⟩ := List.exists_cons_of_ne_nil (ne_nil_of hw (by decide))
    have hk := wordy_of hw (by decide) c (by rw [hc]; simp)
    refine lit_ne "," (d := ',') (l := []) rfl (c := c) (r := w' ++ (t ++ e)) ?_ (by rintro rfl; exact absurd hk (by decide))
    rw [hg.skip, hc]
    exact skip_solid (solidChar_of_key hk) _

theorem SpWhere.read {env : Env} {d : Edge} {t : List Char} {v : Option V} (h : SpWhere env d t v) {k : Nat} (hk : t.length ≤ k) :
    ∃ e, whereOpt (expr env (k + 1)) t = .ok v e ∧ skip e = [] := by
  have hfin := h.fin
  cases h with
  | absent h =>
    refine ⟨t, ?_, h.1.skip⟩
    rw [whereOpt, (first_nil h.1.skip).kw (by decide)]
    rfl
  | @given x g w t e v hg hs hw hb ht he =>
    refine ⟨e, ?_, he.1.skip⟩
    have hb' : boundary (t ++ e) = true := by
      cases t with
      | nil => exact he.boundary
      | cons c t => exact hb
    have hf := (first_word (wordy_of hw (by decide)) (ne_nil_of hw (by decide)) hb').gap hg
    have hkw : kw "where" (g ++ (w ++ (t ++ e))) = some (t ++ e) := by rw [hf.kw (by decide)]; exact if_pos hw
    simp only [List.length_append] at hk
    rw [whereOpt, hkw]
    simp only
    rw [ht.read he.fin (by omega)]

theorem Kw.read {w : String} {t u : List Char} (h : Kw w t u) (hw : Wordy w.toList) (hne : w.toList ≠ []) : kw w t = some u := by
  obtain ⟨g, k, hg, hk, hb, rfl⟩ := h
  have hf := (first_word (wordy_of hk hw) (ne_nil_of hk hne) hb).gap hg
  rw [hf.kw hw]
  exact if_pos hk

/-- The other statements are not meant. -/
theorem Kw.other {w : String} {t u : List Char} (h : Kw w t u) (hw : Wordy w.toList) (hne : w.toList ≠ []) {no : List String}
    (hno : ∀ v ∈ no, Wordy v.toList ∧ w.toList ≠ v.toList) : anyKw no t = false := by
  obtain ⟨g, k, hg, hk, hb, rfl⟩ := h
  have hB : Begins no (g ++ (k ++ u)) := (begins_word (wordy_of hk hw) (ne_nil_of hk hne) hb (fun v hv => not_word hk (hno v hv).2)).gap hg
  exact hB.anyKw fun v hv => ⟨hv, (hno v hv).1⟩

theorem Kw.any {w : String} {t u : List Char} (h : Kw w t u) (hw : Wordy w.toList) (hne : w.toList ≠ []) {ws : List String} (hm : w ∈ ws) : anyKw ws t = true := by
  rw [anyKw, List.any_eq_true]
  exact ⟨w, hm, by rw [h.read hw hne]; rfl⟩

theorem Kw.lit {w : String} {t u : List Char} (h : Kw w t u) (hw : Wordy w.toList) (hne : w.toList ≠ []) (x : String) {d : Char} {l : List Char}
    (hx : x.toList = d :: l) (hd : keyChar d = false) : lit x t = none := by
  obtain ⟨g, k, hg, hk, hb, rfl⟩ := h
  obtain ⟨c, k', rfl⟩ := List.exists_cons_of_ne_nil (ne_nil_of hk hne)
  have hc := wordy_of hk hw c (by simp)
  refine lit_ne x hx (c := c) (r := k' ++ u) ?_ (by rintro rfl; rw [hc] at hd; cases hd)
  rw [hg.skip]; exact skip_solid (solidChar_of_key hc) _

theorem Kw.length {w : String} {t u : List Char} (h : Kw w t u) : u.length ≤ t.length := by
  obtain ⟨g, k, _, _, _, rfl⟩ := h
  simp; omega

theorem Nm.read {no : List String} {n t u : List Char} (h : Nm no n t u) (hno : ∀ w ∈ reservedWords, w ∈ no) : varName t = .ok n u := by
  obtain ⟨g, k, hg, hk, hp, hd, rfl⟩ := h
  exact varName_read hk hno hg hp hd

theorem Nm.length {no : List String} {n t u : List Char} (h : Nm no n t u) : u.length ≤ t.length := by
  obtain ⟨g, k, _, _, _, _, rfl⟩ := h
  simp; omega

theorem eq_next {h u : List Char} (hh : After .name h) : PEnd (h ++ '=' :: u) ∧ (skipWhite (h ++ '=' :: u)).head? ≠ some '.' ∧ lit "=" (h ++ '=' :: u) = some u := by
  have hs : skip (h ++ '=' :: u) = '=' :: u := by rw [hh.1.skip]; exact skip_solid (by decide) u
  exact ⟨(hh.sep (c := '=') (by decide) (by decide) u).pend, skipWhite_head (by decide) (by rw [hs]; simp), lit_char "=" rfl (by decide) hh.1⟩

theorem assign_reads (env : Env) (k : Nat) : Reads (assignment (expr env (k + 1))) (fun d t a => t.length ≤ k ∧ SpAssign env d t a) := by
  rintro d t a r ⟨hk, h⟩ hr
  cases h with
  | @mk g t h u n v hg hn hh hu =>
    have e : g ++ (t ++ (h ++ '=' :: u)) ++ r = g ++ (t ++ (h ++ '=' :: (u ++ r))) := by simp
    obtain ⟨h1, h2, h3⟩ := eq_next (u := u ++ r) hh
    simp only [List.length_append, List.length_cons] at hk
    rw [e, assignment, varName_read hn (fun _ h => h) hg h1 h2]
    simp only [h3]
    rw [hu.read hr (by omega)]

theorem row_reads (env : Env) (k : Nat) : Reads (rowOf (expr env (k + 1))) (fun d t a => t.length ≤ k ∧ SpRow env d t a) := by
  rintro d t l r ⟨hk, -, e, g, u, h, hg, hu, hh, rfl⟩ -
  have e1 : g ++ '(' :: (u ++ (h ++ [')'])) ++ r = g ++ '(' :: (u ++ (h ++ ')' :: r)) := by simp
  simp only [List.length_append, List.length_cons] at hk
  have hl : SpList (SpExpr env (k + 1)) e u l := hu.mono fun d t a ht ha => ha.depth (by omega)
  rw [e1, rowOf, lit_char "(" (c := '(') rfl (by decide) hg]
  simp only
  rw [list_close (good env (k + 1)) hl hh r]
  simp only [lit_close hh.1]

theorem col_reads : Reads varName SpCol := by
  rintro d t n r ⟨rfl, g, k, hg, hn, rfl⟩ hr
  rw [List.append_assoc]
  exact varName_read hn (fun _ h => h) hg hr.sep.pend (skipWhite_head (by decide) (suffix_dot hr.suf))

theorem SpCols.read {s s' : List Char} {l : List (List Char)} (h : SpCols s s' l) (hs : lit "(" s' = none) :
    columnsOpt s = .ok (l.map strOf) s' := by
  cases h with
  | absent => rw [columnsOpt, hs]; rfl
  | @given g t h s l hg hl hh =>
    rw [columnsOpt, lit_char "(" (c := '(') rfl (by decide) hg]
    simp only
    rw [listOf_reads col_reads hl (fin_char hh (by decide) s') (comma_close hh.1)]
    simp only [lit_close hh.1]

/-! ### Aliases -/

/-- Follows a column or table: nothing that could be taken for an alias. -/
structure Quiet (d : Edge) (r : List Char) : Prop extends Fin d r where
  noAs : kw "as" r = none
  noName : varName r = .fail
  noWith : anyKw ["with", "tablesample"] r = false

theorem quiet_comma (d : Edge) (g u : List Char) (hg : After d g) : Quiet d (g ++ ',' :: u) := by
  have hb : Begins ("tablesample" :: reservedWords) (g ++ ',' :: u) :=
    (begins_char (by decide) (c := ',') (by decide) (by decide) u).gap hg.1
  refine ⟨fin_char hg (by decide) u, hb.kw (by decide) (by decide), ?_, hb.anyKw (by decide)⟩
  rw [varName, hb.anyKw (by decide), if_neg (by simp), hg.1.skip, skip_solid (by decide)]
  rfl

theorem quiet_end {d : Edge} {r : List Char} (h : EndAfter d r) : Quiet d r := by
  have hb : Begins ("tablesample" :: reservedWords) r := ⟨[], [], first_nil h.1.skip, by decide⟩
  refine ⟨h.fin, hb.kw (by decide) (by decide), ?_, hb.anyKw (by decide)⟩
  rw [varName, hb.anyKw (by decide), if_neg (by simp), h.1.skip]
  rfl

theorem quiet_kw {d : Edge} {w : String} {t u : List Char} (h : Kw w t u) (hs : Sep d t) (hm : w ∈ reservedWords)
    (hno : ∀ v ∈ opWords ++ ["over", "within", "filter", "as", "with", "tablesample"], w.toList ≠ v.toList) : Quiet d t := by
  obtain ⟨hw, hne⟩ : Wordy w.toList ∧ w.toList ≠ [] := (by decide : ∀ w ∈ reservedWords, Wordy w.toList ∧ w.toList ≠ []) w hm
  have hany := h.any hw hne hm
  have hwith := h.other hw hne (no := ["with", "tablesample"]) (fun v hv => ⟨by revert hv; revert v; decide, hno v (by revert hv; revert v; decide)⟩)
  have has := h.other hw hne (no := ["as"]) (fun v hv => ⟨by revert hv; revert v; decide, hno v (by revert hv; revert v; decide)⟩)
  obtain ⟨g, k, hg, hk, hb, rfl⟩ := h
  have hkn := ne_nil_of hk hne
  refine ⟨?_, ?_, ?_, hwith⟩
  · obtain ⟨c, k', hkc⟩ := List.exists_cons_of_ne_nil hkn
    have hs' : Sep d (g ++ k) := by
      intro x hx
      refine hs x ?_
      rw [← List.append_assoc]
      cases hgk : g ++ k with
      | nil => rw [hgk] at hx; cases hx
      | cons y z => rw [hgk] at hx; simpa using hx
    rw [← List.append_assoc]
    exact fin_word hg hs' (wordy_of hk hw) hkn hb (fun v hv => not_word hk (hno v (by revert hv; revert v; decide)))
  · simpa [anyKw] using has
  · rw [varName, if_pos hany]

/-- A name does not continue an expression. -/
theorem fin_begins {d : Edge} {s : List Char} (hs : Sep d s) (hb : Begins (opWords ++ ["over", "within", "filter"]) s)
    (hh : ∀ c, (skip s).head? = some c → keyChar c = true ∨ c = '`') : Fin d s := by
  obtain ⟨k, u, hf, hk⟩ := hb
  have hne : ∀ x : Char, keyChar x = false → x ≠ '`' → (skip s).head? ≠ some x := by
    intro x hx hx2 h
    rcases hh x h with h | h
    · rw [h] at hx; cases hx
    · exact hx2 h
  refine ⟨⟨hs, suffix_none hf (fun w h => hk w (by simp only [List.mem_append]; exact .inr h)) ?_, ?_⟩, ?_⟩
  · intro x hx
    refine hne x ?_ ?_ <;> (revert hx; revert x; decide)
  · exact lit_head "(" (d := '(') (l := []) rfl (hne _ (by decide) (by decide))
  · rw [opNext, sym_none, word_none hf (fun w h => hk w (by simp only [List.mem_append]; exact .inl h))]
    intro p hp
    obtain ⟨x, hx, hx2, hx3⟩ : ∃ x, p.1.toList.head? = some x ∧ keyChar x = false ∧ x ≠ '`' := by
      revert hp; revert p; decide
    rw [hx]
    exact hne x hx2 hx3

theorem SpName.head {no : List String} {t n : List Char} (h : SpName no t n) : ∃ c t', t = c :: t' ∧ (keyChar c = true ∨ c = '`') := by
  cases h with
  | mk hp _ _ =>
    obtain ⟨c, p', rfl, hc⟩ := hp.head
    exact ⟨c, _, rfl, hc.imp And.left id⟩

theorem SpAlias.read {d : Edge} {u n : List Char} (h : SpAlias d u n) {r : List Char} (hr : Quiet .name r) :
    aliasOpt (u ++ r) = .ok (some (strOf n)) r ∧ Fin d (u ++ r) ∧ anyKw ["with", "tablesample"] (u ++ r) = false := by
  have hdot := skipWhite_head (c := '.') (by decide) (suffix_dot hr.suf)
  have hlast : ∀ s, varName s = .ok n r → (kw "as" (u ++ r)).getD (u ++ r) = s → aliasOpt (u ++ r) = .ok (some (strOf n)) r := by
    intro s hs he
    rw [aliasOpt, he, hs]
    simp [hr.par, anyKw, hr.noAs]
  cases h with
  | @as g k h t n hg hs hk hh hb hn =>
    obtain ⟨c, t', ht, _⟩ := hn.head
    have hb' : boundary (h ++ (t ++ r)) = true := by
      rw [← List.append_assoc]
      cases hx : h ++ t with
      | nil => rw [ht] at hx; simp at hx
      | cons y z => rw [hx] at hb; exact hb
    have e : g ++ (k ++ (h ++ t)) ++ r = g ++ (k ++ (h ++ (t ++ r))) := by simp
    have hkw : Kw "as" (g ++ (k ++ (h ++ (t ++ r)))) (h ++ (t ++ r)) := ⟨g, k, hg, hk, hb', rfl⟩
    refine ⟨hlast (h ++ (t ++ r)) (varName_read hn (fun _ h => h) hh hr.sep.pend hdot) ?_, ?_, ?_⟩
    · rw [e, hkw.read (by decide) (by decide)]; rfl
    · rw [e, ← List.append_assoc]
      exact fin_word hg hs (wordy_of hk (by decide)) (ne_nil_of hk (by decide)) hb' (fun v hv => not_word hk (by revert hv; revert v; decide))
    · rw [e]; exact hkw.other (by decide) (by decide) (by decide)
  | @bare g t n hgn hg hn =>
    have e : g ++ t ++ r = g ++ (t ++ r) := by simp
    have hB : Begins noAliases (g ++ (t ++ r)) := (begins_name hn (fun w hw => ⟨hw, by revert hw; revert w; decide⟩) hr.sep.pend).gap hg.1
    obtain ⟨c, t', ht, hc⟩ := hn.head
    refine ⟨hlast (g ++ (t ++ r)) (varName_read hn (by decide) hg.1 hr.sep.pend hdot) ?_, ?_, ?_⟩
    · rw [e, hB.kw (by decide) (by decide)]; rfl
    · rw [e]
      refine fin_begins ?_ (hB.mono (by decide)) ?_
      · exact sep_append hg.sep_end hgn
      · intro x hx
        rw [hg.1.skip, solid_name hn, ht] at hx
        simp at hx
        subst hx
        exact hc
    · rw [e]; exact hB.anyKw (by decide)

theorem item_reads (env : Env) (k : Nat) : ReadsE Quiet (selectColumn (expr env (k + 1))) (fun d t a => t.length ≤ k ∧ SpItem env d t a) := by
  rintro d t j r ⟨hk, h⟩ hr
  cases h with
  | plain hv hj =>
    have ha : aliasOpt r = .ok none r := by rw [aliasOpt, hr.noAs]; simp only [Option.getD_none, hr.noName]
    rw [selectColumn, hv.read hr.toFin hk]
    simp only [ha, hj]
  | @named d t u n v j hv ha hj =>
    obtain ⟨h1, h2, _⟩ := ha.read hr
    simp only [List.length_append] at hk
    rw [List.append_assoc, selectColumn, hv.read h2 (by omega)]
    simp only [h1, hj]

theorem table_reads : ReadsE Quiet tableSource SpTable := by
  have key : ∀ {g t n u : List Char}, Gap g → SpName ("stack" :: reservedWords) t n → Fin .name u → (anyKw ["with", "tablesample"] u = false) →
      ∀ {a : Option String} {r : List Char}, aliasOpt u = .ok a r → tableSource (g ++ (t ++ u)) =
        match a with
        | none => .ok (.str (strOf n)) r
        | some m => .ok (.dict [("value", .str (strOf n)), ("name", .str m)]) r := by
    intro g t n u hg hn hu hw a r ha
    have hB : Begins ["stack"] (g ++ (t ++ u)) := (begins_name hn (by decide) hu.sep.pend).gap hg
    obtain ⟨c, t', ht, hc⟩ := hn.head
    have hp : lit "(" (g ++ (t ++ u)) = none := by
      refine lit_head "(" (d := '(') (l := []) rfl ?_
      rw [hg.skip, solid_name hn, ht]
      simp only [List.cons_append, List.head?_cons, ne_eq, Option.some.injEq]
      rintro rfl
      rcases hc with h | h
      · exact absurd h (by decide)
      · exact absurd h (by decide)
    have hv := varName_read hn (by decide) hg hu.sep.pend (skipWhite_head (by decide) (suffix_dot hu.suf))
    rw [tableSource, hB.anyKw (by decide), hp, hv]
    simp only [hu.par, hw, ha]
    cases a <;> rfl
  rintro d t j r h hr
  cases h with
  | @plain g t n hg hn =>
    have ha : aliasOpt r = .ok none r := by rw [aliasOpt, hr.noAs]; simp only [Option.getD_none, hr.noName]
    rw [List.append_assoc, key hg hn hr.toFin hr.noWith ha]
  | @named g t n u m hg hn ha =>
    obtain ⟨h1, h2, h3⟩ := ha.read hr
    rw [List.append_assoc, List.append_assoc, key hg hn h2 h3 h1]

theorem SpWhere.quiet {env : Env} {d : Edge} {t : List Char} {v : Option V} (h : SpWhere env d t v) : Quiet d t := by
  have hfin := h.fin
  cases h with
  | absent h => exact quiet_end h
  | @given x g w t e v hg hs hw hb ht he =>
    have hb' : boundary (t ++ e) = true := by
      cases t with
      | nil => exact he.boundary
      | cons c t => exact hb
    exact quiet_kw ⟨g, w, hg, hw, hb', rfl⟩ hfin.sep (by decide) (by decide)

theorem SpWhere.other {env : Env} {d : Edge} {t : List Char} {v : Option V} (h : SpWhere env d t v) {no : List String}
    (hno : ∀ w ∈ no, Wordy w.toList ∧ w.toList ≠ [] ∧ "where".toList ≠ w.toList) : anyKw no t = false := by
  cases h with
  | absent h =>
    have hb : Begins no t := ⟨[], [], first_nil h.1.skip, fun w hw hx => (hno w hw).2.1 hx.symm⟩
    exact hb.anyKw fun w hw => ⟨hw, (hno w hw).1⟩
  | @given x g w t e v hg hs hw hb ht he =>
    have hb' : boundary (t ++ e) = true := by
      cases t with
      | nil => exact he.boundary
      | cons c t => exact hb
    exact Kw.other ⟨g, w, hg, hw, hb', rfl⟩ (by decide) (by decide) fun v hv => ⟨(hno v hv).1, (hno v hv).2.2⟩

/-! ### What is skipped is a gap -/

theorem closed_split : ∀ s : List Char, closed s = true → ∃ b r, s = b ++ '*' :: '/' :: r ∧ closed (b ++ ['*']) = false
  | [], h => by simp [closed] at h
  | c :: s, h => by
    by_cases hc : c = '*' ∧ s.head? = some '/'
    · obtain ⟨rfl, hs⟩ := hc
      cases s with
      | nil => simp at hs
      | cons x r =>
        simp at hs
        subst hs
        exact ⟨[], r, rfl, rfl⟩
    · have h2 : closed s = true := by
        rw [closed] at h
        simp only [Bool.or_eq_true, Bool.and_eq_true, beq_iff_eq] at h
        rcases h with h | h
        · exact absurd h hc
        · exact h
      obtain ⟨b, r, rfl, hb⟩ := closed_split s h2
      refine ⟨c :: b, r, rfl, ?_⟩
      rw [List.cons_append, closed, hb, Bool.or_false, Bool.and_eq_false_iff]
      by_cases hx : c = '*'
      · right
        have : (b ++ '*' :: '/' :: r).head? ≠ some '/' := fun h => hc ⟨hx, h⟩
        cases b with
        | nil => rfl
        | cons y b => simpa using this
      · left; simpa using hx

theorem line_split : ∀ s : List Char, '\n' ∈ s → ∃ b r, s = b ++ '\n' :: r ∧ '\n' ∉ b
  | [], h => by simp at h
  | c :: s, h => by
    by_cases hc : c = '\n'
    · subst hc; exact ⟨[], s, rfl, by simp⟩
    · have : '\n' ∈ s := by
        simp only [List.mem_cons] at h
        rcases h with h | h
        · exact absurd h.symm hc
        · exact h
      obtain ⟨b, r, rfl, hb⟩ := line_split s this
      exact ⟨c :: b, r, rfl, by simp [hb, Ne.symm hc]⟩

/-- What the parser skips before a token is a gap. -/
theorem skip_gap : ∀ (n : Nat) (s : List Char), s.length ≤ n → skip s ≠ [] → ∃ g, Gap g ∧ s = g ++ skip s
  | 0, s, hn, h => by
    have : s = [] := List.length_eq_zero_iff.mp (by omega)
    subst this
    exact absurd rfl h
  | n + 1, [], _, h => absurd rfl h
  | n + 1, c :: s, hn, h => by
    simp only [List.length_cons] at hn
    by_cases hw : white c = true
    · have e : skip (c :: s) = skip s := by rw [skip, skipM, if_pos hw]; rfl
      rw [e] at h ⊢
      obtain ⟨g, hg, hs⟩ := skip_gap n s (by omega) h
      exact ⟨c :: g, .white hw hg, by rw [List.cons_append, ← hs]⟩
    · by_cases hh : c = '#'
      · subst hh
        have e : skip ('#' :: s) = skipM .line s := by rw [skip, skipM, if_neg (by decide), if_pos rfl]
        by_cases hm : '\n' ∈ s
        · obtain ⟨b, r, rfl, hb⟩ := line_split s hm
          rw [e, skip_line_nl b r hb] at h ⊢
          simp only [List.length_append, List.length_cons] at hn
          obtain ⟨g, hg, hs⟩ := skip_gap n r (by omega) h
          exact ⟨'#' :: (b ++ '\n' :: g), .hash hb hg, by simp [← hs]⟩
        · rw [e, skip_line s hm] at h; exact absurd rfl h
      · by_cases hd : c = '-' ∧ s.head? = some '-'
        · obtain ⟨rfl, hs⟩ := hd
          cases s with
          | nil => simp at hs
          | cons x s =>
            simp at hs
            subst hs
            have e : skip ('-' :: '-' :: s) = skipM .line s := by
              rw [skip, skipM, if_neg (by decide), if_neg (by decide), if_pos (by simp), skipM, if_neg (by decide)]
            by_cases hm : '\n' ∈ s
            · obtain ⟨b, r, rfl, hb⟩ := line_split s hm
              rw [e, skip_line_nl b r hb] at h ⊢
              simp only [List.length_append, List.length_cons] at hn
              obtain ⟨g, hg, hs⟩ := skip_gap n r (by omega) h
              exact ⟨'-' :: '-' :: (b ++ '\n' :: g), .dashes hb hg, by simp [← hs]⟩
            · rw [e, skip_line s hm] at h; exact absurd rfl h
        · by_cases hb : c = '/' ∧ s.head? = some '*' ∧ closed s.tail = true
          · obtain ⟨rfl, hs, hc⟩ := hb
            cases s with
            | nil => simp at hs
            | cons x s =>
              simp at hs hc
              subst hs
              obtain ⟨b, r, rfl, hb⟩ := closed_split s hc
              have e : skip ('/' :: '*' :: (b ++ '*' :: '/' :: r)) = skip r := by
                have := (Gap.block hb .nil).skip r
                simpa using this
              rw [e] at h ⊢
              simp only [List.length_append, List.length_cons] at hn
              obtain ⟨g, hg, hs⟩ := skip_gap n r (by omega) h
              exact ⟨'/' :: '*' :: (b ++ '*' :: '/' :: g), .block hb hg, by simp [← hs]⟩
          · have e : skip (c :: s) = c :: s := by rw [skip, skipM, if_neg hw, if_neg hh, if_neg hd, if_neg hb]
            exact ⟨[], .nil, by rw [e]; rfl⟩

theorem kwAt_some : ∀ (w s r : List Char), kwAt w s = some r → ∃ t, t.map Char.toLower = w ∧ s = t ++ r ∧ boundary r = true
  | [], s, r, h => by
    rw [kwAt] at h
    split at h
    · rename_i hb; injection h with h; subst h; exact ⟨[], rfl, rfl, hb⟩
    · cases h
  | _ :: _, [], r, h => by simp [kwAt] at h
  | d :: w, c :: s, r, h => by
    rw [kwAt] at h
    split at h
    · rename_i hc
      obtain ⟨t, h1, h2, h3⟩ := kwAt_some w s r h
      exact ⟨c :: t, by simp [hc, h1], by rw [h2]; rfl, h3⟩
    · cases h

/-- A keyword is found exactly where the text, after a gap, begins with it in any case. -/
theorem kw_opens {w : String} (hw : Wordy w.toList) (hne : w.toList ≠ []) (s : List Char) : (kw w s).isSome = true ↔ Opens w s := by
  constructor
  · intro h
    obtain ⟨r, hr⟩ := Option.isSome_iff_exists.mp h
    obtain ⟨t, h1, h2, h3⟩ := kwAt_some _ _ _ hr
    have hs : skip s ≠ [] := by
      rw [h2]
      have := ne_nil_of (w := w) h1 hne
      simp [this]
    obtain ⟨g, hg, hgs⟩ := skip_gap s.length s (Nat.le_refl _) hs
    exact ⟨g, t, r, hg, h1, h3, by rw [← h2]; exact hgs⟩
  · rintro ⟨g, t, r, hg, ht, hb, rfl⟩
    have := Kw.read ⟨g, t, hg, ht, hb, rfl⟩ hw hne
    rw [this]; rfl

end EulerDB.Sql
