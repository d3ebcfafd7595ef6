/-
C77: what the backend reads as a statement is spelled as the grammar wants it.
-/
import Verif.Whole.Back
import Verif.Clause.SetProps

namespace EulerDB.Whole

open EulerDB EulerDB.Sql EulerDB.Parse EulerDB.Clause

/-! ### Trailing blanks -/

/-- No blank at the end. -/
def Tight (s : List Char) : Prop := ∀ c, s.getLast? = some c → space c = false

theorem Tight.rest {s u s' : List Char} (h : Tight s) (e : s = u ++ s') (hb : Blank s') : s' = [] := by
  subst e
  cases hl : s'.getLast? with
  | none => exact List.getLast?_eq_none_iff.1 hl
  | some c =>
    have h1 := h c (by rw [List.getLast?_append, hl]; rfl)
    rw [hb c (List.mem_of_getLast? hl)] at h1
    exact absurd h1 (by decide)

theorem name_solid {c : Char} (h : Format.nameChar c = true) : space c = false := by
  cases hs : space c with
  | false => rfl
  | true =>
    unfold space at hs
    simp only [Bool.or_eq_true, beq_iff_eq] at hs
    rcases hs with ((rfl | rfl) | rfl) | rfl <;> exact absurd h (by decide)

theorem digit_name {c : Char} (h : c.isDigit = true) : Format.nameChar c = true := by simp [Format.nameChar, Char.isAlphanum, h]

theorem TokAt.last {dq : Bool} {k : MTok} {t r : List Char} (h : TokAt dq k t r) : ∃ x c, t = x ++ [c] ∧ space c = false := by
  have hl : ∀ {l : List Char}, l ≠ [] → (∀ d ∈ l, Format.nameChar d = true) → ∃ x c, l = x ++ [c] ∧ space c = false := fun {l} hne hn =>
    ⟨l.dropLast, l.getLast hne, (List.dropLast_concat_getLast hne).symm, name_solid (hn _ (List.getLast_mem hne))⟩
  cases h with
  | word h1 h2 _ _ => exact hl (by simp) h2
  | num h1 h2 _ => exact hl h1 fun d hd => digit_name (h2 d hd)
  | @str l _ _ => exact ⟨'\'' :: Format.written l, '\'', by simp, by decide⟩
  | @dstr x _ _ _ _ => exact ⟨'"' :: x, '"', by simp, by decide⟩
  | lp => exact ⟨[], _, rfl, by decide⟩
  | rp => exact ⟨[], _, rfl, by decide⟩
  | comma => exact ⟨[], _, rfl, by decide⟩
  | minus _ => exact ⟨[], _, rfl, by decide⟩
  | cmp h =>
    rcases cmpOf_text h with ⟨rfl, _⟩ | ⟨rfl, _⟩ | ⟨rfl, _⟩ | ⟨rfl, _⟩ | ⟨rfl, _⟩ | ⟨rfl, _⟩
    · exact ⟨[], _, rfl, by decide⟩
    · exact ⟨['<'], _, rfl, by decide⟩
    · exact ⟨[], _, rfl, by decide⟩
    · exact ⟨[], _, rfl, by decide⟩
    · exact ⟨['>'], _, rfl, by decide⟩
    · exact ⟨['<'], _, rfl, by decide⟩

theorem head_prefix {r e : List Char} {c : Char} (h : r.head? = some c) : (r ++ e).head? = some c := by
  cases r with
  | nil => simp at h
  | cons d r => exact h

theorem TokAt.prefix {dq : Bool} {k : MTok} {t r e : List Char} (h : TokAt dq k t (r ++ e)) : TokAt dq k t r := by
  cases h with
  | word h1 h2 h3 h4 => exact .word h1 h2 (fun c hc => h3 c (head_prefix hc)) fun c hc => h4 c (head_prefix hc)
  | num h1 h2 h3 => exact .num h1 h2 fun c hc => h3 c (head_prefix hc)
  | str h => exact .str h
  | dstr h1 h2 => exact .dstr h1 h2
  | lp => exact .lp
  | rp => exact .rp
  | comma => exact .comma
  | minus h => exact .minus fun hc => h (head_prefix hc)
  | cmp h => exact .cmp h

theorem At.trim {dq : Bool} {s : List Char} {ks : List MTok} (h : At dq s ks) : ∃ s0 e, s = s0 ++ e ∧ Blank e ∧ At dq s0 ks ∧ Tight s0 := by
  induction h with
  | @nil g hg => exact ⟨[], g, rfl, hg, .nil (by simp [Blank]), by simp [Tight]⟩
  | @cons g t r k ks hg ht _ ih =>
    obtain ⟨r0, e, rfl, he, hr, hl⟩ := ih
    refine ⟨g ++ (t ++ r0), e, by simp, he, .cons hg ht.prefix hr, ?_⟩
    intro c hc
    cases hr0 : r0.getLast? with
    | some d =>
      rw [List.getLast?_append, List.getLast?_append, hr0] at hc
      simp only [Option.some_or, Option.some.injEq] at hc
      rw [← hc]
      exact hl d hr0
    | none =>
      obtain ⟨x, d, rfl, hd⟩ := ht.last
      rw [List.getLast?_eq_none_iff.1 hr0, List.append_nil, ← List.append_assoc, List.getLast?_concat] at hc
      simp only [Option.some.injEq] at hc
      rw [← hc]
      exact hd

/-! ### Keywords and names -/

section
variable (res : List Char → Bool) (env : Env) {dq : Bool}

theorem kw_found {K w : String} {ts ts' : List MTok} (hK : K.toList.map Char.toLower = w.toList) (h : pKw K ts = some ts') {s : List Char} (hs : At dq s ts) :
    ∃ g k s1, s = g ++ (k ++ s1) ∧ Blank g ∧ Word w k ∧ k ≠ [] ∧ (∀ c ∈ k, Format.nameChar c = true) ∧ NoName s1 ∧ At dq s1 ts' := by
  unfold pKw at h
  split at h
  · split at h
    · rename_i hk
      simp only [Option.some.injEq] at h
      subst h
      cases hs with
      | cons hb ht hr =>
        cases ht with
        | word h1 h2 h3 h4 => exact ⟨_, _, _, rfl, hb, isKw_word hK hk, by simp, h2, h3, hr⟩
    · exact absurd h (by simp)
  · exact absurd h (by simp)

theorem kw_next {K w : String} {ts ts' : List MTok} (hK : K.toList.map Char.toLower = w.toList) (h : pKw K ts = some ts') {s : List Char} (hs : At dq s ts) :
    ∃ s1, Kw w s s1 ∧ At dq s1 ts' ∧ ∃ u, s = u ++ s1 := by
  obtain ⟨g, k, s1, rfl, h1, h2, _, _, h3, h4⟩ := kw_found hK h hs
  exact ⟨s1, ⟨g, k, h1.gap, h2, h3.boundary, rfl⟩, h4, g ++ k, by simp⟩

theorem name_found {ts ts' : List MTok} {n : String} (h : pName res ts = some (n, ts')) {s : List Char} (hs : At dq s ts) :
    ∃ g s1, s = g ++ (n.toList ++ s1) ∧ Blank g ∧ n.toList ≠ [] ∧ NoName s1 ∧ (∀ d, s1.head? = some d → d ≠ '\'' ∧ d ≠ '"') ∧ At dq s1 ts' := by
  unfold pName at h
  split at h
  · split at h
    · exact absurd h (by simp)
    · simp only [Option.some.injEq, Prod.mk.injEq] at h
      obtain ⟨rfl, rfl⟩ := h
      cases hs with
      | cons hb ht hr =>
        cases ht with
        | word h1 h2 h3 h4 =>
          rw [String.toList_ofList]
          exact ⟨_, _, rfl, hb, by simp, h3, h4, hr⟩
  · exact absurd h (by simp)

theorem GoodName.sp {n : String} (h : GoodName n) {no : List String} (hno : ∀ w ∈ no, w ∈ noNames ++ ["table", "top"]) : SpName no n.toList n.toList := by
  refine good_name ?_ hno
  rw [String.ofList_toList]
  exact h

theorem GoodName.fin {n : String} (h : GoodName n) : Fin' n.toList := by
  obtain ⟨h1, c, r, h2, _⟩ := h.1
  exact fin_last (by simp [h2]) h1

theorem starts_dot (k : MTok) : starts k '.' = false := by cases k <;> rfl

theorem name_next {ts ts' : List MTok} {n : String} (h : pName res ts = some (n, ts')) (hn : GoodName n) {no : List String} (hno : ∀ w ∈ no, w ∈ noNames ++ ["table", "top"])
    (hm : ts'.head? ≠ some .minus) {s : List Char} (hs : At dq s ts) : ∃ s1, Nm no n.toList s s1 ∧ NoName s1 ∧ At dq s1 ts' ∧ ∃ g, s = g ++ (n.toList ++ s1) := by
  obtain ⟨g, s1, rfl, h1, _, h3, h4, h5⟩ := name_found res h hs
  refine ⟨s1, ⟨g, n.toList, h1.gap, hn.sp hno, ?_, ?_, rfl⟩, h3, h5, g, rfl⟩
  · intro c hc
    rcases h5.head hc with hsp | ⟨k, hk, hst⟩
    · obtain ⟨_, _, e1, _, e2, e3⟩ := space_facts hsp
      exact ⟨e2, e3, e1⟩
    · have hnn := h3 c hc
      cases k with
      | word _ => simp [starts, hnn] at hst
      | num _ => rw [digit_name hst] at hnn; exact absurd hnn (by decide)
      | str _ =>
        simp only [starts, Bool.or_eq_true, beq_iff_eq] at hst
        rcases hst with hst | hst
        · exact absurd hst (h4 c hc).1
        · exact absurd hst (h4 c hc).2
      | minus => exact absurd hk hm
      | cmp _ =>
        simp only [starts, cmpChar, Bool.or_eq_true, beq_iff_eq] at hst
        rcases hst with (rfl | rfl) | rfl <;> decide
      | _ =>
        simp only [starts, beq_iff_eq] at hst
        subst hst
        decide
  · intro hc
    obtain ⟨k, _, hst⟩ := h5.skipped hc
    rw [starts_dot k] at hst
    exact absurd hst (by decide)

/-! ### Lists -/

/-- A parser of items reads what the grammar reads. -/
def ItemOk {α β : Type} (dq : Bool) (p : List MTok → Option (α × List MTok)) (good : α → Prop) (Q : Edge → List Char → β → Prop) (R : α → β → Prop) : Prop :=
  ∀ ts a ts', p ts = some (a, ts') → good a → ∀ s, At dq s ts → ∃ d u s' b, s = u ++ s' ∧ At dq s' ts' ∧ Glue d s' ∧ Q d u b ∧ R a b ∧ Fin' u

theorem sep_found {α β : Type} {p : List MTok → Option (α × List MTok)} {good : α → Prop} {Q : Edge → List Char → β → Prop} {R : α → β → Prop}
    (hp : ItemOk dq p good Q R) : ∀ (n : Nat), ItemOk dq (pSep p n) (fun l => ∀ a ∈ l, good a) (SpList Q) (List.Forall₂ R) := by
  intro n
  induction n with
  | zero =>
    intro ts l ts' h hg s hs
    obtain ⟨⟨a, r⟩, h1, h2⟩ := Option.map_eq_some_iff.1 h
    simp only [Prod.mk.injEq] at h2
    obtain ⟨rfl, rfl⟩ := h2
    obtain ⟨d, u, s', b, e1, e2, e3, e4, e5, e6⟩ := hp _ _ _ h1 (hg a (by simp)) s hs
    exact ⟨d, u, s', [b], e1, e2, e3, .one e4, .cons e5 .nil, e6⟩
  | succ n ih =>
    intro ts l ts' h hg s hs
    rw [pSep] at h
    split at h
    · rename_i a r h1
      obtain ⟨⟨l', r'⟩, h2, h3⟩ := Option.map_eq_some_iff.1 h
      simp only [Prod.mk.injEq] at h3
      obtain ⟨rfl, rfl⟩ := h3
      obtain ⟨d, u, s', b, rfl, e2, e3, e4, e5, _⟩ := hp _ _ _ h1 (hg a (by simp)) s hs
      cases e2 with
      | @cons g t r2 _ _ hb ht hr =>
        cases ht with
        | comma =>
          obtain ⟨d', u', s2, bs, rfl, f2, f3, f4, f5, f6⟩ := ih _ _ _ h2 (fun a ha => hg a (by simp [ha])) _ hr
          refine ⟨d', u ++ g ++ ',' :: u', s2, b :: bs, by simp, f2, f3, .cons e4 (hb.after d) f4, .cons e5 f5, ?_⟩
          have := f6.append (u ++ g ++ [','])
          simpa using this
    · rename_i a r _ h1
      simp only [Option.some.injEq, Prod.mk.injEq] at h
      obtain ⟨rfl, rfl⟩ := h
      obtain ⟨d, u, s', b, e1, e2, e3, e4, e5, e6⟩ := hp _ _ _ h1 (hg a (by simp)) s hs
      exact ⟨d, u, s', [b], e1, e2, e3, .one e4, .cons e5 .nil, e6⟩
    · exact absurd h (by simp)

/-- As the parser's value; NULL is not read. -/
def toVal : DbVal → Val
  | .null => .int 0
  | .int z => .int z
  | .text s => .text s

def GoodVal (dq : Bool) : DbVal → Prop
  | .null => False
  | .int _ => True
  | .text s => GoodText dq s

/-- A literal as an expression. -/
def litEx : DbVal → MEx
  | .null => .int 0
  | .int z => .int z
  | .text s => .text s

theorem pLit_prim {ts ts' : List MTok} {v : DbVal} (h : pLit ts = some (v, ts')) : prim (fun _ => true) (fun _ => none) ts = some (litEx v, ts') := by
  unfold pLit at h
  split at h <;> first
    | (simp only [Option.some.injEq, Prod.mk.injEq] at h; obtain ⟨rfl, rfl⟩ := h; rfl)
    | exact absurd h (by simp)

theorem rep_lit : ∀ {e : MEx} {v : V}, Rep e v → ∀ x : DbVal, e = litEx x → scrub v = (toVal x).rhs := by
  intro e v h
  induction h with
  | paren _ ih => exact fun x hx => by rw [scrub]; exact ih x hx
  | name => intro x hx; cases x <;> exact absurd hx (by simp [litEx])
  | text =>
    intro x hx
    cases x <;> simp [litEx] at hx
    subst hx
    rfl
  | int => intro x hx; cases x <;> simp [litEx] at hx <;> subst hx <;> rfl
  | _ => intro x hx; cases x <;> exact absurd hx (by simp [litEx])

theorem lit_found : ItemOk dq pLit (GoodVal dq) (Spells env) (fun a v => scrub v = (toVal a).rhs) := by
  intro ts a ts' h hg s hs
  obtain ⟨d, u, s', t, h1, h2, h3, h4, h5, _, h7, h8⟩ := prim_found (fun _ => true) env (Ex := SpExpr env 0) (fun _ _ _ h => by simp at h) (pLit_prim h)
    (by cases a <;> first | exact hg | exact hg.elim) hs (Pend.start s)
  exact ⟨d, u, s', t.v, h1, h2, h3, ⟨1, Or.inl ⟨t.run, by simpa using h4.run, C70_bracketed_partial h5⟩⟩, rep_lit h7 a rfl, h8⟩

theorem col_found : ItemOk dq (pName res) GoodName SpCol (fun a n => strOf n = a) := by
  intro ts a ts' h hg s hs
  obtain ⟨g, s1, rfl, h1, _, h3, h4, h5⟩ := name_found res h hs
  exact ⟨.name, g ++ a.toList, s1, a.toList, by simp, h5, fun _ => h3, ⟨rfl, g, _, h1.gap, hg.sp (fun w hw => by simp [noNames, hw]), rfl⟩, String.ofList_toList, hg.fin.append g⟩

theorem good_star {n : String} (h : GoodName n) : n ≠ "*" := by
  rintro rfl
  exact absurd (h.1.1 '*' (by decide)) (by decide)

theorem item_found : ItemOk dq (pName res) GoodName (SpItem env) (fun a j => j = .dict [("value", .str a)]) := by
  intro ts a ts' h hg s hs
  obtain ⟨g, s1, rfl, h1, _, h3, h4, h5⟩ := name_found res h hs
  refine ⟨.name, g ++ a.toList, s1, _, by simp, h5, fun _ => h3, .plain (v := .name a) ⟨1, Or.inl ⟨[.val (.name a)], .one ?_, ?_⟩⟩ ?_, rfl, hg.fin.append g⟩
  · have := SpOperand.atom (env := env) (Ex := SpExpr env 0) h1.gap (.name (hg.sp (no := noNames) fun w hw => by simp [hw]))
    rw [strOf, String.ofList_toList] at this
    exact this
  · exact C70_bracketed_partial (e := .val (.name a)) trivial
  · simp [columnJson, good_star hg, nameJson]

theorem set_found : ItemOk dq (pSet res) (fun e => GoodName e.1 ∧ GoodVal dq e.2) (SpAssign env) (fun e p => (p.1, scrub p.2) = (e.1, (toVal e.2).rhs)) := by
  intro ts a ts' h hg s hs
  unfold pSet at h
  split at h
  · rename_i n r h1
    obtain ⟨⟨v, r'⟩, h2, h3⟩ := Option.map_eq_some_iff.1 h
    simp only [Prod.mk.injEq] at h3
    obtain ⟨rfl, rfl⟩ := h3
    obtain ⟨g, s1, rfl, e1, _, e3, e4, e5⟩ := name_found res h1 hs
    cases e5 with
    | @cons g2 t r2 _ _ hb ht hr =>
      cases ht with
      | cmp ho =>
        rcases cmpOf_text ho with ⟨rfl, _⟩ | ⟨_, hx⟩ | ⟨_, hx⟩ | ⟨_, hx⟩ | ⟨_, hx⟩ | ⟨_, hx⟩
        case inl =>
          obtain ⟨d, u, s2, w, rfl, f2, f3, f4, f5, f6⟩ := lit_found env _ _ _ h2 hg.2 _ hr
          refine ⟨d, g ++ (n.toList ++ (g2 ++ '=' :: u)), s2, _, by simp, f2, f3, .mk e1.gap (hg.1.sp fun w hw => by simp [noNames, hw]) (hb.after .name) f4, ?_, ?_⟩
          · rw [strOf, String.ofList_toList]
            simp only
            rw [f5]
          · have := f6.append (g ++ (n.toList ++ (g2 ++ ['='])))
            simpa using this
        all_goals exact absurd hx (by decide)
  · exact absurd h (by simp)

/-! ### The end of a statement -/

/-- The condition, if there is one. -/
def GoodW (dq : Bool) : Option MEx → Prop
  | none => True
  | some e => e.Good dq

def RepW : Option MEx → Option V → Prop
  | none, none => True
  | some e, some v => Rep e v
  | _, _ => False

theorem where_found {ts : List MTok} {w : Option MEx} (h : pWhere res ts = some w) (hg : GoodW dq w) {s : List Char} (hs : At dq s ts) (ht : Tight s) {d : Edge} (hd : Glue d s) :
    ∃ v, SpWhere env d s v ∧ RepW w v ∧ (s = [] ∨ Fin' s) := by
  unfold pWhere at h
  split at h
  · simp only [Option.some.injEq] at h
    subst h
    cases hs with
    | nil hb =>
      obtain rfl := ht.rest (u := []) rfl hb
      exact ⟨none, .absent ⟨.gap .nil, fun _ => by simp⟩, trivial, Or.inl rfl⟩
  · split at h
    · exact absurd h (by simp)
    · rename_i r hk
      split at h
      · rename_i e he
        simp only [Option.some.injEq] at h
        subst h
        obtain ⟨g, k, s1, rfl, h1, h2, h3, h4, h5, h6⟩ := kw_found (w := "where") (by decide) hk hs
        obtain ⟨x, u, s', v, rfl, e2, _, e4, e5, e6⟩ := expr_spells res env _ _ _ _ he hg _ h6
        cases e2 with
        | nil hb =>
          have := ht.rest (u := g ++ (k ++ u)) (by simp) hb
          subst this
          rw [List.append_nil] at h5 ⊢
          refine ⟨some v, ?_, e5, Or.inr ((e6.append k).append g)⟩
          have hh := SpWhere.given (d := d) h1.gap (sep_word h1 h4 h3 (by rw [List.append_nil] at hd; exact hd)) h2 h5.boundary ⟨_, e4⟩ (e := [])
            ⟨.gap .nil, fun _ => by simp⟩
          rw [List.append_nil] at hh
          exact hh
      · exact absurd h (by simp)

theorem where_head {ts : List MTok} {w : Option MEx} (h : pWhere res ts = some w) : ts.head? ≠ some .minus := by
  intro hm
  cases ts with
  | nil => simp at hm
  | cons k ts =>
    simp only [List.head?_cons, Option.some.injEq] at hm
    subst hm
    simp [pWhere, pKw] at h

theorem kw_head {K : String} {ts ts' : List MTok} (h : pKw K ts = some ts') : ts.head? ≠ some .minus := by
  intro hm
  cases ts with
  | nil => simp at hm
  | cons k ts =>
    simp only [List.head?_cons, Option.some.injEq] at hm
    subst hm
    simp [pKw] at h

/-! ### Statements -/

/-- The names and texts of a statement. -/
def MStmt.Good (dq : Bool) : MStmt → Prop
  | .insert t ns vs => GoodName t ∧ (∀ n ∈ ns, GoodName n) ∧ ∀ v ∈ vs, GoodVal dq v
  | .select ns t w => (∀ n ∈ ns, GoodName n) ∧ GoodName t ∧ GoodW dq w
  | .update t ss w => GoodName t ∧ (∀ e ∈ ss, GoodName e.1 ∧ GoodVal dq e.2) ∧ GoodW dq w
  | .delete t w => GoodName t ∧ GoodW dq w

/-- The text spells the statement. -/
def SpStmt (env : Env) (s : List Char) : MStmt → Prop
  | .insert t ns vs => ∃ cols rows, SpInsert env s t.toList cols [rows] ∧ cols.map strOf = ns ∧ rows.map scrub = vs.map fun v => (toVal v).rhs
  | .select ns t w => ∃ v, SpSelect env s (ns.map fun n => .dict [("value", .str n)]) [.str t] v ∧ RepW w v
  | .update t ss w => ∃ l v, SpUpdate env s t.toList l v ∧ (l.map fun p => (p.1, scrub p.2)) = (ss.map fun e => (e.1, (toVal e.2).rhs)) ∧ RepW w v
  | .delete t w => ∃ v, SpDelete env s t.toList v ∧ RepW w v

theorem Tight.suffix {s u s' : List Char} (h : Tight s) (e : s = u ++ s') : Tight s' := by
  intro c hc
  refine h c ?_
  rw [e, List.getLast?_append, hc]
  rfl

/-- A statement that ends in a name or a condition. -/
theorem nm_fin {n : String} {s s1 : List Char} (hn : GoodName n) (hf : s1 = [] ∨ Fin' s1) (hs : ∃ g, s = g ++ (n.toList ++ s1)) : Fin' s := by
  obtain ⟨g, rfl⟩ := hs
  rcases hf with rfl | hf
  · rw [List.append_nil]; exact hn.fin.append g
  · exact (hf.append _).append _

theorem Tight.name {n s s1 : List Char} (h : Tight s) (hs : ∃ g, s = g ++ (n ++ s1)) : Tight s1 := by
  obtain ⟨g, rfl⟩ := hs
  exact h.suffix (u := g ++ n) (by simp)

theorem delete_found {ts : List MTok} {m : MStmt} (h : pDelete res ts = some m) (hg : m.Good dq) {s s0 : List Char} (h0 : Kw "delete" s0 s) (hs : At dq s ts) (ht : Tight s) :
    SpStmt env s0 m ∧ Fin' s := by
  unfold pDelete at h
  simp only [Option.bind_eq_bind, Option.bind_eq_some_iff] at h
  obtain ⟨t1, h1, ⟨tab, t2⟩, h2, w, h3, h4⟩ := h
  simp only [Option.some.injEq] at h4
  subst h4
  obtain ⟨s1, k1, a1, u1, e1⟩ := kw_next (w := "from") (by decide) h1 hs
  obtain ⟨s2, k2, n2, a2, e2⟩ := name_next res h2 hg.1 (no := reservedWords) (fun w hw => by simp [noNames, hw]) (where_head res h3) a1
  obtain ⟨v, k3, k4, k5⟩ := where_found res env h3 hg.2 a2 ((ht.suffix e1).name e2) (d := .name) (fun _ => n2)
  exact ⟨⟨v, .mk h0 k1 k2 k3, k4⟩, e1 ▸ (nm_fin hg.1 k5 e2).append u1⟩

theorem forall₂_map {α β γ : Type} {f : α → γ} {g : β → γ} : ∀ {l : List α} {l' : List β}, List.Forall₂ (fun a b => g b = f a) l l' → l'.map g = l.map f
  | _, _, .nil => rfl
  | _, _, .cons h t => by rw [List.map_cons, List.map_cons, h, forall₂_map t]

theorem update_found {ts : List MTok} {m : MStmt} (h : pUpdate res ts = some m) (hg : m.Good dq) {s s0 : List Char} (h0 : Kw "update" s0 s) (hs : At dq s ts) (ht : Tight s) :
    SpStmt env s0 m ∧ Fin' s := by
  unfold pUpdate at h
  simp only [Option.bind_eq_bind, Option.bind_eq_some_iff] at h
  obtain ⟨⟨tab, t1⟩, h1, t2, h2, ⟨ss, t3⟩, h3, w, h4, h5⟩ := h
  simp only [Option.some.injEq] at h5
  subst h5
  obtain ⟨s1, k1, n1, a1, e1⟩ := name_next res h1 hg.1 (no := reservedWords) (fun w hw => by simp [noNames, hw]) (kw_head h2) hs
  obtain ⟨s2, k2, a2, u2, e2⟩ := kw_next (w := "set") (by decide) h2 a1
  obtain ⟨d, u, s3, l, rfl, a3, g3, k3, r3, f3⟩ := sep_found (set_found res env) _ _ _ _ h3 hg.2.1 _ a2
  obtain ⟨v, k4, r4, k5⟩ := where_found res env h4 hg.2.2 a3 (((ht.name e1).suffix e2).suffix rfl) g3
  refine ⟨⟨l, v, .mk h0 k1 k2 k3 k4, forall₂_map r3, r4⟩, ?_⟩
  have hf : Fin' (u ++ s3) := by
    rcases k5 with rfl | k5
    · rw [List.append_nil]; exact f3
    · exact k5.append u
  obtain ⟨x, rfl⟩ := e1
  rw [e2]
  exact ((hf.append _).append _).append _

theorem sep_first {α : Type} {p : List MTok → Option (α × List MTok)} {n : Nat} {ts ts' : List MTok} {l : List α} (h : pSep p n ts = some (l, ts')) :
    ∃ a r, p ts = some (a, r) ∧ a ∈ l := by
  cases n with
  | zero =>
    obtain ⟨⟨a, r⟩, h1, h2⟩ := Option.map_eq_some_iff.1 h
    simp only [Prod.mk.injEq] at h2
    exact ⟨a, r, h1, by simp [← h2.1]⟩
  | succ n =>
    rw [pSep] at h
    split at h
    · rename_i a r h1
      obtain ⟨q, _, h2⟩ := Option.map_eq_some_iff.1 h
      simp only [Prod.mk.injEq] at h2
      exact ⟨a, _, h1, by simp [← h2.1]⟩
    · rename_i a r _ h1
      simp only [Option.some.injEq, Prod.mk.injEq] at h
      exact ⟨a, r, h1, by simp [← h.1]⟩
    · exact absurd h (by simp)

theorem not_top {n : String} (h : GoodName n) {g r : List Char} (hg : Gap g) (hr : NoName r) : ¬ Opens "top" (g ++ (n.toList ++ r)) := by
  obtain ⟨h1, c, x, h2, _⟩ := h.1
  rw [← kw_opens (by decide) (by decide), ((first_word h1 (by simp [h2]) hr.boundary).gap hg).kw (by decide), if_neg]
  · simp
  · exact h.2 "top" (by simp)

theorem sep_extend {d : Edge} {a b : List Char} (h : Sep d a) (ha : a ≠ []) : Sep d (a ++ b) := by
  intro c hc
  cases a with
  | nil => exact absurd rfl ha
  | cons x a => exact h c hc

theorem select_found {ts : List MTok} {m : MStmt} (h : pSelect res ts = some m) (hg : m.Good dq) {s s0 : List Char} (h0 : Kw "select" s0 s) (hs : At dq s ts) (ht : Tight s) :
    SpStmt env s0 m ∧ Fin' s := by
  unfold pSelect at h
  simp only [Option.bind_eq_bind, Option.bind_eq_some_iff] at h
  obtain ⟨⟨ns, t1⟩, h1, t2, h2, ⟨tab, t3⟩, h3, w, h4, h5⟩ := h
  simp only [Option.some.injEq] at h5
  subst h5
  obtain ⟨d, u, s1, l, rfl, a1, g1, k1, r1, _⟩ := sep_found (item_found res env) _ _ _ _ h1 hg.1 _ hs
  obtain ⟨g, k, s2, rfl, e1, e2, e3, e4, e5, a2⟩ := kw_found (w := "from") (by decide) h2 a1
  obtain ⟨s3, k3, n3, a3, e6⟩ := name_next res h3 hg.2.1 (no := "stack" :: reservedWords) (fun w hw => by
    rcases List.mem_cons.1 hw with rfl | hw
    · decide
    · simp [noNames, hw]) (where_head res h4) a2
  obtain ⟨v, k4, r4, k5⟩ := where_found res env h4 hg.2.2 a3 (((ht.suffix rfl).suffix (u := g ++ k) (by simp)).name e6) (d := .name) (fun _ => n3)
  obtain ⟨a0, r0, p0, m0⟩ := sep_first h1
  obtain ⟨g0, x0, y0, b0, _, n0, _, _⟩ := name_found res p0 hs
  have htop : ¬ Opens "top" (u ++ (g ++ (k ++ s2))) := by rw [y0]; exact not_top (hg.1 a0 m0) b0.gap n0
  refine ⟨⟨v, ?_, r4⟩, ?_⟩
  · have hl : l = ns.map fun n => .dict [("value", .str n)] := by
      have := forall₂_map (g := id) r1
      simpa using this
    obtain ⟨g', k', q1, q2, _, _, q3⟩ := k3
    have ht' : SpTable .name (g' ++ k') (.str tab) := by
      have := SpTable.plain q1 q2
      rw [strOf, String.ofList_toList] at this
      exact this
    subst q3
    rw [← hl]
    refine .mk (v := g' ++ k') (x := s3) h0 htop k1 ?_ ⟨g, k, e1.gap, e2, ?_, ?_⟩ (.one ht') k4
    · have := sep_extend (sep_word e1 e4 e3 g1) (b := g' ++ (k' ++ s3)) (by simp [e3])
      rw [List.append_assoc] at this
      exact this
    · rw [List.append_assoc]; exact e5.boundary
    · rw [List.append_assoc]
  · exact ((nm_fin hg.2.1 k5 e6).append k |>.append g).append u

theorem cols_name {d : Edge} {t : List Char} {l : List (List Char)} (h : SpList SpCol d t l) : d = .name := by
  induction h with
  | one h => exact h.1
  | cons _ _ _ ih => exact ih

theorem insert_found {ts : List MTok} {m : MStmt} (h : pInsert res ts = some m) (hg : m.Good dq) {s s0 : List Char} (h0 : Kw "insert" s0 s) (hs : At dq s ts) (ht : Tight s) :
    SpStmt env s0 m ∧ Fin' s := by
  unfold pInsert at h
  simp only [Option.bind_eq_bind, Option.bind_eq_some_iff] at h
  obtain ⟨t1, h1, ⟨tab, t2⟩, h2, h⟩ := h
  split at h
  · rename_i t3 he
    obtain rfl : t2 = _ := he
    simp only [Option.bind_eq_some_iff] at h
    obtain ⟨⟨ns, t4⟩, h3, h⟩ := h
    split at h
    · rename_i t5 he
      obtain rfl : t4 = _ := he
      simp only [Option.bind_eq_some_iff] at h
      obtain ⟨t6, h4, h⟩ := h
      split at h
      · rename_i t7
        simp only [Option.bind_eq_some_iff] at h
        obtain ⟨⟨vs, t8⟩, h5, h⟩ := h
        split at h
        · rename_i he
          obtain rfl : t8 = _ := he
          simp only [Option.some.injEq] at h
          subst h
          obtain ⟨s1, k1, a1, u1, e1⟩ := kw_next (w := "into") (by decide) h1 hs
          obtain ⟨s2, k2, _, a2, e2⟩ := name_next res h2 hg.1 (no := "table" :: reservedWords) (fun w hw => by
            rcases List.mem_cons.1 hw with rfl | hw
            · simp
            · simp [noNames, hw]) (by simp) a1
          have t2' := (ht.suffix e1).name e2
          cases a2 with
          | @cons g1 x1 s3 _ _ b1 l1 a3 =>
            cases l1 with
            | lp =>
              obtain ⟨d, u, s4, cols, rfl, a4, _, k4, r4, _⟩ := sep_found (col_found res) _ _ _ _ h3 hg.2.1 _ a3
              obtain rfl := cols_name k4
              cases a4 with
              | @cons g2 x2 s5 _ _ b2 l2 a5 =>
                cases l2 with
                | rp =>
                  obtain ⟨s6, k6, a6, u6, e6⟩ := kw_next (w := "values") (by decide) h4 a5
                  cases a6 with
                  | @cons g3 x3 s7 _ _ b3 l3 a7 =>
                    cases l3 with
                    | lp =>
                      obtain ⟨d', u', s8, rows, rfl, a8, _, k8, r8, _⟩ := sep_found (lit_found env) _ _ _ _ h5 hg.2.2 _ a7
                      cases a8 with
                      | @cons g4 x4 s9 _ _ b4 l4 a9 =>
                        cases l4 with
                        | rp =>
                          cases a9 with
                          | nil b9 =>
                            have e9 : s9 = [] := by
                              refine t2'.rest (u := g1 ++ '(' :: (u ++ (g2 ++ ')' :: (u6 ++ (g3 ++ '(' :: (u' ++ (g4 ++ [')']))))))) ?_ b9
                              rw [e6]
                              simp
                            subst e9
                            rw [List.append_nil] at e6 k6
                            refine ⟨⟨cols, rows, .mk (t := g3 ++ '(' :: (u' ++ (g4 ++ [')']))) (e := []) h0 k1 k2 (SpCols.given b1.gap k4 (b2.after .name)) ?_
                              (.one ⟨rfl, d', g3, u', g4, b3.gap, k8, b4.after d', rfl⟩) ⟨.gap .nil, fun _ => by simp⟩, ?_, ?_⟩, ?_⟩
                            · rw [List.append_nil]; exact k6
                            · have := forall₂_map (f := id) r4
                              simpa using this
                            · exact forall₂_map r8
                            · obtain ⟨x, e2⟩ := e2
                              rw [e1, e2, e6]
                              exact ⟨u1 ++ (x ++ (tab.toList ++ (g1 ++ '(' :: (u ++ (g2 ++ ')' :: (u6 ++ (g3 ++ '(' :: (u' ++ g4)))))))), ')', by simp, by decide⟩
        · exact absurd h (by simp)
      · exact absurd h (by simp)
    · exact absurd h (by simp)
  · exact absurd h (by simp)

theorem stmt_found {ts : List MTok} {m : MStmt} (h : pStmt res ts = some m) (hg : m.Good dq) {s : List Char} (hs : At dq s ts) (ht : Tight s) : SpStmt env s m ∧ Fin' s := by
  have hk : ∀ {K w : String} {x : List Char} {r : List MTok}, K.toList.map Char.toLower = w.toList → isKw K x = true → ts = .word x :: r →
      ∃ s1, Kw w s s1 ∧ At dq s1 r ∧ ∃ u, s = u ++ s1 := fun hK hk e => kw_next hK (by rw [e, pKw, if_pos hk]) hs
  have hf : ∀ {s1 : List Char}, (SpStmt env s m ∧ Fin' s1) → (∃ u, s = u ++ s1) → SpStmt env s m ∧ Fin' s := fun h1 h2 => by
    obtain ⟨u, e⟩ := h2
    exact ⟨h1.1, e ▸ h1.2.append u⟩
  unfold pStmt at h
  split at h
  · split at h
    · rename_i hw
      obtain ⟨s1, k1, a1, u, e⟩ := hk (w := "insert") (by decide) hw rfl
      exact hf (insert_found res env h hg k1 a1 (ht.suffix e)) ⟨u, e⟩
    split at h
    · rename_i hw
      obtain ⟨s1, k1, a1, u, e⟩ := hk (w := "select") (by decide) hw rfl
      exact hf (select_found res env h hg k1 a1 (ht.suffix e)) ⟨u, e⟩
    split at h
    · rename_i hw
      obtain ⟨s1, k1, a1, u, e⟩ := hk (w := "update") (by decide) hw rfl
      exact hf (update_found res env h hg k1 a1 (ht.suffix e)) ⟨u, e⟩
    split at h
    · rename_i hw
      obtain ⟨s1, k1, a1, u, e⟩ := hk (w := "delete") (by decide) hw rfl
      exact hf (delete_found res env h hg k1 a1 (ht.suffix e)) ⟨u, e⟩
    · exact absurd h (by simp)
  · exact absurd h (by simp)

/-- What the backend reads is spelled as the grammar wants it, up to blanks at the end. -/
theorem read_found {sql : List Char} {m : MStmt} (h : readStmt res sql = some m) (hb : '\\' ∉ sql) (hq : '"' ∈ sql → dq = true) (hg : m.Good dq) :
    ∃ s e, sql = s ++ e ∧ Blank e ∧ SpStmt env s m ∧ Fin' s := by
  obtain ⟨ts, h1, h2⟩ := Option.bind_eq_some_iff.1 h
  obtain ⟨s, e, rfl, he, hs, ht⟩ := (lex_at (dq := dq) _ hb hq h1).trim
  obtain ⟨h3, h4⟩ := stmt_found res env h2 hg hs ht
  exact ⟨s, e, rfl, he, h3, h4⟩

end

end EulerDB.Whole
