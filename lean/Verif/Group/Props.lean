/-
C73: grouping a statement keeps all its tokens.
-/
import Verif.Group.Shape
import Verif.Lex.Props

namespace EulerDB.Group

open EulerDB.Lex

/-! ### One function after the other -/

mutual
theorem heads_length : ∀ t : Tok, (heads t).length = size t
  | .leaf .. => rfl
  | .grp _ _ _ l => by rw [heads, size, List.length_cons, headsAll_length l]
theorem headsAll_length : ∀ l : List Tok, (headsAll l).length = sizeAll l
  | [] => rfl
  | t :: r => by rw [headsAll, sizeAll, List.length_append, heads_length t, headsAll_length r]
end

theorem weight_size (c : Cls) (t : Tok) : weight c [t] ≤ size t := by
  unfold weight
  refine Nat.le_trans List.countP_le_length ?_
  rw [headsAll_length]
  simp [sizeAll]

/-- A statement, with the identities all different. -/
structure Stmt (t : Tok) (n : Nat) : Prop where
  wf : Wf [t] n
  cls : t.cls? = some .statement
  sound : Every Sound t

/-- A function that ends and keeps the tokens of every statement. -/
def Keeps (f : Func) : Prop :=
  ∀ t n, Stmt t n → ∃ t' n', runFunc f t n = .ok (t', n') ∧ Grown none [t] [t'] n n' ∧ Stmt t' n'

/-- The same for a function that relies on the brackets and keeps them. -/
def KeepsEarly (f : Func) : Prop :=
  ∀ t n, Stmt t n → Every Early t →
    ∃ t' n', runFunc f t n = .ok (t', n') ∧ Grown none [t] [t'] n n' ∧ Stmt t' n' ∧ Every Early t'

theorem keeps_deep {cs : List Cls} {f : Cls → List Tok → Nat → Except PyErr (List Tok × Nat)}
    (hf : FunOk (fun _ l => EveryAll Sound l) f) (hg : ∀ c, FunGrows (f c)) : Keeps (.deep cs f) := by
  intro t n h
  obtain ⟨t', n', h1, hs⟩ := recursed_ok (cs := cs) hf hg t n h.sound
  obtain ⟨h2, _, h3⟩ := recursed_grown hg t n t' n' h1
  exact ⟨t', n', h1, h2, h2.wf h.wf, h3.trans h.cls, hs⟩

theorem keeps_early_deep {cs : List Cls} {f : Cls → List Tok → Nat → Except PyErr (List Tok × Nat)}
    (hf : FunOk EarlyList f) (hg : ∀ c, FunGrows (f c)) : KeepsEarly (.deep cs f) := by
  intro t n h he
  obtain ⟨t', n', h1, h4, _⟩ := recursed_early (cs := cs) hf hg t n he
  obtain ⟨h2, _, h3⟩ := recursed_grown hg t n t' n' h1
  exact ⟨t', n', h1, h2, ⟨h2.wf h.wf, h3.trans h.cls, h4.imp (fun _ _ _ => Early.sound)⟩, h4⟩

theorem keeps_flat {f : List Tok → Nat → Except PyErr (List Tok × Nat)}
    (hf : ∀ l n, EveryAll Sound l → ∃ l' n', f l n = .ok (l', n') ∧ EveryAll Sound l') (hg : FunGrows f) : Keeps (.flat f) := by
  intro t n h
  cases t with
  | leaf => exact ⟨_, _, rfl, .refl _ _ _, h⟩
  | grp i c ty l =>
    obtain ⟨l', n', h1, hs⟩ := hf l n h.sound.2
    have h3 := hg l n l' n' h1
    have h2 := h3.inside i c ty ty
    exact ⟨.grp i c ty l', n', by rw [runFunc]; simp only [h1], h2, h2.wf h.wf, h.cls,
      ⟨h.sound.1.1, h.sound.1.2.1.imp h3.ne id, h3.remark h.sound.1.2.2⟩, hs⟩

theorem keeps_pair {p : Pair} (hp : Fair p) (hc : p.cls ≠ .statement ∧ p.cls ≠ .tokenList) : KeepsEarly (.pair p) := by
  intro t n h he
  have hi : t.isInst p.cls = false := by
    cases t with
    | leaf => rfl
    | grp i c ty l =>
      have hcl := h.cls
      simp only [Tok.cls?, Option.some.injEq] at hcl
      subst hcl
      simp [Tok.isInst, hc.1.symm, hc.2]
  obtain ⟨t', n', h1, h2⟩ := matching_early hp t n he hi
  obtain ⟨h3, _, h4⟩ := matching_grown p t n t' n' h1
  exact ⟨t', n', h1, h3.weak hc.1, ⟨h3.wf h.wf, h4.trans h.cls, h2.imp (fun _ _ _ => Early.sound)⟩, h2⟩

theorem keeps_pass {p : Pass} (hp : PassOk p) (hc : p.cls ≠ .statement ∧ p.cls ≠ .tokenList) : Keeps (.pass p) := by
  intro t n h
  have hi : t.isInst p.cls = false := by
    cases t with
    | leaf => rfl
    | grp i c ty l =>
      have hcl := h.cls
      simp only [Tok.cls?, Option.some.injEq] at hcl
      subst hcl
      simp [Tok.isInst, hc.1.symm, hc.2]
  obtain ⟨t', n', h1, h2, _, h4, hs⟩ := hp (size t + 1) t n hi h.wf (Nat.lt_succ_of_le (weight_size _ _)) h.sound
  exact ⟨t', n', h1, h2.weak hc.1, h2.wf h.wf, h4.trans h.cls, hs⟩

theorem runAll_keeps : ∀ (fs : List Func), (∀ f ∈ fs, Keeps f) → ∀ t n, Stmt t n →
    ∃ t' n', runAll fs t n = .ok (t', n') ∧ Grown none [t] [t'] n n' ∧ Stmt t' n'
  | [], _, t, n, h => ⟨t, n, rfl, .refl _ _ _, h⟩
  | f :: fs, hf, t, n, h => by
    obtain ⟨t1, n1, h1, h2, h3⟩ := hf f (List.mem_cons_self ..) t n h
    obtain ⟨t2, n2, h4, h5, h6⟩ := runAll_keeps fs (fun g hg => hf g (List.mem_cons_of_mem _ hg)) t1 n1 h3
    exact ⟨t2, n2, by rw [runAll, h1]; exact h4, h2.trans h5, h6⟩

theorem runAll_early : ∀ (fs gs : List Func), (∀ f ∈ fs, KeepsEarly f) → (∀ f ∈ gs, Keeps f) → ∀ t n, Stmt t n →
    Every Early t → ∃ t' n', runAll (fs ++ gs) t n = .ok (t', n') ∧ Grown none [t] [t'] n n' ∧ Stmt t' n'
  | [], gs, _, hg, t, n, h, _ => runAll_keeps gs hg t n h
  | f :: fs, gs, hf, hg, t, n, h, he => by
    obtain ⟨t1, n1, h1, h2, h3, he1⟩ := hf f (List.mem_cons_self ..) t n h he
    obtain ⟨t2, n2, h4, h5, h6⟩ := runAll_early fs gs (fun g hg => hf g (List.mem_cons_of_mem _ hg)) hg t1 n1 h3 he1
    exact ⟨t2, n2, by rw [List.cons_append, runAll, h1]; exact h4, h2.trans h5, h6⟩

/-! ### All of them -/

def earlyFunctions : List Func :=
  [.deep [.comment] groupComments,
   .pair squares, .pair parens, .pair caseEnd, .pair ifEnd, .pair forEnd, .pair beginEnd,
   .deep [.function] groupFunctions, .deep [.wheres] groupWhere]

def lateFunctions : List Func :=
  [.pass period, .pass arrays, .deep [.identifier] groupIdentifier, .flat groupOrder,
   .pass typecasts, .pass tzcasts, .pass typedLiteral, .pass typedMore,
   .pass operators, .pass comparison, .pass asNames, .deep [] groupAliased, .pass assignment,
   .deep [] alignComments, .pass identifierList, .flat groupValues]

theorem functions_eq : functions = earlyFunctions ++ lateFunctions := rfl

theorem earlyFunctions_keep : ∀ f ∈ earlyFunctions, KeepsEarly f := by
  intro f hf
  simp only [earlyFunctions, List.mem_cons, List.not_mem_nil, or_false] at hf
  rcases hf with rfl | rfl | rfl | rfl | rfl | rfl | rfl | rfl | rfl
  · exact keeps_early_deep groupComments_ok groupComments_grows
  · exact keeps_pair fair_squares (by decide)
  · exact keeps_pair fair_parens (by decide)
  · exact keeps_pair fair_cases (by decide)
  · exact keeps_pair fair_ifs (by decide)
  · exact keeps_pair fair_fors (by decide)
  · exact keeps_pair fair_begins (by decide)
  · exact keeps_early_deep groupFunctions_ok groupFunctions_grows
  · exact keeps_early_deep groupWhere_ok groupWhere_grows

theorem lateFunctions_keep : ∀ f ∈ lateFunctions, Keeps f := by
  intro f hf
  simp only [lateFunctions, List.mem_cons, List.not_mem_nil, or_false] at hf
  rcases hf with rfl | rfl | rfl | rfl | rfl | rfl | rfl | rfl | rfl | rfl | rfl | rfl | rfl | rfl | rfl | rfl
  · exact keeps_pass period_ok (by decide)
  · exact keeps_pass arrays_ok (by decide)
  · exact keeps_deep groupIdentifier_ok groupIdentifier_grows
  · exact keeps_flat groupOrder_ok groupOrder_grows
  · exact keeps_pass typecasts_ok (by decide)
  · exact keeps_pass tzcasts_ok (by decide)
  · exact keeps_pass typedLiteral_ok (by decide)
  · exact keeps_pass typedMore_ok (by decide)
  · exact keeps_pass operators_ok (by decide)
  · exact keeps_pass comparison_ok (by decide)
  · exact keeps_pass asNames_ok (by decide)
  · exact keeps_deep groupAliased_ok groupAliased_grows
  · exact keeps_pass assignment_ok (by decide)
  · exact keeps_deep alignComments_ok alignComments_grows
  · exact keeps_pass identifierList_ok (by decide)
  · exact keeps_flat groupValues_ok groupValues_grows

/-! ### The statement before grouping -/

theorem number_heads : ∀ (l : List Token) (k : Nat), headsAll (number k l) = (List.range' k l.length).map fun i => (i, none)
  | [], _ => rfl
  | t :: r, k => by
    rw [number, headsAll, heads, number_heads r (k + 1), List.length_cons, List.range'_succ]
    rfl

theorem number_leaves : ∀ (l : List Token) (k : Nat), leavesAll (number k l) = number k l
  | [], _ => rfl
  | t :: r, k => by rw [number, leavesAll, leaves, number_leaves r (k + 1)]; rfl

theorem number_token : ∀ (l : List Token) (k : Nat), (number k l).map Tok.token = l
  | [], _ => rfl
  | t :: r, k => by rw [number, List.map_cons, number_token r (k + 1)]; rfl

theorem number_ids : ∀ (l : List Token) (k : Nat), (number k l).map Tok.id = List.range' k l.length
  | [], _ => rfl
  | t :: r, k => by rw [number, List.map_cons, number_ids r (k + 1), List.length_cons, List.range'_succ]; rfl

theorem number_every {P : Cls → Option TType → List Tok → Prop} : ∀ (l : List Token) (k : Nat), EveryAll P (number k l)
  | [], _ => trivial
  | _ :: r, k => ⟨trivial, number_every r (k + 1)⟩

theorem stmt_ungrouped (l : List Token) : Stmt (ungrouped l) (l.length + 1) := by
  refine ⟨⟨?_, ?_⟩, rfl, ⟨.inl rfl, .inr rfl, .other (by decide)⟩, number_every l 1⟩
  · simp only [ungrouped, headsAll, heads, List.append_nil, number_heads, List.map_cons, List.map_map]
    rw [List.nodup_cons]
    constructor
    · simp
    · have : (Prod.fst ∘ fun i : Nat => (i, (none : Option Cls))) = id := rfl
      rw [this, List.map_id]
      exact List.nodup_range'
  · intro x hx
    simp only [ungrouped, headsAll, heads, List.append_nil, number_heads, List.mem_cons, List.mem_map,
      List.mem_range'_1] at hx
    rcases hx with rfl | ⟨i, hi, rfl⟩
    · simp
    · simp only; omega

theorem early_ungrouped (l : List Token) : Every Early (ungrouped l) :=
  ⟨⟨rfl, .inr rfl, trivial, .other (by decide)⟩, number_every l 1⟩

/-- Grouping raises no error and ends; nothing is lost, doubled or moved. -/
theorem group_grown (l : List Token) : ∃ t n, group l = .ok t ∧ Grown none [ungrouped l] [t] (l.length + 1) n ∧
    Stmt t n := by
  obtain ⟨t, n, h1, h2, h3⟩ := runAll_early earlyFunctions lateFunctions earlyFunctions_keep lateFunctions_keep
    (ungrouped l) (l.length + 1) (stmt_ungrouped l) (early_ungrouped l)
  exact ⟨t, n, by rw [group, functions_eq, h1], h2, h3⟩

/-! ### C73 -/

/-- A token of the lexer and the leaf it has become: the same text, and the same type, but that a
`*` or an operator may be an `Operator` now. -/
def Kin (a b : Token) : Prop :=
  b.value = a.value ∧ (b.ttype = a.ttype ∨ ((a.ttype = Operator ∨ a.ttype = Wildcard) ∧ b.ttype = Operator))

/-- Grouping raises no error and ends for every statement; the leaves of the tree are the tokens of
the statement, in their order. -/
theorem C73_leaves_are_tokens (l : List Token) :
    ∃ t, group l = .ok t ∧ List.Forall₂ Kin l (flat t) := by
  obtain ⟨t, n, h1, h2, h3⟩ := group_grown l
  refine ⟨t, h1, ?_⟩
  have hs : List.Forall₂ SameLeaf (number 1 l) (leaves t) := by
    have := h2.same
    simpa only [leavesAll, leaves, ungrouped, List.append_nil, number_leaves, SameLeaves] using this
  unfold flat
  have hl := number_token l 1
  generalize number 1 l = m at hs hl
  subst hl
  rw [List.forall₂_map_left_iff, List.forall₂_map_right_iff]
  refine hs.imp ?_
  intro a b hab
  cases a <;> cases b <;> simp only [SameLeaf] at hab
  obtain ⟨_, _, h4, h5⟩ := hab
  exact ⟨h4.symm, h5.imp Eq.symm id⟩

theorem flat_values {l : List Token} {m : List Token} (h : List.Forall₂ Kin l m) :
    m.flatMap Token.value = l.flatMap Token.value := by
  induction h with
  | nil => rfl
  | cons h _ ih => rw [List.flatMap_cons, List.flatMap_cons, ih, h.1]

mutual
theorem leaves_leaf : ∀ (t x : Tok), x ∈ leaves t → x.isGroup = false
  | .leaf .., x, h => by
    rw [leaves] at h
    rw [List.mem_singleton.1 h]
    rfl
  | .grp _ _ _ l, x, h => leavesAll_leaf l x h
theorem leavesAll_leaf : ∀ (l : List Tok) (x : Tok), x ∈ leavesAll l → x.isGroup = false
  | [], x, h => by simp [leavesAll] at h
  | t :: r, x, h => by
    rw [leavesAll, List.mem_append] at h
    exact h.elim (leaves_leaf t x) (leavesAll_leaf r x)
end

theorem text_flat (t : Tok) : text t = (flat t).flatMap Token.value := by
  unfold text flat
  rw [List.flatMap_map]
  have := leaves_leaf t
  generalize leaves t = l at this
  induction l with
  | nil => rfl
  | cons x r ih =>
    rw [List.flatMap_cons, List.flatMap_cons, ih fun y hy => this y (List.mem_cons_of_mem _ hy)]
    have hx := this x (List.mem_cons_self ..)
    cases x with
    | leaf => rfl
    | grp => simp [Tok.isGroup] at hx

/-- The text of the tree is the text of the statement. -/
theorem C73_text_kept {l : List Token} {t : Tok} (h : group l = .ok t) : text t = l.flatMap Token.value := by
  obtain ⟨t', h1, h2⟩ := C73_leaves_are_tokens l
  rw [h] at h1
  cases h1
  rw [text_flat, flat_values h2]

/-- Every token of the statement is a leaf once, at its place; no token occurs twice in the tree. -/
theorem C73_each_token_once {l : List Token} {t : Tok} (h : group l = .ok t) :
    (leaves t).map Tok.id = List.range' 1 l.length ∧ ((heads t).map Prod.fst).Nodup := by
  obtain ⟨t', n, h1, h2, h3⟩ := group_grown l
  rw [h] at h1
  cases h1
  constructor
  · have hs : List.Forall₂ SameLeaf (number 1 l) (leaves t) := by
      have := h2.same
      simpa only [leavesAll, leaves, ungrouped, List.append_nil, number_leaves, SameLeaves] using this
    rw [← number_ids l 1]
    generalize number 1 l = m at hs
    generalize leaves t = k at hs
    clear h h2 h3
    induction hs with
    | nil => rfl
    | @cons a b _ _ hab _ ih =>
      rw [List.map_cons, List.map_cons, ih]
      cases a <;> cases b <;> simp only [SameLeaf] at hab
      rw [Tok.id, Tok.id, hab.1]
  · have := h3.wf.nodup
    simpa [headsAll] using this

/-- No group is without tokens but a statement that has none. -/
theorem C73_groups_have_tokens {l : List Token} {t : Tok} (h : group l = .ok t) :
    Every (fun c _ k => k ≠ [] ∨ c = .statement) t ∧ t.cls? = some .statement := by
  obtain ⟨t', n, h1, _, h3⟩ := group_grown l
  rw [h] at h1
  cases h1
  exact ⟨h3.sound.imp fun _ _ _ h => h.2.1, h3.cls⟩

/-- The whole of `parse`: every text is split into statements and each of them grouped; the texts of the trees make
the text again, but for blanks at its end. -/
theorem C73_parse_keeps_text {rules : List Rule} (hp : Positive rules) (s : List Char) :
    ∃ (l tail : List Token) (ts : List Tok), lex rules s = .ok l ∧ tail.all isSpace = true ∧
      List.Forall₂ (fun st t => group st = .ok t) (split l) ts ∧
      ts.flatMap text ++ tail.flatMap Token.value = s := by
  obtain ⟨l, tail, h1, h2, h3⟩ := C44_statements_make_text hp s
  have key : ∀ sts : List (List Token), ∃ ts : List Tok, List.Forall₂ (fun st t => group st = .ok t) sts ts ∧
      ts.flatMap text = sts.flatten.flatMap Token.value := by
    intro sts
    induction sts with
    | nil => exact ⟨[], .nil, rfl⟩
    | cons st r ih =>
      obtain ⟨ts, h4, h5⟩ := ih
      obtain ⟨t, h6, _⟩ := C73_leaves_are_tokens st
      refine ⟨t :: ts, .cons h6 h4, ?_⟩
      rw [List.flatMap_cons, h5, C73_text_kept h6, List.flatten_cons, List.flatMap_append]
  obtain ⟨ts, h4, h5⟩ := key (split l)
  exact ⟨l, tail, ts, h1, h2, h4, by rw [h5]; exact h3⟩

/-- A statement with a nested condition, a function and an alias. -/
def sample : List Token :=
  [⟨DML, "SELECT".toList⟩, ⟨Whitespace, " ".toList⟩, ⟨Name, "f".toList⟩, ⟨Punctuation, "(".toList⟩,
   ⟨Name, "a".toList⟩, ⟨Wildcard, "*".toList⟩, ⟨Integer, "2".toList⟩, ⟨Punctuation, ")".toList⟩,
   ⟨Whitespace, " ".toList⟩, ⟨Keyword, "AS".toList⟩, ⟨Whitespace, " ".toList⟩, ⟨Name, "x".toList⟩,
   ⟨Whitespace, " ".toList⟩, ⟨Keyword, "FROM".toList⟩, ⟨Whitespace, " ".toList⟩, ⟨Name, "t".toList⟩,
   ⟨Whitespace, " ".toList⟩, ⟨Keyword, "WHERE".toList⟩, ⟨Whitespace, " ".toList⟩, ⟨Name, "b".toList⟩,
   ⟨Comparison, "=".toList⟩, ⟨Integer, "1".toList⟩, ⟨Punctuation, ";".toList⟩]

/-- It is grouped into more than its tokens, and the leaf of `*` has become an operator. -/
example : (match group sample with
    | .ok t => (leaves t).length == 23 && size t == 35 && (flat t)[5]? == some ⟨Operator, "*".toList⟩
    | .error _ => false) = true := by
  decide +kernel

end EulerDB.Group
