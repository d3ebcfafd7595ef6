/-
C74: brackets are grouped as they are nested.
-/
import Verif.Group.Props

namespace EulerDB.Group

open EulerDB.Lex

/-! ### Nested text -/

/-- A text with brackets: a token, or brackets around a text. -/
inductive Item
  | tok (t : Tok)
  | par (o : Tok) (l : List Item) (c : Tok)

mutual
/-- The tokens of the text. -/
def Item.spell : Item → List Tok
  | .tok t => [t]
  | .par o l c => o :: (spellAll l ++ [c])
def spellAll : List Item → List Tok
  | [] => []
  | x :: r => x.spell ++ spellAll r
end

mutual
/-- The tree of the text: brackets are groups.  Inner groups are made, and numbered, first. -/
def Item.build (d : Cls) : Item → Nat → Tok × Nat
  | .tok t, n => (t, n)
  | .par o l c, n => (.grp (buildAll d l n).2 d none (o :: ((buildAll d l n).1 ++ [c])), (buildAll d l n).2 + 1)
def buildAll (d : Cls) : List Item → Nat → List Tok × Nat
  | [], n => ([], n)
  | x :: r, n => ((x.build d n).1 :: (buildAll d r (x.build d n).2).1, (buildAll d r (x.build d n).2).2)
end

def opening (p : Pair) (t : Tok) : Bool := !t.isWhitespace && !t.isGroup && isMatch t p.ty p.opens

def closing (p : Pair) (t : Tok) : Bool :=
  !t.isWhitespace && !t.isGroup && !isMatch t p.ty p.opens && isMatch t p.ty [p.close]

def quiet (p : Pair) (t : Tok) : Bool := !t.isGroup && !opening p t && !closing p t

mutual
/-- The brackets of the text are brackets, and the other tokens are not. -/
def Item.Fits (p : Pair) : Item → Prop
  | .tok t => quiet p t = true
  | .par o l c => opening p o = true ∧ FitsAll p l ∧ closing p c = true
def FitsAll (p : Pair) : List Item → Prop
  | [] => True
  | x :: r => x.Fits p ∧ FitsAll p r
end

theorem fitsAll_append {p : Pair} (a b : List Item) : FitsAll p (a ++ b) ↔ FitsAll p a ∧ FitsAll p b := by
  induction a with
  | nil => simp [FitsAll]
  | cons t r ih => simp [FitsAll, ih, and_assoc]

theorem spellAll_append (a b : List Item) : spellAll (a ++ b) = spellAll a ++ spellAll b := by
  induction a with
  | nil => rfl
  | cons t r ih => rw [List.cons_append, spellAll, spellAll, ih, List.append_assoc]

/-! ### The loop -/

theorem matchLoop_quiet {p : Pair} {t : Tok} (h : quiet p t = true) (r : List Tok) (opens : List Nat) (done : List Tok)
    (n : Nat) : matchLoop p (t :: r) opens done n = matchLoop p r opens (done ++ [t]) n := by
  unfold quiet opening closing at h
  rw [matchLoop]
  cases h1 : t.isWhitespace <;> cases h2 : t.isGroup <;> cases h3 : isMatch t p.ty p.opens <;>
    cases h4 : isMatch t p.ty [p.close] <;> simp_all

theorem matchLoop_open {p : Pair} {t : Tok} (h : opening p t = true) (r : List Tok) (opens : List Nat) (done : List Tok)
    (n : Nat) : matchLoop p (t :: r) opens done n = matchLoop p r (done.length :: opens) (done ++ [t]) n := by
  unfold opening at h
  rw [matchLoop]
  cases h1 : t.isWhitespace <;> cases h2 : t.isGroup <;> cases h3 : isMatch t p.ty p.opens <;> simp_all

theorem matchLoop_close {p : Pair} {t : Tok} (h : closing p t = true) (r : List Tok) (opens : List Nat) (done : List Tok)
    (n : Nat) : matchLoop p (t :: r) opens done n =
      (match closeAt p opens (done ++ [t]) n with
       | .error e => .error e
       | .ok (os, done', n') => matchLoop p r os done' n') := by
  unfold closing at h
  rw [matchLoop]
  have h1 : t.isWhitespace = false := by cases h1 : t.isWhitespace <;> simp_all
  have h2 : t.isGroup = false := by cases h2 : t.isGroup <;> simp_all
  have h3 : isMatch t p.ty p.opens = false := by cases h3 : isMatch t p.ty p.opens <;> simp_all
  have h4 : isMatch t p.ty [p.close] = true := by cases h4 : isMatch t p.ty [p.close] <;> simp_all
  rw [h1, h2, h3, h4]
  cases closeAt p opens (done ++ [t]) n <;> rfl

theorem closeAt_top {p : Pair} {o : Nat} {os : List Nat} {done inner : List Tok} {a t : Tok} (ho : o = done.length) (n : Nat) :
    closeAt p (o :: os) (done ++ (a :: (inner ++ [t]))) n =
      .ok (os, done ++ [.grp n p.cls none (a :: (inner ++ [t]))], n + 1) := by
  subst ho
  have hlen : done.length < (done ++ (a :: (inner ++ [t]))).length := by simp
  rw [closeAt, groupTokens_made hlen]
  simp only
  rw [List.take_append_of_le_length (Nat.le_refl _), List.take_length, Nat.max_eq_right (Nat.le_of_lt hlen),
    List.drop_length, slice, List.take_length, List.drop_append_of_le_length (Nat.le_refl _), List.drop_length,
    List.nil_append]

mutual
theorem matchLoop_item {p : Pair} : ∀ (x : Item) (r : List Tok) (opens : List Nat) (done : List Tok) (n : Nat),
    x.Fits p → matchLoop p (x.spell ++ r) opens done n =
      matchLoop p r opens (done ++ [(x.build p.cls n).1]) (x.build p.cls n).2
  | .tok t, r, opens, done, n, h => matchLoop_quiet h r opens done n
  | .par o l c, r, opens, done, n, h => by
    obtain ⟨h1, h2, h3⟩ := h
    have e : Item.spell (.par o l c) ++ r = o :: (spellAll l ++ (c :: r)) := by
      simp [Item.spell]
    rw [e, matchLoop_open h1, matchLoop_items l (c :: r) _ _ _ h2, matchLoop_close h3]
    have e2 : done ++ [o] ++ (buildAll p.cls l n).1 ++ [c] = done ++ (o :: ((buildAll p.cls l n).1 ++ [c])) := by simp
    rw [e2, closeAt_top rfl]
    rfl
theorem matchLoop_items {p : Pair} : ∀ (l : List Item) (r : List Tok) (opens : List Nat) (done : List Tok) (n : Nat),
    FitsAll p l → matchLoop p (spellAll l ++ r) opens done n =
      matchLoop p r opens (done ++ (buildAll p.cls l n).1) (buildAll p.cls l n).2
  | [], r, opens, done, n, _ => by simp [spellAll, buildAll]
  | x :: l, r, opens, done, n, h => by
    rw [spellAll, List.append_assoc, matchLoop_item x _ _ _ _ h.1, matchLoop_items l _ _ _ _ h.2]
    simp [buildAll]
end

/-- Balanced brackets: the groups are the brackets, nested as they are. -/
theorem C74_balanced {p : Pair} {l : List Item} (h : FitsAll p l) (i : Nat) (c : Cls) (ty : Option TType) (n : Nat) :
    matching p (.grp i c ty (spellAll l)) n = .ok (.grp i c ty (buildAll p.cls l n).1, (buildAll p.cls l n).2) := by
  have := matchLoop_items l [] [] [] n h
  rw [List.append_nil] at this
  rw [matching, this]
  rfl

/-! ### Any text -/

/-- A text cut where a bracket has no partner: pieces that end with such a bracket. -/
abbrev Pieces := List (List Item × Tok)

def spellPieces (ps : Pieces) : List Tok := ps.flatMap fun x => spellAll x.1 ++ [x.2]

def buildPieces (d : Cls) : Pieces → Nat → List Tok × Nat
  | [], n => ([], n)
  | x :: r, n => ((buildAll d x.1 n).1 ++ x.2 :: (buildPieces d r (buildAll d x.1 n).2).1,
      (buildPieces d r (buildAll d x.1 n).2).2)

def FitsPieces (p : Pair) (stray : Tok → Bool) (ps : Pieces) : Prop :=
  ∀ x ∈ ps, FitsAll p x.1 ∧ stray x.2 = true

theorem spellPieces_append (a b : Pieces) : spellPieces (a ++ b) = spellPieces a ++ spellPieces b := by
  simp [spellPieces]

/-- Every text is of this kind: balanced pieces that end with closing brackets without a partner, then
balanced pieces that end with opening brackets without a partner, then a balanced rest. -/
theorem pieces_exist {p : Pair} : ∀ (n : Nat) (l : List Tok), l.length = n → (∀ t ∈ l, t.isGroup = false) →
    ∃ (cs os : Pieces) (last : List Item), l = spellPieces cs ++ (spellPieces os ++ spellAll last) ∧
      FitsPieces p (closing p) cs ∧ FitsPieces p (opening p) os ∧ FitsAll p last
  | 0, l, hl, _ => by
    rw [List.eq_nil_of_length_eq_zero hl]
    exact ⟨[], [], [], rfl, by simp [FitsPieces], by simp [FitsPieces], trivial⟩
  | n + 1, l, hl, hg => by
    rcases List.eq_nil_or_concat l with rfl | ⟨l0, t, rfl⟩
    · simp at hl
    · simp only [List.concat_eq_append] at hl hg ⊢
      have hl0 : l0.length = n := by simpa using hl
      obtain ⟨cs, os, last, h1, h2, h3, h4⟩ := pieces_exist n l0 hl0 fun t ht => hg t (List.mem_append_left _ ht)
      have htg := hg t (by simp)
      by_cases ho : opening p t = true
      · refine ⟨cs, os ++ [(last, t)], [], ?_, h2, ?_, trivial⟩
        · rw [h1, spellPieces_append]
          simp [spellPieces, spellAll]
        · intro x hx
          rcases List.mem_append.1 hx with hx' | hx'
          · exact h3 x hx'
          · rw [List.mem_singleton.1 hx']
            exact ⟨h4, ho⟩
      · by_cases hc : closing p t = true
        · rcases List.eq_nil_or_concat os with rfl | ⟨os0, x, rfl⟩
          · refine ⟨cs ++ [(last, t)], [], [], ?_, ?_, h3, trivial⟩
            · rw [h1, spellPieces_append]
              simp [spellPieces, spellAll]
            · intro x hx
              rcases List.mem_append.1 hx with hx' | hx'
              · exact h2 x hx'
              · rw [List.mem_singleton.1 hx']
                exact ⟨h4, hc⟩
          · simp only [List.concat_eq_append] at h1 h3
            have hx := h3 x (by simp)
            refine ⟨cs, os0, x.1 ++ [.par x.2 last t], ?_, h2, fun y hy => h3 y (List.mem_append_left _ hy), ?_⟩
            · rw [h1, spellPieces_append, spellAll_append]
              simp [spellPieces, spellAll, Item.spell]
            · rw [fitsAll_append]
              exact ⟨hx.1, ⟨hx.2, h4, hc⟩, trivial⟩
        · refine ⟨cs, os, last ++ [.tok t], ?_, h2, h3, ?_⟩
          · rw [h1, spellAll_append]
            simp [spellAll, Item.spell]
          · rw [fitsAll_append]
            refine ⟨h4, ?_, trivial⟩
            unfold Item.Fits quiet
            rw [Bool.not_eq_true] at ho hc
            rw [htg, ho, hc]
            rfl

theorem matchLoop_closers {p : Pair} : ∀ (cs : Pieces) (r : List Tok) (done : List Tok) (n : Nat),
    FitsPieces p (closing p) cs → matchLoop p (spellPieces cs ++ r) [] done n =
      matchLoop p r [] (done ++ (buildPieces p.cls cs n).1) (buildPieces p.cls cs n).2
  | [], r, done, n, _ => by simp [spellPieces, buildPieces]
  | x :: cs, r, done, n, h => by
    obtain ⟨h1, h2⟩ := h x (List.mem_cons_self ..)
    have e : spellPieces (x :: cs) ++ r = spellAll x.1 ++ (x.2 :: (spellPieces cs ++ r)) := by
      simp [spellPieces]
    rw [e, matchLoop_items x.1 _ _ _ _ h1, matchLoop_close h2]
    simp only [closeAt]
    rw [matchLoop_closers cs r _ _ fun y hy => h y (List.mem_cons_of_mem _ hy)]
    simp [buildPieces]

theorem matchLoop_openers {p : Pair} : ∀ (os : Pieces) (r : List Tok) (opens : List Nat) (done : List Tok) (n : Nat),
    FitsPieces p (opening p) os → ∃ opens', matchLoop p (spellPieces os ++ r) opens done n =
      matchLoop p r opens' (done ++ (buildPieces p.cls os n).1) (buildPieces p.cls os n).2
  | [], r, opens, done, n, _ => ⟨opens, by simp [spellPieces, buildPieces]⟩
  | x :: os, r, opens, done, n, h => by
    obtain ⟨h1, h2⟩ := h x (List.mem_cons_self ..)
    have e : spellPieces (x :: os) ++ r = spellAll x.1 ++ (x.2 :: (spellPieces os ++ r)) := by
      simp [spellPieces]
    rw [e, matchLoop_items x.1 _ _ _ _ h1, matchLoop_open h2]
    obtain ⟨opens', h3⟩ := matchLoop_openers os r _ (done ++ (buildAll p.cls x.1 n).1 ++ [x.2])
      (buildAll p.cls x.1 n).2 fun y hy => h y (List.mem_cons_of_mem _ hy)
    exact ⟨opens', by rw [h3]; simp [buildPieces]⟩

/-- The tree of the whole text: brackets without a partner are left as they are. -/
def buildText (d : Cls) (cs os : Pieces) (last : List Item) (n : Nat) : List Tok × Nat :=
  ((buildPieces d cs n).1 ++ ((buildPieces d os (buildPieces d cs n).2).1 ++
    (buildAll d last (buildPieces d os (buildPieces d cs n).2).2).1),
   (buildAll d last (buildPieces d os (buildPieces d cs n).2).2).2)

/-- Any text: brackets without a partner stay tokens, all others make the groups they enclose. -/
theorem C74_any_text (p : Pair) (l : List Tok) (hl : ∀ t ∈ l, t.isGroup = false) (i : Nat) (c : Cls) (ty : Option TType)
    (n : Nat) : ∃ (cs os : Pieces) (last : List Item), l = spellPieces cs ++ (spellPieces os ++ spellAll last) ∧
      FitsPieces p (closing p) cs ∧ FitsPieces p (opening p) os ∧ FitsAll p last ∧
      matching p (.grp i c ty l) n = .ok (.grp i c ty (buildText p.cls cs os last n).1, (buildText p.cls cs os last n).2) := by
  obtain ⟨cs, os, last, h1, h2, h3, h4⟩ := pieces_exist (p := p) l.length l rfl hl
  refine ⟨cs, os, last, h1, h2, h3, h4, ?_⟩
  have e1 := matchLoop_closers cs (spellPieces os ++ spellAll last) [] n h2
  obtain ⟨opens', e2⟩ := matchLoop_openers os (spellAll last) [] ([] ++ (buildPieces p.cls cs n).1)
    (buildPieces p.cls cs n).2 h3
  have e3 := matchLoop_items last [] opens' ([] ++ (buildPieces p.cls cs n).1 ++
    (buildPieces p.cls os (buildPieces p.cls cs n).2).1) (buildPieces p.cls os (buildPieces p.cls cs n).2).2 h4
  rw [List.append_nil] at e3
  rw [matching, h1, e1, e2, e3]
  simp [matchLoop, buildText]

/-! ### In a statement -/

theorem recursedAll_leaves (cs : List Cls) (f : Cls → List Tok → Nat → Except PyErr (List Tok × Nat)) :
    ∀ (l : List Tok) (n : Nat), (∀ t ∈ l, t.isGroup = false) → recursedAll cs f l n = .ok (l, n)
  | [], n, _ => rfl
  | t :: r, n, h => by
    have ht := h t (List.mem_cons_self ..)
    have ih := recursedAll_leaves cs f r n fun x hx => h x (List.mem_cons_of_mem _ hx)
    cases t with
    | grp => simp [Tok.isGroup] at ht
    | leaf i m ty v =>
      rw [recursedAll, recursed]
      cases (Tok.leaf i m ty v).isAny cs <;> simp [ih]

theorem matchLoop_all_quiet {p : Pair} : ∀ (l : List Tok) (opens : List Nat) (done : List Tok) (n : Nat),
    (∀ t ∈ l, quiet p t = true) → matchLoop p l opens done n = .ok (done ++ l, n)
  | [], opens, done, n, _ => by simp [matchLoop]
  | t :: r, opens, done, n, h => by
    rw [matchLoop_quiet (h t (List.mem_cons_self ..)),
      matchLoop_all_quiet r _ _ _ fun x hx => h x (List.mem_cons_of_mem _ hx)]
    simp

/-- A statement without comments and square brackets: `group_comments`, `group_brackets` and
`group_parenthesis` give the tree of its parentheses. -/
theorem C74_statement (l : List Token) (h : ∀ t ∈ number 1 l, below t Comment = false ∧ quiet squares t = true) :
    ∃ (cs os : Pieces) (last : List Item), number 1 l = spellPieces cs ++ (spellPieces os ++ spellAll last) ∧
      FitsPieces parens (closing parens) cs ∧ FitsPieces parens (opening parens) os ∧ FitsAll parens last ∧
      runAll (functions.take 3) (ungrouped l) (l.length + 1) =
        .ok (.grp 0 .statement none (buildText .parenthesis cs os last (l.length + 1)).1,
          (buildText .parenthesis cs os last (l.length + 1)).2) := by
  have hg : ∀ t ∈ number 1 l, t.isGroup = false := by
    intro t ht
    have := (h t ht).2
    unfold quiet at this
    cases hh : t.isGroup <;> simp_all
  obtain ⟨cs, os, last, h1, h2, h3, h4, h5⟩ := C74_any_text parens (number 1 l) hg 0 .statement none (l.length + 1)
  refine ⟨cs, os, last, h1, h2, h3, h4, ?_⟩
  have e1 : recursed [.comment] groupComments (ungrouped l) (l.length + 1) = .ok (ungrouped l, l.length + 1) := by
    have hf : findFrom (below · Comment) (number 1 l) 0 = none := by
      rw [findFrom, List.drop_zero, List.findIdx?_eq_none_iff.2 fun t ht => (h t ht).1]
    rw [ungrouped, recursed, recursedAll_leaves _ _ _ _ hg]
    simp only [groupComments, loop, hf]
  have e2 : matching squares (ungrouped l) (l.length + 1) = .ok (ungrouped l, l.length + 1) := by
    rw [ungrouped, matching, matchLoop_all_quiet _ _ _ _ fun t ht => (h t ht).2]
    rfl
  have e3 : functions.take 3 = [.deep [.comment] groupComments, .pair squares, .pair parens] := rfl
  rw [e3, runAll, runFunc, e1]
  simp only
  rw [runAll, runFunc, e2]
  simp only
  rw [runAll, runFunc, ungrouped, h5]
  rfl

theorem runAll_every : ∀ (fs : List Func), (∀ f ∈ fs, KeepsEarly f) → ∀ t n, Stmt t n → Every Early t →
    ∃ t' n', runAll fs t n = .ok (t', n') ∧ Every Early t'
  | [], _, t, n, _, he => ⟨t, n, rfl, he⟩
  | f :: fs, hf, t, n, h, he => by
    obtain ⟨t1, n1, h1, _, h3, he1⟩ := hf f (List.mem_cons_self ..) t n h he
    obtain ⟨t2, n2, h4, h5⟩ := runAll_every fs (fun g hg => hf g (List.mem_cons_of_mem _ hg)) t1 n1 h3 he1
    exact ⟨t2, n2, by rw [runAll, h1]; exact h4, h5⟩

/-- The groups in brackets begin and end with their brackets, up to `group_where`. -/
theorem C74_brackets_enclose (l : List Token) : ∃ t n, runAll earlyFunctions (ungrouped l) (l.length + 1) = .ok (t, n) ∧
    Every (fun c _ k => Ends c k) t := by
  obtain ⟨t, n, h1, h2⟩ := runAll_every earlyFunctions earlyFunctions_keep _ _ (stmt_ungrouped l) (early_ungrouped l)
  exact ⟨t, n, h1, h2.imp fun _ _ _ h => h.2.2.1⟩

/-- Some group in parentheses does not begin with one. -/
def openLost : Tok → Bool
  | .grp _ .statement _ (.grp _ .parenthesis _ (t :: _) :: _) => !isMatch t Punctuation ["("]
  | _ => false

/-- The later functions do not keep this: the brackets of `(::)` are put into an identifier. -/
theorem C74_fails_cast : ∃ t, group [⟨Punctuation, "(".toList⟩, ⟨Punctuation, "::".toList⟩, ⟨Punctuation, ")".toList⟩] = .ok t ∧
    openLost t = true := by
  obtain ⟨t, h, _⟩ := C73_leaves_are_tokens [⟨Punctuation, "(".toList⟩, ⟨Punctuation, "::".toList⟩, ⟨Punctuation, ")".toList⟩]
  refine ⟨t, h, ?_⟩
  have : (match group [⟨Punctuation, "(".toList⟩, ⟨Punctuation, "::".toList⟩, ⟨Punctuation, ")".toList⟩] with
    | .ok t => openLost t
    | .error _ => false) = true := by decide +kernel
  rw [h] at this
  exact this

/-- `a ( b ( ) ) ) (` : two nested groups, two brackets without a partner. -/
example : ∃ cs os : Pieces, ∃ last : List Item, FitsPieces parens (closing parens) cs ∧
    FitsPieces parens (opening parens) os ∧ FitsAll parens last ∧ cs.length = 1 ∧ os.length = 1 ∧
    (spellPieces cs ++ (spellPieces os ++ spellAll last)).length = 8 := by
  let lf (i : Nat) (v : String) (ty : TType) : Tok := .leaf i ty ty v.toList
  let o (i : Nat) := lf i "(" Punctuation
  let c (i : Nat) := lf i ")" Punctuation
  refine ⟨[([.tok (lf 0 "a" Name), .par (o 1) [.tok (lf 2 "b" Name), .par (o 3) [] (c 4)] (c 5)], c 6)],
    [([], o 7)], [], ?_, ?_, trivial, rfl, rfl, rfl⟩
  · intro x hx
    rw [List.mem_singleton.1 hx]
    have q0 : quiet parens (lf 0 "a" Name) = true := by decide +kernel
    have q2 : quiet parens (lf 2 "b" Name) = true := by decide +kernel
    refine ⟨⟨q0, ⟨by decide +kernel, ⟨q2, ⟨by decide +kernel, trivial, by decide +kernel⟩,
      trivial⟩, by decide +kernel⟩, trivial⟩, by decide +kernel⟩
  · intro x hx
    rw [List.mem_singleton.1 hx]
    exact ⟨trivial, by decide +kernel⟩

end EulerDB.Group
