/-
C82: what taking the comments out of a statement does to its tokens.
-/
import Verif.Strip.Model
import Verif.Group.Props

namespace EulerDB.Strip

open EulerDB.Lex EulerDB.Group

/-! ### The loop as one walk over the tokens -/

/-- The loop of the filter as a walk; `prev` is the token before. -/
def sweep (prev : Option Tok) : List Item → List Tok
  | [] => []
  | (v, t) :: r =>
    if isComment t then
      match prev with
      | none => sweep none r
      | some p => if isOpen p then sweep prev r else insertToken v :: sweep (some (insertToken v)) r
    else t :: sweep (some t) r

theorem sweep_cons (prev : Option Tok) (v : List Char) (t : Tok) (r : List Item) : sweep prev ((v, t) :: r) =
    if isComment t then
      match prev with
      | none => sweep none r
      | some p => if isOpen p then sweep prev r else insertToken v :: sweep (some (insertToken v)) r
    else t :: sweep (some t) r := by
  rw [sweep.eq_def]

theorem insertToken_blank (v : List Char) : isComment (insertToken v) = false ∧ (insertToken v).isWhitespace = true ∧
    isOpen (insertToken v) = false := by
  unfold insertToken
  split <;> refine ⟨rfl, rfl, rfl⟩

/-- The last token of those already looked at. -/
def lastTok (pre : List Item) : Option Tok := pre.getLast?.map Prod.snd

theorem lastTok_append (pre : List Item) (x : Item) : lastTok (pre ++ [x]) = some x.2 := by
  simp [lastTok]

theorem before_append (pre : List Item) (x : Item) (r : List Item) : before (pre ++ x :: r) pre.length = lastTok pre := by
  unfold before lastTok
  split
  · rename_i h
    rw [List.eq_nil_of_length_eq_zero h]
    rfl
  · rename_i h
    rw [List.getElem?_append_left (by omega), List.getLast?_eq_getElem?]

theorem findIdx_append {pre : List Item} (hp : ∀ x ∈ pre, isComment x.2 = false) {x : Item} (hx : isComment x.2 = true)
    (r : List Item) : (pre ++ x :: r).findIdx? (fun x => isComment x.2) = some pre.length := by
  rw [List.findIdx?_append, List.findIdx?_eq_none_iff.2 hp]
  simp [List.findIdx?_cons, hx]

theorem stripLoop_sweep : ∀ (rest pre : List Item) (fuel : Nat), (∀ x ∈ pre, isComment x.2 = false) →
    rest.length < fuel → ∃ k, stripLoop fuel (pre ++ rest) = .ok k ∧
      k.map Prod.snd = pre.map Prod.snd ++ sweep (lastTok pre) rest
  | [], pre, 0, _, h => by simp at h
  | [], pre, fuel + 1, hp, _ => by
    refine ⟨pre, ?_, by simp [sweep]⟩
    rw [List.append_nil, stripLoop, List.findIdx?_eq_none_iff.2 hp]
  | x :: rest, pre, 0, _, h => by omega
  | (v, t) :: rest, pre, fuel + 1, hp, h => by
    have hl : rest.length < fuel := by simpa using h
    cases hc : isComment t with
    | false =>
      have hp' : ∀ y ∈ pre ++ [((v, t) : Item)], isComment y.2 = false := by
        intro y hy
        rcases List.mem_append.1 hy with hy | hy
        · exact hp y hy
        · rw [List.mem_singleton.1 hy]; exact hc
      obtain ⟨k, h1, h2⟩ := stripLoop_sweep rest (pre ++ [(v, t)]) (fuel + 1) hp' (by omega)
      rw [List.append_assoc, List.singleton_append] at h1
      refine ⟨k, h1, ?_⟩
      rw [h2, lastTok_append, sweep_cons, hc]
      simp
    | true =>
      rw [stripLoop, findIdx_append hp hc]
      simp only
      rw [List.getElem?_append_right (Nat.le_refl _), Nat.sub_self, List.getElem?_cons_zero]
      simp only
      rw [sweep_cons, hc, if_pos rfl]
      have herase : (pre ++ (v, t) :: rest).eraseIdx pre.length = pre ++ rest := by
        rw [List.eraseIdx_append_of_length_le (Nat.le_refl _), Nat.sub_self]
        rfl
      have hp' : ∀ y ∈ pre ++ [(((insertToken v).value, insertToken v) : Item)], isComment y.2 = false := by
        intro y hy
        rcases List.mem_append.1 hy with hy | hy
        · exact hp y hy
        · rw [List.mem_singleton.1 hy]; exact (insertToken_blank v).1
      unfold strip1
      rw [before_append]
      cases hlt : lastTok pre with
      | none =>
        simp only [alone, if_pos]
        rw [herase]
        obtain ⟨k, h1, h2⟩ := stripLoop_sweep rest pre fuel hp hl
        exact ⟨k, h1, by rw [h2, hlt]⟩
      | some p =>
        simp only
        cases ho : isOpen p with
        | true =>
          have ha : alone (some p) (after (pre ++ (v, t) :: rest) pre.length) = true := by
            unfold alone
            cases after (pre ++ (v, t) :: rest) pre.length with
            | none => rfl
            | some n => simp [ho]
          rw [if_pos ha]
          simp only [if_pos]
          rw [herase]
          obtain ⟨k, h1, h2⟩ := stripLoop_sweep rest pre fuel hp hl
          exact ⟨k, h1, by rw [h2, hlt]⟩
        | false =>
          obtain ⟨k, h1, h2⟩ := stripLoop_sweep rest (pre ++ [((insertToken v).value, insertToken v)]) fuel hp' hl
          rw [List.append_assoc, List.singleton_append] at h1
          rw [lastTok_append] at h2
          refine ⟨k, ?_, by rw [h2]; simp⟩
          have e1 : (List.take pre.length (pre ++ (v, t) :: rest) ++
              ((insertToken v).value, insertToken v) :: List.drop pre.length (pre ++ (v, t) :: rest)).eraseIdx (pre.length + 1) =
              pre ++ ((insertToken v).value, insertToken v) :: rest := by
            rw [List.take_left, List.drop_left, List.eraseIdx_append_of_length_le (by omega),
              show pre.length + 1 - pre.length = 1 by omega]
            rfl
          have e2 : (pre ++ (v, t) :: rest).set pre.length ((insertToken v).value, insertToken v) =
              pre ++ ((insertToken v).value, insertToken v) :: rest := by
            rw [List.set_append_right _ _ (Nat.le_refl _), Nat.sub_self]
            rfl
          split
          · rw [if_neg (by simp), e1]
            exact h1
          · rw [e2]
            exact h1

/-- The loop ends and does what the walk does. -/
theorem stripLoop_eq (l : List Item) : ∃ k, stripLoop (l.length + 1) l = .ok k ∧ k.map Prod.snd = sweep none l := by
  obtain ⟨k, h1, h2⟩ := stripLoop_sweep l [] (l.length + 1) (by simp) (by omega)
  exact ⟨k, h1, by rw [h2]; rfl⟩

/-! ### What it does to the leaves -/

/-- A leaf that is a comment. -/
def isRemark (t : Tok) : Bool := below t Comment

/-- A leaf that is a blank. -/
def isGap (t : Tok) : Bool := t.isWhitespace

/-- The leaves of a comment: a comment, then comments and blanks. -/
def Comments (l : List Tok) : Prop :=
  ∃ c cs, l = c :: cs ∧ isRemark c = true ∧ ∀ y ∈ cs, isRemark y = true ∨ isGap y = true

/-- The leaves before and after: comments have gone, with the blanks between and after them, or stand replaced by one
blank or by the line breaks they end with; all other leaves are as they were. -/
inductive Stripped : List Tok → List Tok → Prop
  | nil : Stripped [] []
  | keep (t : Tok) {l l' : List Tok} : isRemark t = false → Stripped l l' → Stripped (t :: l) (t :: l')
  | gone {cs l l' : List Tok} : Comments cs → Stripped l l' → Stripped (cs ++ l) l'
  | blank {cs l l' : List Tok} : Comments cs → Stripped l l' →
    Stripped (cs ++ l) (insertToken (cs.flatMap Tok.value) :: l')

theorem Stripped.append {a a' b b' : List Tok} (h : Stripped a a') (g : Stripped b b') : Stripped (a ++ b) (a' ++ b') := by
  induction h with
  | nil => exact g
  | keep t ht _ ih => exact .keep t ht ih
  | gone hc _ ih => rw [List.append_assoc]; exact .gone hc ih
  | blank hc _ ih => rw [List.append_assoc]; exact .blank hc ih

/-- The tokens of a list and what the filter has made of them one by one. -/
def Processed (t : Tok) (x : Item) : Prop :=
  x.1 = text t ∧ isComment x.2 = isComment t ∧ (isComment t = true → Comments (leaves t)) ∧
    (isComment t = false → Stripped (leaves t) (leaves x.2))

theorem insertToken_leaves (v : List Char) : leaves (insertToken v) = [insertToken v] := by
  unfold insertToken
  split <;> rfl

theorem sweep_stripped : ∀ {l : List Tok} {k : List Item}, List.Forall₂ Processed l k → ∀ prev : Option Tok,
    Stripped (leavesAll l) (leavesAll (sweep prev k))
  | [], _, .nil, prev => .nil
  | t :: l, _, .cons (b := (v, t')) (l₂ := k) h hr, prev => by
    rw [sweep_cons, leavesAll]
    obtain ⟨rfl, h2, h3, h4⟩ := h
    cases hc : isComment t with
    | false =>
      simp only at h2
      rw [h2, hc, if_neg (by simp), leavesAll]
      exact (h4 hc).append (sweep_stripped hr _)
    | true =>
      simp only at h2
      rw [h2, hc, if_pos rfl]
      have hin : ∀ q, Stripped (leaves t ++ leavesAll l) (leavesAll (insertToken (text t) :: sweep q k)) := by
        intro q
        rw [leavesAll, insertToken_leaves]
        exact .blank (h3 hc) (sweep_stripped hr q)
      cases prev with
      | none => exact .gone (h3 hc) (sweep_stripped hr _)
      | some p =>
        simp only
        split
        · exact .gone (h3 hc) (sweep_stripped hr _)
        · exact hin _

theorem comments_of_sound {t : Tok} (h : Every Sound t) (hc : isComment t = true) : Comments (leaves t) := by
  cases t with
  | leaf i m ty v => exact ⟨_, [], rfl, by simpa [isComment, isRemark, Tok.isInst] using hc, by simp⟩
  | grp i c ty l =>
    have hcc : c = .comment := by
      rw [isComment, Bool.or_eq_true] at hc
      rcases hc with hc | hc
      · simpa [Tok.isInst] using hc
      · rcases h.1.1 with rfl | rfl <;> cases hc
    obtain ⟨x, r, e, hx, hr⟩ := h.1.2.2 hcc
    exact ⟨x, r, by rw [leaves, e], hx, hr⟩

mutual
/-- The filter ends without an error and keeps class and type of every token. -/
theorem process_ok : ∀ t : Tok, Every Sound t → ∃ t', process t = .ok t' ∧ t'.cls? = t.cls? ∧ t'.ttype? = t.ttype? ∧
    (isComment t = false → Stripped (leaves t) (leaves t'))
  | .leaf i m ty v, _ => by
    refine ⟨_, rfl, rfl, rfl, fun hc => ?_⟩
    exact .keep _ (by simpa [isComment, isRemark, Tok.isInst] using hc) .nil
  | .grp i c ty l, h => by
    obtain ⟨k, h1, h2⟩ := processAll_ok l h.2
    obtain ⟨k', h3, h4⟩ := stripLoop_eq k
    refine ⟨.grp i c ty (k'.map Prod.snd), ?_, rfl, rfl, fun _ => ?_⟩
    · rw [process, h1]
      simp only [h3]
    · rw [leaves, leaves, h4]
      exact sweep_stripped h2 none
theorem processAll_ok : ∀ l : List Tok, EveryAll Sound l → ∃ k, processAll l = .ok k ∧ List.Forall₂ Processed l k
  | [], _ => ⟨[], rfl, .nil⟩
  | t :: r, h => by
    obtain ⟨t', h1, h2, h3, h4⟩ := process_ok t h.1
    obtain ⟨k, h5, h6⟩ := processAll_ok r h.2
    refine ⟨(text t, t') :: k, ?_, .cons ⟨rfl, ?_, comments_of_sound h.1, h4⟩ h6⟩
    · rw [processAll, h1]
      simp only [h5]
    · unfold isComment below
      rw [h3, isInst_of_cls h2]
end

/-! ### The words -/

/-- A leaf that is neither comment nor blank. -/
def isWord (t : Tok) : Bool := !isRemark t && !isGap t

theorem Comments.words {cs : List Tok} (h : Comments cs) : cs.filter isWord = [] := by
  obtain ⟨c, r, rfl, hc, hr⟩ := h
  rw [List.filter_eq_nil_iff]
  intro x hx
  rcases List.mem_cons.1 hx with rfl | hx
  · simp [isWord, hc]
  · rcases hr x hx with h | h <;> simp [isWord, h]

theorem insertToken_word (v : List Char) : isWord (insertToken v) = false ∧ isRemark (insertToken v) = false := by
  unfold insertToken
  split <;> exact ⟨rfl, rfl⟩

theorem Stripped.words {l l' : List Tok} (h : Stripped l l') : l'.filter isWord = l.filter isWord := by
  induction h with
  | nil => rfl
  | keep t _ _ ih => rw [List.filter_cons, List.filter_cons, ih]
  | gone hc _ ih => rw [List.filter_append, hc.words, ih]; rfl
  | blank hc _ ih => rw [List.filter_append, hc.words, List.filter_cons, (insertToken_word _).1, ih]; rfl

theorem Stripped.clean {l l' : List Tok} (h : Stripped l l') : ∀ x ∈ l', isRemark x = false := by
  induction h with
  | nil => intro x hx; cases hx
  | keep t ht _ ih =>
    intro x hx
    rcases List.mem_cons.1 hx with rfl | hx
    · exact ht
    · exact ih x hx
  | gone _ _ ih => exact ih
  | blank _ _ ih =>
    intro x hx
    rcases List.mem_cons.1 hx with rfl | hx
    · exact (insertToken_word _).2
    · exact ih x hx

/-- The leaf that a token of the lexer is. -/
def LeafOf (a : Token) (x : Tok) : Prop :=
  ∃ i ty, x = .leaf i a.ttype ty a.value ∧ (ty = a.ttype ∨ ((a.ttype = Operator ∨ a.ttype = Wildcard) ∧ ty = Operator))

theorem group_leaves {l : List Token} {t : Tok} (h : group l = .ok t) : List.Forall₂ LeafOf l (leaves t) := by
  obtain ⟨t', n, h1, h2, h3⟩ := group_grown l
  rw [h] at h1
  cases h1
  have hs : List.Forall₂ SameLeaf (number 1 l) (leaves t) := by
    have := h2.same
    simpa only [leavesAll, leaves, ungrouped, List.append_nil, number_leaves, SameLeaves] using this
  clear h h2 h3
  generalize leaves t = m at hs
  generalize 1 = k at hs
  induction l generalizing k m with
  | nil => cases hs; exact .nil
  | cons a r ih =>
    rw [number] at hs
    obtain ⟨x, m', hx, hr, rfl⟩ := List.forall₂_cons_left_iff.1 hs
    refine .cons ?_ (ih _ _ hr)
    cases x with
    | grp => simp [SameLeaf] at hx
    | leaf i m ty v =>
      simp only [SameLeaf] at hx
      obtain ⟨_, rfl, rfl, h4⟩ := hx
      exact ⟨i, ty, rfl, h4.imp Eq.symm id⟩

/-- A token of the lexer that is a comment. -/
def remark (a : Token) : Bool := isIn a.ttype Comment

/-- A token of the lexer that is neither comment nor blank. -/
def word (a : Token) : Bool := !remark a && !isSpace a

theorem LeafOf.kinds {a : Token} {x : Tok} (h : LeafOf a x) : isRemark x = remark a ∧ isGap x = isSpace a ∧ isWord x = word a ∧
    x.value = a.value := by
  obtain ⟨i, ty, rfl, h⟩ := h
  have h1 : isRemark (.leaf i a.ttype ty a.value) = remark a := by
    show isIn ty Comment = isIn a.ttype Comment
    rcases h with rfl | ⟨h, rfl⟩
    · rfl
    · rcases h with h | h
      · rw [h]
      · rw [h]; rfl
  have h2 : isGap (.leaf i a.ttype ty a.value) = isSpace a := rfl
  exact ⟨h1, h2, by rw [isWord, h1, h2, word], rfl⟩

theorem f2_filter {α β : Type} {R : α → β → Prop} {p : α → Bool} {q : β → Bool} {l : List α} {m : List β}
    (h : List.Forall₂ R l m) (hpq : ∀ a b, R a b → q b = p a) : List.Forall₂ R (l.filter p) (m.filter q) := by
  induction h with
  | nil => exact .nil
  | @cons a b _ _ hab _ ih =>
    rw [List.filter_cons, List.filter_cons, hpq a b hab]
    split
    · exact .cons hab ih
    · exact ih

theorem group_stripped (l : List Token) : ∃ t t', group l = .ok t ∧ process t = .ok t' ∧ t.cls? = some .statement ∧
    Every Sound t ∧ List.Forall₂ LeafOf l (leaves t) ∧ Stripped (leaves t) (leaves t') := by
  obtain ⟨t, n, h1, _, h3⟩ := group_grown l
  obtain ⟨t', h4, _, _, h5⟩ := process_ok t h3.sound
  refine ⟨t, t', h1, h4, h3.cls, h3.sound, group_leaves h1, h5 ?_⟩
  have hc := h3.cls
  have hs := h3.sound
  cases t with
  | leaf => cases hc
  | grp i c ty k =>
    simp only [Tok.cls?, Option.some.injEq] at hc
    subst hc
    rcases hs.1.1 with rfl | rfl <;> rfl

/-- The filter ends without an error for every statement.  It leaves no comment, and the tokens that are neither comment nor
blank stay as they are, in their order. -/
theorem C82_words_kept (l : List Token) : ∃ t t', group l = .ok t ∧ process t = .ok t' ∧
    List.Forall₂ LeafOf (l.filter word) ((leaves t').filter isWord) ∧ ∀ x ∈ leaves t', isRemark x = false := by
  obtain ⟨t, t', h1, h2, _, _, h3, h4⟩ := group_stripped l
  refine ⟨t, t', h1, h2, ?_, h4.clean⟩
  rw [h4.words]
  exact f2_filter h3 fun a b h => h.kinds.2.2.1

/-! ### Words stay apart -/

/-- The words, each with whether it is set apart from the one before: by a blank, a comment, an opening parenthesis or
the beginning of the statement. -/
def spaced (f : Bool) : List Tok → List (Tok × Bool)
  | [] => []
  | t :: r => if isWord t then (t, f) :: spaced (isOpen t) r else spaced true r

/-- Whether what follows is set apart. -/
def endFlag (f : Bool) : List Tok → Bool
  | [] => f
  | t :: r => if isWord t then endFlag (isOpen t) r else endFlag true r

theorem spaced_append (f : Bool) (a b : List Tok) : spaced f (a ++ b) = spaced f a ++ spaced (endFlag f a) b := by
  induction a generalizing f with
  | nil => rfl
  | cons t r ih =>
    rw [List.cons_append, spaced, spaced, endFlag]
    split
    · rw [ih]; rfl
    · rw [ih]

theorem endFlag_append (f : Bool) (a b : List Tok) : endFlag f (a ++ b) = endFlag (endFlag f a) b := by
  induction a generalizing f with
  | nil => rfl
  | cons t r ih =>
    rw [List.cons_append, endFlag, endFlag]
    split <;> exact ih _

/-- The same words; those that were set apart still are. -/
abbrev StillApart : List (Tok × Bool) → List (Tok × Bool) → Prop :=
  List.Forall₂ fun a b => b.1 = a.1 ∧ (a.2 = true → b.2 = true)

/-- The leaves `l` have become `l'`: words that were set apart still are.  If `need`, this holds where what stands before
is set apart. -/
def Apart (need : Bool) (l l' : List Tok) : Prop :=
  ∀ f f', (f = true → f' = true) → (need = true → f' = true) →
    StillApart (spaced f l) (spaced f' l') ∧ (endFlag f l = true → endFlag f' l' = true)

theorem Apart.refl (l : List Tok) : Apart false l l := by
  intro f f' h hn
  clear hn
  induction l generalizing f f' with
  | nil => exact ⟨.nil, h⟩
  | cons t r ih =>
    rw [spaced, spaced, endFlag, endFlag]
    split
    · obtain ⟨h1, h2⟩ := ih (isOpen t) (isOpen t) id
      exact ⟨.cons ⟨rfl, h⟩ h1, h2⟩
    · exact ih true true id

theorem Apart.append {n m : Bool} {a a' b b' : List Tok} (h : Apart n a a') (g : Apart m b b')
    (hm : m = true → ∀ f', (n = true → f' = true) → endFlag f' a' = true) : Apart n (a ++ b) (a' ++ b') := by
  intro f f' hf hn
  obtain ⟨h1, h2⟩ := h f f' hf hn
  obtain ⟨g1, g2⟩ := g (endFlag f a) (endFlag f' a') h2 (fun e => hm e f' hn)
  rw [spaced_append, spaced_append, endFlag_append, endFlag_append]
  exact ⟨List.rel_append h1 g1, g2⟩

theorem Comments.spaced {cs : List Tok} (h : Comments cs) (f : Bool) : Strip.spaced f cs = [] ∧ endFlag f cs = true := by
  obtain ⟨c, r, rfl, hc, hr⟩ := h
  have hall : ∀ x ∈ r, isWord x = false := by
    intro x hx
    rcases hr x hx with h | h <;> simp [isWord, h]
  have key : ∀ r : List Tok, (∀ x ∈ r, isWord x = false) → Strip.spaced true r = [] ∧ endFlag true r = true := by
    intro r
    induction r with
    | nil => intro _; exact ⟨rfl, rfl⟩
    | cons x r ih =>
      intro h
      rw [Strip.spaced, endFlag, h x (List.mem_cons_self ..)]
      exact ih fun y hy => h y (List.mem_cons_of_mem _ hy)
  rw [Strip.spaced, endFlag, show isWord c = false by simp [isWord, hc]]
  exact key r hall

theorem Apart.gone {cs : List Tok} (h : Comments cs) : Apart true cs [] := by
  intro f f' _ hn
  rw [(h.spaced f).1, (h.spaced f).2]
  exact ⟨.nil, fun _ => hn rfl⟩

theorem Apart.blank {cs : List Tok} (h : Comments cs) (v : List Char) : Apart false cs [insertToken v] := by
  intro f f' _ _
  rw [(h.spaced f).1, (h.spaced f).2, spaced, endFlag, (insertToken_word v).1]
  exact ⟨.nil, fun _ => rfl⟩

/-- What the filter has made of a token, words set apart. -/
def Spread (t : Tok) (x : Item) : Prop :=
  Processed t x ∧ (isOpen x.2 = true → leaves x.2 = [x.2]) ∧
    (isComment t = false → Apart false (leaves t) (leaves x.2))

theorem sweep_apart : ∀ {l : List Tok} {k : List Item}, List.Forall₂ Spread l k → ∀ (prev : Option Tok) (need : Bool),
    (prev = none → need = true ∨ ∀ t ∈ l.head?, isComment t = false) → (∀ p, prev = some p → isOpen p = true → need = true) →
    Apart need (leavesAll l) (leavesAll (sweep prev k))
  | [], _, .nil, prev, need, _, _ => fun f f' h _ => ⟨.nil, h⟩
  | t :: l, _, .cons (b := (v, t')) (l₂ := k) h hr, prev, need, hn, hp => by
    rw [sweep_cons, leavesAll]
    obtain ⟨⟨rfl, h2, h3, _⟩, h4, h5⟩ := h
    simp only at h2 h4
    cases hc : isComment t with
    | false =>
      rw [h2, hc, if_neg (by simp), leavesAll]
      have h6 := sweep_apart hr (some t') (isOpen t') (by simp) (fun p e ho => by cases e; exact ho)
      have h7 := (h5 hc).append h6 (fun e f' _ => by
        rw [h4 e, endFlag]
        split
        · exact e
        · rfl)
      exact fun f f' hf _ => h7 f f' hf (by simp)
    | true =>
      rw [h2, hc, if_pos rfl]
      have hgone : need = true → Apart need (leaves t ++ leavesAll l) (leavesAll (sweep prev k)) := by
        rintro rfl
        have h6 := sweep_apart hr prev true (fun _ => .inl rfl) (fun _ _ _ => rfl)
        exact (Apart.gone (h3 hc)).append h6 (fun _ f' hf => hf rfl)
      cases prev with
      | none =>
        refine hgone ((hn rfl).resolve_right fun h => ?_)
        rw [h t (by simp)] at hc
        cases hc
      | some p =>
        simp only
        split
        · rename_i ho
          exact hgone (hp p rfl ho)
        · rw [leavesAll, insertToken_leaves]
          have h6 := sweep_apart hr (some (insertToken (text t))) false (by simp)
            (fun p e ho => by cases e; rw [(insertToken_blank _).2.2] at ho; cases ho)
          have h7 := (Apart.blank (h3 hc) (text t)).append h6 (by simp)
          exact fun f f' hf _ => h7 f f' hf (by simp)

/-- No group but a comment begins with a comment. -/
def Begins (c : Cls) (_ : Option TType) (l : List Tok) : Prop :=
  c = .comment ∨ ∀ t ∈ l.head?, isComment t = false

mutual
/-- No group of the tree begins with a comment, as a test. -/
def beginsWell : Tok → Bool
  | .leaf .. => true
  | .grp _ c _ l => (c == .comment || (l.head?.all fun t => !isComment t)) && beginWell l
def beginWell : List Tok → Bool
  | [] => true
  | t :: r => beginsWell t && beginWell r
end

mutual
theorem beginsWell_ok : ∀ {t : Tok}, beginsWell t = true → Every Begins t
  | .leaf .., _ => trivial
  | .grp i c ty l, h => by
    rw [beginsWell, Bool.and_eq_true, Bool.or_eq_true, beq_iff_eq] at h
    refine ⟨h.1.imp id fun h t ht => ?_, beginWell_ok h.2⟩
    rw [Option.mem_def.1 ht] at h
    simpa using h
theorem beginWell_ok : ∀ {l : List Tok}, beginWell l = true → EveryAll Begins l
  | [], _ => trivial
  | t :: r, h => by
    rw [beginWell, Bool.and_eq_true] at h
    exact ⟨beginsWell_ok h.1, beginWell_ok h.2⟩
end

theorem open_leaf {t : Tok} (h : Every Sound t) (ho : isOpen t = true) : leaves t = [t] := by
  have hty := isMatch_ttype ho
  cases t with
  | leaf i m ty v => rfl
  | grp i c ty l =>
    rw [Tok.ttype?] at hty
    rcases h.1.1 with e | e <;> rw [e] at hty
    · cases hty
    · exact absurd hty (by decide)

mutual
theorem process_spread : ∀ t : Tok, Every Sound t → Every Begins t → ∃ t', process t = .ok t' ∧ t'.cls? = t.cls? ∧
    t'.ttype? = t.ttype? ∧ (t.isGroup = false → t' = t) ∧ (isComment t = false → Apart false (leaves t) (leaves t'))
  | .leaf i m ty v, _, _ => ⟨_, rfl, rfl, rfl, fun _ => rfl, fun _ => .refl _⟩
  | .grp i c ty l, h, hb => by
    obtain ⟨k, h1, h2⟩ := processAll_spread l h.2 hb.2
    obtain ⟨k', h3, h4⟩ := stripLoop_eq k
    refine ⟨.grp i c ty (k'.map Prod.snd), ?_, rfl, rfl, fun e => (by cases e), fun hc => ?_⟩
    · rw [process, h1]
      simp only [h3]
    · rw [leaves, leaves, h4]
      refine sweep_apart h2 none false (fun _ => .inr ?_) (by simp)
      refine hb.1.resolve_left ?_
      rintro rfl
      simp [isComment, Tok.isInst] at hc
theorem processAll_spread : ∀ l : List Tok, EveryAll Sound l → EveryAll Begins l →
    ∃ k, processAll l = .ok k ∧ List.Forall₂ Spread l k
  | [], _, _ => ⟨[], rfl, .nil⟩
  | t :: r, h, hb => by
    obtain ⟨t', h1, h2, h3, h4, h5⟩ := process_spread t h.1 hb.1
    obtain ⟨k, h6, h7⟩ := processAll_spread r h.2 hb.2
    obtain ⟨t2, g1, _, _, g2⟩ := process_ok t h.1
    rw [h1] at g1
    cases g1
    refine ⟨(text t, t') :: k, ?_, .cons ⟨⟨rfl, ?_, comments_of_sound h.1, g2⟩, ?_, h5⟩ h7⟩
    · rw [processAll, h1]
      simp only [h6]
    · unfold isComment below
      rw [h3, isInst_of_cls h2]
    · intro ho
      have hty := isMatch_ttype ho
      simp only at hty
      rw [h3] at hty
      cases t with
      | leaf => rw [h4 rfl]; rfl
      | grp i c ty l =>
        rw [Tok.ttype?] at hty
        rcases h.1.1.1 with e | e <;> rw [e] at hty
        · cases hty
        · exact absurd hty (by decide)
end

/-- Where no group of the tree begins with a comment, words that were set apart by a blank or a comment still are. -/
theorem C82_apart_partial {l : List Token} {t : Tok} (h : group l = .ok t) (hb : EveryAll Begins t.toks) :
    ∃ t', process t = .ok t' ∧ StillApart (spaced true (leaves t)) (spaced true (leaves t')) := by
  obtain ⟨t0, n, h1, _, h3⟩ := group_grown l
  rw [h] at h1
  cases h1
  have hc := h3.cls
  have hs := h3.sound
  cases t with
  | leaf => cases hc
  | grp i c ty k =>
    obtain ⟨k1, h4, h5⟩ := processAll_spread k hs.2 hb
    obtain ⟨k', h6, h7⟩ := stripLoop_eq k1
    refine ⟨.grp i c ty (k'.map Prod.snd), ?_, ?_⟩
    · rw [process, h4]
      simp only [h6]
    · rw [leaves, leaves, h7]
      exact (sweep_apart h5 none true (fun _ => .inl rfl) (by simp) true true id id).1

/-! ### A blank before every comment -/

/-- Before every comment stands a blank or a comment, or nothing. -/
def guarded (ok : Bool) : List Token → Bool
  | [] => true
  | a :: r => (!remark a || ok) && guarded (isSpace a || remark a) r

def guardedLeaves (ok : Bool) : List Tok → Bool
  | [] => true
  | t :: r => (!isRemark t || ok) && guardedLeaves (isGap t || isRemark t) r

theorem guarded_leaves {l : List Token} {m : List Tok} (h : List.Forall₂ LeafOf l m) (ok : Bool) :
    guardedLeaves ok m = guarded ok l := by
  induction h generalizing ok with
  | nil => rfl
  | cons hab _ ih => rw [guarded, guardedLeaves, hab.kinds.1, hab.kinds.2.1, ih]

theorem guarded_append : ∀ (a b : List Tok) (ok : Bool), guardedLeaves ok (a ++ b) = true → ∃ ok', guardedLeaves ok' b = true
  | [], b, ok, h => ⟨ok, h⟩
  | t :: a, b, ok, h => by
    rw [List.cons_append, guardedLeaves, Bool.and_eq_true] at h
    exact guarded_append a b _ h.2

theorem Stripped.apart {l l' : List Tok} (h : Stripped l l') : ∀ f f' g, (f = true → f' = true) → (g = true → f' = true) →
    guardedLeaves g l = true → StillApart (spaced f l) (spaced f' l') := by
  induction h with
  | nil => intro f f' g _ _ _; exact .nil
  | keep t ht _ ih =>
    intro f f' g hf _ hg
    rw [guardedLeaves, Bool.and_eq_true] at hg
    rw [spaced, spaced]
    split
    · rename_i hw
      refine .cons ⟨rfl, hf⟩ (ih _ _ _ id ?_ hg.2)
      intro e
      simp only [isWord, Bool.and_eq_true, Bool.not_eq_true'] at hw
      simp [hw.1, hw.2] at e
    · exact ih _ _ _ id (fun _ => rfl) hg.2
  | gone hc _ ih =>
    intro f f' g _ hgf hg
    obtain ⟨ok', hok⟩ := guarded_append _ _ _ hg
    rw [spaced_append, (hc.spaced f).1, (hc.spaced f).2, List.nil_append]
    have : f' = true := by
      obtain ⟨c, r, rfl, hc, _⟩ := hc
      rw [List.cons_append, guardedLeaves, Bool.and_eq_true, hc] at hg
      exact hgf (by simpa using hg.1)
    exact ih _ _ ok' (fun _ => this) (fun _ => this) hok
  | blank hc _ ih =>
    intro f f' g _ hgf hg
    obtain ⟨ok', hok⟩ := guarded_append _ _ _ hg
    rw [spaced_append, (hc.spaced f).1, (hc.spaced f).2, List.nil_append, spaced, (insertToken_word _).1]
    exact ih _ _ ok' id (fun _ => rfl) hok

/-- Where a blank stands before every comment, words that were set apart by a blank or a comment still are. -/
theorem C82_blank_before_partial {l : List Token} {t : Tok} (h : group l = .ok t) (hg : guarded true l = true) :
    ∃ t', process t = .ok t' ∧ StillApart (spaced true (leaves t)) (spaced true (leaves t')) := by
  obtain ⟨t0, t', h1, h2, _, _, h3, h4⟩ := group_stripped l
  rw [h] at h1
  cases h1
  exact ⟨t', h2, h4.apart true true true id id (by rw [guarded_leaves h3]; exact hg)⟩

end EulerDB.Strip
