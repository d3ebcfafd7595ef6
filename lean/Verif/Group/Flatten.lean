/-
C75: the tokens the parser reads from a grouped statement.

Models /repo/scheduler/compile/parser.py 1012-1057 (`_get_sqlparse_tokens`, `_flatten_sqlparse`).

Simplifications: the generator is the list of what it yields; an error of its body is an error of the
list, which line 1018-1022 builds at once.
-/
import Verif.Group.Nest
import Verif.Lex.TypeProps

namespace EulerDB.Group

open EulerDB.Lex

/-- `is_grouped_mysql_digit_name`, 1029-1036; `some` the two leaves and the tokens after them.
`tokens[1].tokens[0]` raises on a group without tokens. -/
def digitName : Tok → Except PyErr (Option (Tok × Tok × List Tok))
  | .leaf .. => .ok none
  | .grp _ _ _ [a, b] =>
    if a.ttype? == some Integer && b.isGroup then
      match b.toks with
      | [] => .error .indexError
      | x :: rest => .ok (if x.ttype? == some Name then some (a, x, rest) else none)
    else .ok none
  | .grp .. => .ok none

/-- The body of the loop, 1037-1057. -/
def flattenOne (t : Tok) : Except PyErr (List Token) :=
  match digitName t with
  | .error e => .error e
  | .ok none => .ok ((leaves t).map Tok.token)
  | .ok (some (a, x, rest)) =>
    .ok (⟨Name, norm a ++ norm x⟩ :: (leavesAll rest).map Tok.token)

/-- `_flatten_sqlparse`. -/
def flatten : List Tok → Except PyErr (List Token)
  | [] => .ok []
  | t :: r =>
    match flattenOne t with
    | .error e => .error e
    | .ok a =>
      match flatten r with
      | .error e => .error e
      | .ok b => .ok (a ++ b)

/-- The tokens of a statement before blanks are dropped, 1016-1017. -/
def parserTokens (l : List Token) : Except PyErr (List Token) :=
  match group l with
  | .error e => .error e
  | .ok t => flatten t.toks

/-! ### Groups below the statement -/

mutual
theorem every_heads {P : Cls → Option TType → List Tok → Prop} : ∀ (t : Tok), Every P t →
    (∀ x ∈ heads t, x.2 ≠ some .statement) → Every (fun c ty l => P c ty l ∧ c ≠ .statement) t
  | .leaf .., _, _ => trivial
  | .grp i c ty l, h, hx =>
    ⟨⟨h.1, fun he => hx (i, some c) (by rw [heads]; exact List.mem_cons_self ..) (by rw [he])⟩,
      everyAll_heads l h.2 fun x hm => hx x (by rw [heads]; exact List.mem_cons_of_mem _ hm)⟩
theorem everyAll_heads {P : Cls → Option TType → List Tok → Prop} : ∀ (l : List Tok), EveryAll P l →
    (∀ x ∈ headsAll l, x.2 ≠ some .statement) → EveryAll (fun c ty l => P c ty l ∧ c ≠ .statement) l
  | [], _, _ => trivial
  | t :: r, h, hx =>
    ⟨every_heads t h.1 fun x hm => hx x (by rw [headsAll]; exact List.mem_append_left _ hm),
      everyAll_heads r h.2 fun x hm => hx x (by rw [headsAll]; exact List.mem_append_right _ hm)⟩
end

/-- A group of a statement: it has tokens, and its type is none or `Operator`. -/
def Inner (_ : Cls) (ty : Option TType) (l : List Tok) : Prop :=
  (ty = none ∨ ty = some Operator) ∧ l ≠ []

/-- No group of a statement is without tokens. -/
theorem inner_groups {l : List Token} {t : Tok} (h : group l = .ok t) : EveryAll Inner t.toks := by
  obtain ⟨t', n, h1, h2, h3⟩ := group_grown l
  rw [h] at h1
  cases h1
  cases t with
  | leaf => exact trivial
  | grp i c ty k =>
    have hc := h3.cls
    simp only [Tok.cls?, Option.some.injEq] at hc
    subst hc
    obtain ⟨new, e1, _, e3⟩ := h2.heads
    have hn : ∀ x ∈ headsAll k, x.2 ≠ some .statement := by
      have hcount := e1.countP_eq (fun x => x.2 == some Cls.statement)
      rw [List.countP_append] at hcount
      have c1 : new.countP (fun x => x.2 == some Cls.statement) = 0 := by
        rw [List.countP_eq_zero]
        intro x hx
        have := e3 x hx
        rw [if_pos rfl] at this
        simpa using this
      have c2 : (headsAll [ungrouped l]).countP (fun x => x.2 == some Cls.statement) = 1 := by
        have e : headsAll [ungrouped l] = (0, some .statement) :: headsAll (number 1 l) := by
          simp [headsAll, heads, ungrouped]
        rw [e, List.countP_cons_of_pos (by simp), number_heads]
        have : ((List.range' 1 l.length).map fun i => (i, (none : Option Cls))).countP
            (fun x => x.2 == some Cls.statement) = 0 := by
          rw [List.countP_eq_zero]
          intro x hx
          obtain ⟨i, _, rfl⟩ := List.mem_map.1 hx
          simp
        rw [this]
      have e : headsAll [Tok.grp i .statement ty k] = (i, some .statement) :: headsAll k := by
        simp [headsAll, heads]
      rw [e, List.countP_cons_of_pos (by simp), c1, c2] at hcount
      have c3 : (headsAll k).countP (fun x => x.2 == some Cls.statement) = 0 := by omega
      rw [List.countP_eq_zero] at c3
      intro x hx
      simpa using c3 x hx
    have := everyAll_heads k h3.sound.2 hn
    rw [everyAll_iff] at this ⊢
    intro u hu
    exact (this u hu).imp fun c ty l h => ⟨h.1.1, h.1.2.1.resolve_right h.2⟩

/-- A leaf keeps the type it was made with, but for operators. -/
def Same (t : Tok) : Prop :=
  match t with
  | .leaf _ m ty _ => m = ty ∨ ty = Operator
  | .grp .. => True

theorem same_leaves {l : List Token} {t : Tok} (h : group l = .ok t) : ∀ x ∈ leavesAll t.toks, Same x := by
  obtain ⟨t', n, h1, h2, h3⟩ := group_grown l
  rw [h] at h1
  cases h1
  have hs : List.Forall₂ SameLeaf (number 1 l) (leaves t) := by
    have := h2.same
    simpa only [leavesAll, leaves, ungrouped, List.append_nil, number_leaves, SameLeaves] using this
  have hm : ∀ (l : List Token) (k : Nat), ∀ x ∈ number k l, ∃ i ty v, x = .leaf i ty ty v := by
    intro l
    induction l with
    | nil => simp [number]
    | cons a r ih =>
      intro k x hx
      rw [number] at hx
      rcases List.mem_cons.1 hx with rfl | hx
      · exact ⟨_, _, _, rfl⟩
      · exact ih _ x hx
  have key : ∀ (a b : List Tok), List.Forall₂ SameLeaf a b → (∀ x ∈ a, ∃ i ty v, x = .leaf i ty ty v) →
      ∀ x ∈ b, Same x := by
    intro a b hab
    induction hab with
    | nil => simp
    | @cons x y a b hxy _ ih =>
      intro ha z hz
      rcases List.mem_cons.1 hz with rfl | hz
      · obtain ⟨i, ty, v, rfl⟩ := ha x (List.mem_cons_self ..)
        cases z with
        | grp => trivial
        | leaf j m ty' v' =>
          simp only [SameLeaf] at hxy
          obtain ⟨_, rfl, _, rfl | ⟨_, h⟩⟩ := hxy
          · exact .inl rfl
          · exact .inr h
      · exact ih (fun x hx => ha x (List.mem_cons_of_mem _ hx)) z hz
  cases t with
  | leaf => intro x hx; simp [Tok.toks, leavesAll] at hx
  | grp i c ty k => exact key _ _ hs (hm l 1)

/-! ### Flattening -/

/-- Some numbers and the names after them have become one token. -/
inductive Joined : List Token → List Token → Prop
  | nil : Joined [] []
  | same (a : Token) {l m : List Token} : Joined l m → Joined (a :: l) (a :: m)
  | join (v w : List Char) {l m : List Token} : Joined l m → Joined (⟨Integer, v⟩ :: ⟨Name, w⟩ :: l) (⟨Name, v ++ w⟩ :: m)

theorem Joined.refl : ∀ l, Joined l l
  | [] => .nil
  | a :: l => .same a (Joined.refl l)

theorem Joined.append {a b c d : List Token} (h : Joined a b) (g : Joined c d) : Joined (a ++ c) (b ++ d) := by
  induction h with
  | nil => exact g
  | same a _ ih => exact .same a ih
  | join v w _ ih => exact .join v w ih

theorem Joined.text {a b : List Token} (h : Joined a b) : b.flatMap Token.value = a.flatMap Token.value := by
  induction h with
  | nil => rfl
  | same a _ ih => rw [List.flatMap_cons, List.flatMap_cons, ih]
  | join v w _ ih => simp [List.flatMap_cons, ih]

/-- A number with a name right after it. -/
def digits : List Token → Bool
  | a :: b :: l => (a.ttype == Integer && b.ttype == Name) || digits (b :: l)
  | _ => false

theorem Joined.eq {a b : List Token} (h : Joined a b) (hd : digits a = false) : b = a := by
  induction h with
  | nil => rfl
  | @same a l m hl ih =>
    cases l with
    | nil => cases hl; rfl
    | cons x l =>
      rw [digits, Bool.or_eq_false_iff] at hd
      rw [ih hd.2]
  | join v w _ _ => simp [digits] at hd

theorem norm_plain {i : Nat} {m ty : TType} {v : List Char} (h : Same (.leaf i m ty v)) (ho : ty ≠ Operator)
    (hk : isIn ty Keyword = false) : norm (.leaf i m ty v) = v := by
  rcases h with rfl | h
  · rw [norm, Tok.isKeyword, hk, if_neg (by simp), Group.text, leaves]
    simp [Tok.value]
  · exact absurd h ho

/-- A token with this type is a leaf, since a group has none or `Operator`. -/
theorem leaf_of_type {t : Tok} {ty : TType} (h : Every Inner t) (ht : t.ttype? = some ty) (ho : ty ≠ Operator) :
    ∃ i m v, t = .leaf i m ty v := by
  cases t with
  | leaf i m x v =>
    rw [Tok.ttype?, Option.some.injEq] at ht
    exact ⟨i, m, v, by rw [ht]⟩
  | grp i c x l =>
    rw [Tok.ttype?] at ht
    rcases h.1.1 with h | h
    · rw [h] at ht; cases ht
    · rw [h, Option.some.injEq] at ht
      exact absurd ht.symm ho

theorem flattenOne_joined {t : Tok} (h : Every Inner t) (hs : ∀ x ∈ leaves t, Same x) :
    ∃ m, flattenOne t = .ok m ∧ Joined ((leaves t).map Tok.token) m := by
  have plain : digitName t = .ok none → ∃ m, flattenOne t = .ok m ∧ Joined ((leaves t).map Tok.token) m :=
    fun hd => ⟨_, by rw [flattenOne, hd], .refl _⟩
  cases t with
  | leaf => exact plain rfl
  | grp i c ty l =>
    match l, h, hs, plain with
    | [], _, _, plain => exact plain rfl
    | [a], _, _, plain => exact plain rfl
    | a :: b :: d :: l, _, _, plain => exact plain rfl
    | [a, b], h, hs, plain =>
      by_cases hab : (a.ttype? == some Integer && b.isGroup) = true
      · cases b with
        | leaf => simp [Tok.isGroup] at hab
        | grp j e ty' k =>
          have hb : k ≠ [] := h.2.2.1.1.2
          cases k with
          | nil => exact absurd rfl hb
          | cons x rest =>
            by_cases hx : x.ttype? = some Name
            · rw [Bool.and_eq_true] at hab
              obtain ⟨i1, m1, v1, rfl⟩ := leaf_of_type h.2.1 (by simpa using hab.1) (by decide)
              obtain ⟨i2, m2, v2, rfl⟩ := leaf_of_type h.2.2.1.2.1 hx (by decide)
              have e1 : norm (.leaf i1 m1 Integer v1) = v1 := norm_plain (hs _ (by simp [leaves, leavesAll])) (by decide) (by decide)
              have e2 : norm (.leaf i2 m2 Name v2) = v2 := norm_plain (hs _ (by simp [leaves, leavesAll])) (by decide) (by decide)
              refine ⟨⟨Name, v1 ++ v2⟩ :: (leavesAll rest).map Tok.token, ?_, ?_⟩
              · rw [flattenOne, digitName, if_pos (by rw [Bool.and_eq_true]; exact hab)]
                simp only [Tok.toks, Tok.ttype?, beq_self_eq_true, if_true, e1, e2]
              · have : (leaves (.grp i c ty [.leaf i1 m1 Integer v1, .grp j e ty' (.leaf i2 m2 Name v2 :: rest)])).map Tok.token =
                    ⟨Integer, v1⟩ :: ⟨Name, v2⟩ :: (leavesAll rest).map Tok.token := by
                  simp [leaves, leavesAll, Tok.token]
                rw [this]
                exact .join v1 v2 (.refl _)
            · refine plain ?_
              rw [digitName, if_pos hab]
              simp [Tok.toks, hx]
      · refine plain ?_
        rw [digitName, if_neg hab]

theorem flatten_joined : ∀ (l : List Tok), EveryAll Inner l → (∀ x ∈ leavesAll l, Same x) →
    ∃ m, flatten l = .ok m ∧ Joined ((leavesAll l).map Tok.token) m
  | [], _, _ => ⟨[], rfl, .nil⟩
  | t :: r, h, hs => by
    obtain ⟨a, h1, h2⟩ := flattenOne_joined h.1 fun x hx => hs x (by rw [leavesAll]; exact List.mem_append_left _ hx)
    obtain ⟨b, h3, h4⟩ := flatten_joined r h.2 fun x hx => hs x (by rw [leavesAll]; exact List.mem_append_right _ hx)
    refine ⟨a ++ b, by rw [flatten, h1]; simp only [h3], ?_⟩
    rw [leavesAll, List.map_append]
    exact h2.append h4

/-- Reading the tokens of a statement raises no error; they are the tokens of the lexer, but that a `*` may be
an operator and that some numbers with the names after them are one token. -/
theorem C75_tokens (l : List Token) :
    ∃ m k, parserTokens l = .ok k ∧ List.Forall₂ Kin l m ∧ Joined m k := by
  obtain ⟨t, h1, h2⟩ := C73_leaves_are_tokens l
  obtain ⟨k, h3, h4⟩ := flatten_joined t.toks (inner_groups h1) (same_leaves h1)
  refine ⟨flat t, k, by rw [parserTokens, h1]; exact h3, h2, ?_⟩
  have hc := (C73_groups_have_tokens h1).2
  cases t with
  | leaf => simp [Tok.cls?] at hc
  | grp => exact h4

/-- The text of the tokens is that of the statement. -/
theorem C75_text {l k : List Token} (h : parserTokens l = .ok k) : k.flatMap Token.value = l.flatMap Token.value := by
  obtain ⟨m, k', h1, h2, h3⟩ := C75_tokens l
  rw [h] at h1
  cases h1
  rw [h3.text, flat_values h2]

theorem kin_digits : ∀ {l m : List Token}, List.Forall₂ Kin l m → digits m = digits l
  | [], _, h => by cases h; rfl
  | [a], _, h => by
    cases h with
    | cons _ h => cases h; rfl
  | a :: b :: l, _, h => by
    cases h with
    | @cons _ a' _ _ h1 h =>
      cases h with
      | @cons _ b' _ _ h2 h =>
        have ih := kin_digits (List.Forall₂.cons h2 h)
        rw [digits, digits, ih]
        have t1 : (a'.ttype == Integer) = (a.ttype == Integer) := by
          rcases h1.2 with e | ⟨e | e, e'⟩
          · rw [e]
          · rw [e, e']
          · rw [e, e']; decide
        have t2 : (b'.ttype == Name) = (b.ttype == Name) := by
          rcases h2.2 with e | ⟨e | e, e'⟩
          · rw [e]
          · rw [e, e']
          · rw [e, e']; decide
        rw [t1, t2]

/-- Without a number right before a name, every token of the lexer is a token of the parser. -/
theorem C75_each_token {l k : List Token} (h : parserTokens l = .ok k) (hd : digits l = false) :
    List.Forall₂ Kin l k := by
  obtain ⟨m, k', h1, h2, h3⟩ := C75_tokens l
  rw [h] at h1
  cases h1
  rw [h3.eq (by rw [kin_digits h2, hd])]
  exact h2

/-! ### The type of a statement -/

theorem kin_blank {a b : Token} (h : Kin a b) : isBlank b = isBlank a := by
  rcases h.2 with e | ⟨e | e, e'⟩
  · rw [isBlank, isBlank, e]
  · rw [isBlank, isBlank, e, e']
  · rw [isBlank, isBlank, e, e']; decide

theorem kin_comment {a b : Token} (h : Kin a b) : isCommentType b.ttype = isCommentType a.ttype := by
  rcases h.2 with e | ⟨e | e, e'⟩
  · rw [e]
  · rw [e, e']
  · rw [e, e']; decide

theorem kin_filter {l m : List Token} (h : List.Forall₂ Kin l m) :
    List.Forall₂ Kin (l.filter fun t => !isBlank t) (m.filter fun t => !isBlank t) := by
  induction h with
  | nil => exact .nil
  | cons h _ ih =>
    rw [List.filter_cons, List.filter_cons, kin_blank h]
    split
    · exact .cons h ih
    · exact ih

theorem kin_combine : ∀ (p q : List Token) (v : List Char), List.Forall₂ Kin p q → combine q v = combine p v
  | [], _, v, h => by cases h; rfl
  | [a], _, v, h => by
    cases h with
    | cons _ h => cases h; rfl
  | d :: a :: p, _, v, h => by
    cases h with
    | @cons _ d' _ _ h1 h =>
      cases h with
      | @cons _ a' _ q h2 h =>
        rw [combine, combine, isDot, isDot, h1.1, h2.1, kin_combine p q _ h]

theorem kin_sqlFrom : ∀ {l m : List Token}, List.Forall₂ Kin l m → ∀ (p q : List Token) (flag made : Bool),
    List.Forall₂ Kin p q → sqlFrom q flag made m = sqlFrom p flag made l := by
  intro l m h
  induction h with
  | nil => intros; rfl
  | @cons a b l m h hl ih =>
    intro p q flag made hp
    have e1 : isPart b m = isPart a l := by
      cases hl with
      | nil => rw [isPart, isPart, isDot, isDot, h.1]
      | cons h2 _ => rw [isPart, isPart, isDot, isDot, h.1, isDot, isDot, h2.1]
    have e2 : (q ≠ []) = (p ≠ []) := by
      cases hp <;> simp
    rw [sqlFrom, sqlFrom, e1, ih _ _ _ _ (.cons h hp), ih _ _ _ _ (.cons h hp), kin_combine p q _ hp, h.1,
      kin_comment h, hp.length_eq]
    simp only [e2]

/-- Grouping and flattening make no difference to the tokens the rest of the parser sees. -/
theorem C75_sql_tokens {l k : List Token} (h : parserTokens l = .ok k) (hd : digits l = false) :
    sqlTokens k = sqlTokens l :=
  kin_sqlFrom (kin_filter (C75_each_token h hd)) [] [] false false .nil

/-- The type of a text, with grouping and flattening between (parser.py 134-139). -/
def groupedType (rules : List Rule) (text : List Char) : Except PyErr String :=
  match lex rules text with
  | .error e => .error e
  | .ok stream =>
    match split stream with
    | [] => .error .valueError
    | st :: _ =>
      match parserTokens st with
      | .error e => .error e
      | .ok k =>
        match sqlTokens k with
        | .error e => .error e
        | .ok l => queryType l

/-- The type of a text is what C58 says of the tokens of the lexer. -/
theorem C75_type (rules : List Rule) (text : List Char)
    (hd : ∀ s, lex rules text = .ok s → ∀ st ∈ (split s).head?, digits st = false) :
    groupedType rules text = textType rules text := by
  unfold groupedType textType
  cases hl : lex rules text with
  | error e => rfl
  | ok s =>
    simp only
    cases hs : split s with
    | nil => rfl
    | cons st r =>
      obtain ⟨m, k, h1, _, _⟩ := C75_tokens st
      have := C75_sql_tokens h1 (hd s hl st (by rw [hs]; rfl))
      simp only [h1, this]
      cases sqlTokens st <;> rfl

/-! ### Names that begin with digits -/

def selects (l : List Token) : List Token :=
  [⟨DML, "SELECT".toList⟩, ⟨Whitespace, " ".toList⟩] ++ l

/-- `SELECT 1a.b`: the lexer cuts the name, the parser joins it. -/
theorem C75_digit_name_joined :
    parserTokens (selects [⟨Integer, "1".toList⟩, ⟨Name, "a".toList⟩]) = .ok (selects [⟨Name, "1a".toList⟩]) ∧
    parserTokens (selects [⟨Integer, "1".toList⟩, ⟨Name, "a".toList⟩, ⟨Punctuation, ".".toList⟩, ⟨Name, "b".toList⟩]) =
      .ok (selects [⟨Name, "1a".toList⟩, ⟨Punctuation, ".".toList⟩, ⟨Name, "b".toList⟩]) := by
  constructor <;> decide +kernel

/-- In a list of columns, in parentheses or in a condition the name stays cut in two. -/
theorem C75_fails_in_list :
    parserTokens (selects [⟨Integer, "1".toList⟩, ⟨Name, "a".toList⟩, ⟨Punctuation, ",".toList⟩, ⟨Name, "b".toList⟩]) =
      .ok (selects [⟨Integer, "1".toList⟩, ⟨Name, "a".toList⟩, ⟨Punctuation, ",".toList⟩, ⟨Name, "b".toList⟩]) ∧
    parserTokens (selects [⟨Punctuation, "(".toList⟩, ⟨Integer, "1".toList⟩, ⟨Name, "a".toList⟩, ⟨Punctuation, ")".toList⟩]) =
      .ok (selects [⟨Punctuation, "(".toList⟩, ⟨Integer, "1".toList⟩, ⟨Name, "a".toList⟩, ⟨Punctuation, ")".toList⟩]) := by
  constructor <;> decide +kernel

end EulerDB.Group
