/-
C92: where the pattern and the parser differ, and the reserved words of the SQL grammar.
-/
import Verif.Regex.Props

namespace EulerDB.Regex

open EulerDB

/-! ### The pattern tries again, the parser does not -/

theorem isPrefixOf_append (u t : List Char) : u.isPrefixOf (u ++ t) = true := by simp

theorem after_append (u t : List Char) : afterPrefix u (u ++ t) = [t] := by simp [afterPrefix]

/-- `~((u|uv)w)` refuses `uvw`, which `(u|uv)w` does not find. -/
theorem C92_fails_backtrack {u v w : List Char} (hu : u ≠ []) (hw : w ≠ []) (h : w.isPrefixOf (v ++ w) = false) (ws : List Char → List Char) :
    (PE.and (.first (.lit u) (.lit (u ++ v))) (.lit w)).parse id (u ++ (v ++ w)) = none ∧ (PE.no (.and (.first (.lit u) (.lit (u ++ v))) (.lit w))).parse ws (u ++ (v ++ w)) = none := by
  have hg : (PE.and (.first (.lit u) (.lit (u ++ v))) (.lit w)).Good := ⟨⟨hu, by simp [PE.Good, hu]⟩, hw⟩
  constructor
  · have h1 : (PE.first (.lit u) (.lit (u ++ v))).parse id (u ++ (v ++ w)) = some (v ++ w) := by simp [PE.parse]
    have h2 : (PE.and (.first (.lit u) (.lit (u ++ v))) (.lit w)).parse id (u ++ (v ++ w)) =
        match (PE.first (.lit u) (.lit (u ++ v))).parse id (u ++ (v ++ w)) with
        | none => none
        | some s' => (PE.lit w).parse id (if s'.length < (u ++ (v ++ w)).length then id s' else s') := rfl
    rw [h2, h1]
    have e : (if (v ++ w).length < (u ++ (v ++ w)).length then id (v ++ w) else v ++ w) = v ++ w := by split <;> rfl
    dsimp only
    rw [e]
    simp only [PE.parse, h, Bool.false_eq_true, if_false]
  · rw [parse_no hg, if_neg]
    intro hc
    have h1 : afterPrefix (u ++ v) (u ++ (v ++ w)) = [w] := by rw [← List.append_assoc]; exact after_append _ _
    have h2 : ([] : List Char) ∈ (PE.and (.first (.lit u) (.lit (u ++ v))) (.lit w)).meaning (u ++ (v ++ w)) := by
      refine List.mem_flatMap.2 ⟨w, List.mem_append.2 (Or.inr ?_), ?_⟩
      · show w ∈ afterPrefix (u ++ v) (u ++ (v ++ w))
        rw [h1]; simp
      · show [] ∈ afterPrefix w w
        have := after_append w []
        rw [List.append_nil] at this
        rw [this]; simp
    rw [hc] at h2; cases h2

/-! ### The parser skips whitespace, the pattern does not -/

/-- `~(u w)` lets `u  w` pass, with whitespace between, which `u w` finds. -/
theorem C92_fails_whitespace {u sp w : List Char} (hu : u ≠ []) (hw : w ≠ []) (ws : List Char → List Char) (hws : ws (sp ++ w) = w) (h : w.isPrefixOf (sp ++ w) = false) :
    (PE.and (.lit u) (.lit w)).parse ws (u ++ (sp ++ w)) = some [] ∧ (PE.no (.and (.lit u) (.lit w))).parse ws (u ++ (sp ++ w)) = some (u ++ (sp ++ w)) := by
  have hg : (PE.and (.lit u) (.lit w)).Good := ⟨hu, hw⟩
  have hlen : (sp ++ w).length < (u ++ (sp ++ w)).length := by
    have : 1 ≤ u.length := by cases u with | nil => exact absurd rfl hu | cons _ _ => simp
    have h2 : (u ++ (sp ++ w)).length = u.length + (sp ++ w).length := List.length_append
    omega
  constructor
  · have h1 : (PE.lit u).parse ws (u ++ (sp ++ w)) = some (sp ++ w) := by simp [PE.parse]
    have h2 : (PE.and (.lit u) (.lit w)).parse ws (u ++ (sp ++ w)) =
        match (PE.lit u).parse ws (u ++ (sp ++ w)) with
        | none => none
        | some s' => (PE.lit w).parse ws (if s'.length < (u ++ (sp ++ w)).length then ws s' else s') := rfl
    rw [h2, h1]
    dsimp only
    rw [if_pos hlen, hws]
    simp [PE.parse]
  · rw [parse_no hg, if_pos]
    show (afterPrefix u (u ++ (sp ++ w))).flatMap (PE.lit w).meaning = []
    rw [after_append]
    simp only [List.flatMap_cons, List.flatMap_nil, List.append_nil, PE.meaning, afterPrefix, h, Bool.false_eq_true, if_false]

/-! ### A pattern that cannot be compiled -/

/-- `~` of a repetition of a repetition refuses nothing. -/
theorem C92_fails_repeat {e : PE} (h : e.Good) (hr : e.isRep = false) {lo lo' : Nat} {hi hi' : Option Nat} (hb : below hi lo = false) (hs : ¬ (lo = 1 ∧ hi = some 1)) (hs' : ¬ (lo' = 1 ∧ hi' = some 1))
    (ws : List Char → List Char) (s : List Char) : (PE.no (.many (.many e lo hi) lo' hi')).parse ws s = some s := by
  have hc : compile (PE.no (.many (.many e lo hi) lo' hi')).regex.2 = none := by
    obtain ⟨m, hm, hrd⟩ := reads_rep ((sound e h).unitReads hr) hb hs
    obtain ⟨d, r, hd, h1, h2, h3⟩ := suffix_head hs'
    have hrep := readRep_suffix hs' [')']
    have e1 : (PE.no (.many (.many e lo hi) lo' hi')).regex.2 = '(' :: '?' :: '!' :: ((iso e.regex .unit ++ suffix lo hi) ++ (suffix lo' hi' ++ [')'])) := by
      simp [PE.regex, iso]
    rw [e1]
    generalize iso e.regex .unit ++ suffix lo hi = t at *
    unfold compile
    have hl : ('(' :: '?' :: '!' :: (t ++ (suffix lo' hi' ++ [')']))).length = ((t.length - m + (suffix lo' hi').length + 2 + 1) + m) + 1 := by
      simp only [List.length_cons, List.length_append, List.length_nil]
      omega
    rw [hl, goRead_cons, if_neg (by decide), if_neg (by decide), if_pos rfl]
    show goRead (t.length - m + (suffix lo' hi').length + 2 + 1 + m) ⟨.look true, [], []⟩ [⟨.group, [], []⟩] (t ++ (suffix lo' hi' ++ [')'])) = none
    rw [hrd]
    rw [hd, List.cons_append] at hrep
    have e2 : suffix lo' hi' ++ [')'] = d :: (r ++ [')']) := by rw [hd]; rfl
    rw [e2, goRead_cons, if_neg h1, if_neg h2, if_neg h3, hrep]
    simp [Frame.add]
  simp only [PE.parse]
  rw [hc]

/-! ### The empty alternative -/

/-- An empty alternative is not in the pattern: `a | Empty` finds something everywhere, and `~(a | Empty)` refuses only what `a` matches. -/
theorem C92_fails_or_empty {a : PE} (h : a.Good) (ws : List Char → List Char) {s : List Char} (hs : a.meaning s = []) :
    (∃ r, (PE.orEmpty a).parse ws s = some r) ∧ (PE.no (.orEmpty a)).parse ws s = some s := by
  refine ⟨⟨_, rfl⟩, ?_⟩
  rw [parse_no (e := .orEmpty a) h, if_pos]
  exact hs

/-! ### `stop_on` -/

/-- The pattern of `Many(e, stop_on=stop)`, enhancement.py 340-369. -/
def stopText (e : PE) (lo : Nat) (hi : Option Nat) (stop : PE) : List Char := iso e.regex .unit ++ suffix lo hi ++ stop.regex.2

/-- A repetition that stops on one of two words matches the second one alone, without a single element. -/
theorem C92_fails_stop {e : PE} (h : e.Good) (hr : e.isRep = false) {lo : Nat} {hi : Option Nat} (hb : below hi lo = false) (hs : ¬ (lo = 1 ∧ hi = some 1)) {x y : List Char} (hx : x ≠ []) (hy : y ≠ []) :
    ∃ r, compile (stopText e lo hi (.first (.lit x) (.lit y))) = some r ∧ ∀ k, k ∈ r.den (y ++ k) := by
  have h1 := reads_rep ((sound e h).unitReads hr) hb hs
  have h2 := (sound (.first (.lit x) (.lit y)) ⟨hx, hy⟩).reads
  refine ⟨_, compile_reads (h1.comp h2) rfl, fun k => ?_⟩
  show k ∈ (Re.alt _ (seqOfPieces (y.map fun c => (Re.chr c, false)))).den (y ++ k)
  refine List.mem_append.2 (Or.inr ?_)
  rw [den_lit, after_append]
  simp

/-! ### Reserved words -/

/-- `alphanums + "_$"`, whitespaces.py 24. -/
def keywordChars : List Char := "ABCDEFGHIJKLMNOPQRSTUVWXYZabcdefghijklmnopqrstuvwxyz0123456789_$".toList

def kw (w : List Char) : PE := .key w (w.map Char.toUpper) keywordChars

/-- The elements of `RESERVED`, keywords.py 159-225. -/
def reservedWords : List (List Char) :=
  ["all".toList, "and".toList, "as".toList, "asc".toList, "between".toList, "by".toList, "case".toList, "collate".toList, "constraint".toList, "create".toList, "cross".toList,
   "desc".toList, "distinct".toList, "except".toList, "else".toList, "end".toList, "false".toList, "fetch".toList, "foreign".toList, "from".toList, "full".toList, "group".toList,
   "having".toList, "in".toList, "index".toList, "inner".toList, "intersect".toList, "interval".toList, "is".toList, "join".toList, "key".toList, "lateral".toList, "left".toList,
   "like".toList, "limit".toList, "minus".toList, "nocase".toList, "not".toList, "null".toList, "offset".toList, "on".toList, "or".toList, "order".toList, "outer".toList,
   "over".toList, "partition".toList, "primary".toList, "references".toList, "right".toList, "rlike".toList, "select".toList, "then".toList, "true".toList, "union".toList,
   "unique".toList, "using".toList, "when".toList, "where".toList, "window".toList, "with".toList, "within".toList]

/-- GROUP_BY and IS_NOT. -/
def reservedPairs : List PE := [.and (kw "group".toList) (kw "by".toList), .and (kw "is".toList) (kw "not".toList)]

def oneOf : PE → List PE → PE
  | e, [] => e
  | e, e' :: l => .first e (oneOf e' l)

/-- `RESERVED`; the order of the elements does not matter for `~RESERVED`. -/
def reserved : PE := oneOf (.and (kw "group".toList) (kw "by".toList)) (.and (kw "is".toList) (kw "not".toList) :: reservedWords.map kw)

theorem keywordChars_ok : RangeOk keywordChars := ⟨by decide, fun _ h => absurd h (by decide)⟩

theorem oneOf_good : ∀ (l : List PE) (e : PE), e.Good → (∀ x ∈ l, x.Good) → (oneOf e l).Good
  | [], _, h, _ => h
  | e' :: l, _, h, hl => ⟨h, oneOf_good l e' (hl e' (by simp)) fun x hx => hl x (by simp [hx])⟩

theorem oneOf_plain : ∀ (l : List PE) (e : PE), e.Plain → (∀ x ∈ l, x.Plain) → (oneOf e l).Plain
  | [], _, h, _ => h
  | e' :: l, _, h, hl => ⟨h, oneOf_plain l e' (hl e' (by simp)) fun x hx => hl x (by simp [hx])⟩

theorem oneOf_none : ∀ (l : List PE) (e : PE) (s : List Char), (oneOf e l).parse id s = none ↔ e.parse id s = none ∧ ∀ x ∈ l, x.parse id s = none
  | [], e, s => by simp [oneOf]
  | e' :: l, e, s => by
    have ih := oneOf_none l e' s
    have h2 : (oneOf e (e' :: l)).parse id s = match e.parse id s with | some s' => some s' | none => (oneOf e' l).parse id s := rfl
    rw [h2]
    cases he : e.parse id s with
    | some r => simp
    | none => simp [ih]

theorem pair_none {w : List Char} {l : Char} {v : List Char} (hl : l ∈ keywordChars) (hu : l.toUpper ∈ keywordChars) (s : List Char) : (PE.and (kw w) (kw (l :: v))).parse id s = none := by
  have hn : ∀ c ∈ keywordChars, c ≠ '\n' := by decide
  have hg : (PE.and (kw w) (kw (l :: v))).Good := ⟨keywordChars_ok, keywordChars_ok⟩
  rw [← plain_head _ hg ⟨trivial, trivial⟩ s, List.head?_eq_none_iff]
  exact C92_two_words keywordChars_ok keywordChars_ok hl hu (hn _ hl) (hn _ hu) s

theorem kw_parse (w s : List Char) : (∃ r, (kw w).parse id s = some r) ↔ ∃ r, spelled w (w.map Char.toUpper) s = some r ∧ wordEnd keywordChars r = true := by
  simp only [kw, PE.parse]
  cases spelled w (w.map Char.toUpper) s with
  | none => simp
  | some r => by_cases h : wordEnd keywordChars r = true <;> simp [h]

theorem reserved_good : reserved.Good := by
  refine oneOf_good _ _ ⟨keywordChars_ok, keywordChars_ok⟩ ?_
  intro x hx
  rcases List.mem_cons.1 hx with rfl | hx
  · exact ⟨keywordChars_ok, keywordChars_ok⟩
  · obtain ⟨w, -, rfl⟩ := List.mem_map.1 hx
    exact keywordChars_ok

theorem reserved_plain : reserved.Plain := by
  refine oneOf_plain _ _ ⟨trivial, trivial⟩ ?_
  intro x hx
  rcases List.mem_cons.1 hx with rfl | hx
  · exact ⟨trivial, trivial⟩
  · obtain ⟨w, -, rfl⟩ := List.mem_map.1 hx
    exact trivial

/-- `~RESERVED` refuses exactly the texts that begin with a reserved word, in any spelling, after which the word ends. -/
theorem C92_reserved (ws : List Char → List Char) (s : List Char) :
    (PE.no reserved).parse ws s = none ↔ ∃ w ∈ reservedWords, ∃ r, spelled w (w.map Char.toUpper) s = some r ∧ wordEnd keywordChars r = true := by
  have h1 : (PE.no reserved).parse ws s = none ↔ ¬ reserved.parse id s = none := by
    rw [C92_not_any_partial reserved_good reserved_plain]
    cases reserved.parse id s <;> simp
  rw [h1]
  unfold reserved
  rw [oneOf_none]
  have hb : (PE.and (kw "group".toList) (kw "by".toList)).parse id s = none := pair_none (l := 'b') (by decide) (by decide) s
  have hn : (PE.and (kw "is".toList) (kw "not".toList)).parse id s = none := pair_none (l := 'n') (by decide) (by decide) s
  constructor
  · intro h
    by_contra hc
    refine h ⟨hb, fun x hx => ?_⟩
    rcases List.mem_cons.1 hx with rfl | hx
    · exact hn
    · obtain ⟨w, hw, rfl⟩ := List.mem_map.1 hx
      cases hp : (kw w).parse id s with
      | none => rfl
      | some r => exact absurd ⟨w, hw, (kw_parse w s).1 ⟨r, hp⟩⟩ hc
  · rintro ⟨w, hw, h⟩ ⟨-, hall⟩
    obtain ⟨r, hr⟩ := (kw_parse w s).2 h
    rw [hall (kw w) (by simp [List.mem_map]; exact Or.inr ⟨w, hw, rfl⟩)] at hr
    cases hr

/-- The characters of an identifier, sql_parsing/utils.py 30. -/
def identChar (c : Char) : Bool :=
  c.isAlphanum || decide (c ∈ ['@', '_', '$']) || (decide (0xC0 ≤ c.toNat) && decide (c.toNat ≤ 0xD6)) || (decide (0xD8 ≤ c.toNat) && decide (c.toNat ≤ 0xF6)) ||
    (decide (0xF8 ≤ c.toNat) && decide (c.toNat ≤ 0x1BF))

theorem spelled_self : ∀ (w t : List Char), spelled w (w.map Char.toUpper) (w ++ t) = some t
  | [], t => rfl
  | c :: w, t => by simp [spelled, spelled_self w t]

/-- An identifier that begins with a reserved word and goes on with an accented letter or `@` is refused. -/
theorem C92_fails_accent {w : List Char} (hw : w ∈ reservedWords) {c : Char} (hc : c ∉ keywordChars) (ws : List Char → List Char) (r : List Char) :
    (PE.no reserved).parse ws (w ++ c :: r) = none :=
  (C92_reserved ws _).2 ⟨w, hw, c :: r, spelled_self w _, by simp [wordEnd, hc]⟩

/-- An identifier of letters, digits, `_` and `$` that is no reserved word itself, and begins with none, is not refused. -/
theorem C92_reserved_passes (ws : List Char → List Char) {s : List Char} (h : ∀ w ∈ reservedWords, ∀ r, spelled w (w.map Char.toUpper) s = some r → ∃ c k, r = c :: k ∧ c ∈ keywordChars) :
    (PE.no reserved).parse ws s = some s := by
  have h1 : (PE.no reserved).parse ws s ≠ none := by
    intro hc
    obtain ⟨w, hw, r, hr, he⟩ := (C92_reserved ws s).1 hc
    obtain ⟨c, k, rfl, hck⟩ := h w hw r hr
    have hn : c ≠ '\n' := by rintro rfl; exact absurd hck (by decide)
    simp [wordEnd, hck, hn] at he
  rw [C92_not_any_partial reserved_good reserved_plain] at h1 ⊢
  cases hp : reserved.parse id s with
  | none => rfl
  | some r => rw [hp] at h1; exact absurd rfl h1

/-! ### Cases -/

example : RangeOk "abc".toList := ⟨by decide, fun _ h => absurd h (by decide)⟩

example : regexRange "cab-".toList false = "[\\-a-c]".toList := by decide

example : regexRange [Char.ofNat 5, Char.ofNat 6] false = "[]".toList := by decide

example : charText "ab".toList "b".toList = "a".toList ∧ charText "b".toList "b".toList = "[^b]".toList := by decide

example : wordText "ab".toList "cd".toList [] 1 (some 1) = "[a-b][c-d]*".toList := by decide

example : notInText "x".toList 2 none = "[^x]{2:}".toList := by decide

example : (PE.and (.first (.lit "a".toList) (.lit "bc".toList)) (.many (.char "xyz".toList []) 2 (some 3))).regex.2 = "(?:a|bc)[x-z]{2,3}".toList := by decide

example : (PE.many (.many (.char "a".toList []) 1 none) 0 (some 1)).regex.2 = "a+{0,1}".toList := by decide

/-- The word `ß`, which is `SS` in capital letters. -/
example : (['ß'] : List Char).length < ['S', 'S'].length := by decide

/-- A column named "allée" is an identifier, and is refused. -/
example : ("allée".toList.all identChar = true) ∧ (PE.no reserved).parse id "allée".toList = none :=
  ⟨by decide, C92_fails_accent (w := "all".toList) (by decide) (c := 'é') (by decide) id ['e']⟩

example : (PE.no reserved).parse id "ORDER by".toList = none :=
  (C92_reserved id _).2 ⟨"order".toList, by decide, " by".toList, by decide, by decide⟩

end EulerDB.Regex
