/-
C101, where it fails: signs, strings with a quote, conditions in parentheses, sort items and set operations.
-/
import Verif.Presto.Props

namespace EulerDB.Presto

/-! ### Signs -/

/-- A minus sign is written as a plus sign: two expressions of different worth have the same text. -/
theorem C101_fails_minus (e : Ex) :
    fmt (.sign true e) = fmt (.sign false e) ∧
    ∀ env v, worth env e = some v → v ≠ 0 → worth env (.sign true e) ≠ worth env (.sign false e) := by
  refine ⟨rfl, fun env v hv h0 hc => ?_⟩
  simp [worth, hv] at hc
  omega

/-- What is read from the text of a number with a minus sign is the number. -/
theorem C101_fails_minus_number (n : Nat) : Reads .value (fmt (.sign true (.num n))) (.sign false (.num n)) :=
  C101_value_partial (.sign false (.num n)) (by simp [plain, isSign])

example : worth (fun _ => 0) (.num 5) = some 5 := rfl

/-- Empty, a lone sign, or two signs at the beginning. -/
def noStart : List Tok → Bool
  | [] => true
  | .plus :: [] => true
  | .minus :: [] => true
  | .plus :: .plus :: _ => true
  | _ => false

theorem noStart_append (t u : List Tok) (h : noStart t = false) : noStart (t ++ u) = false := by
  match t with
  | [] => simp [noStart] at h
  | [a] => cases a <;> cases u <;> simp_all [noStart]
  | a :: b :: r => cases a <;> cases b <;> simp_all [noStart]

theorem prim_start {n : NT} {t : List Tok} {e : Ex} (h : Reads n t e) (hn : n = .prim) :
    ∃ a r, t = a :: r ∧ a ≠ .plus ∧ a ≠ .minus := by
  cases h <;> first | (cases hn; done) | exact ⟨_, _, rfl, by simp, by simp⟩

theorem reads_noStart {n : NT} {t : List Tok} {e : Ex} (h : Reads n t e) : noStart t = false := by
  induction h with
  | null => rfl
  | num n => rfl
  | str s => rfl
  | name p => rfl
  | paren _ ih => rfl
  | unsigned _ ih => exact ih
  | plus hp ih =>
    obtain ⟨a, r, rfl, h1, h2⟩ := prim_start hp rfl
    cases a <;> simp_all [noStart]
  | minus hp ih =>
    obtain ⟨a, r, rfl, h1, h2⟩ := prim_start hp rfl
    cases a <;> simp_all [noStart]
  | not _ ih => rfl
  | whereParen _ ih => rfl
  | mul op _ _ _ _ ih _ => exact noStart_append _ _ ih
  | add _ _ ih _ => exact noStart_append _ _ ih
  | sub _ _ ih _ => exact noStart_append _ _ ih
  | cmp op _ _ ih _ => exact noStart_append _ _ ih
  | between _ _ _ ih _ _ => exact noStart_append _ _ ih
  | like _ _ ih _ => exact noStart_append _ _ ih
  | isNull _ ih => exact noStart_append _ _ ih
  | isNotNull _ ih => exact noStart_append _ _ ih
  | and _ _ ih _ => exact noStart_append _ _ ih
  | or _ _ ih _ => exact noStart_append _ _ ih
  | factor _ ih => exact ih
  | term _ ih => exact ih
  | value _ ih => exact ih
  | test _ ih => exact ih
  | termB _ ih => exact ih
  | where_ _ ih => exact ih

/-- A sign before a sign is written without the parentheses it was read with, and is not read. -/
theorem C101_fails_two_signs (m k : Bool) (e : Ex) (n : NT) : ¬ ∃ f, Reads n (fmt (.sign m (.sign k e))) f := by
  rintro ⟨f, h⟩
  have := reads_noStart h
  simp [fmt, noStart] at this

/-- It is made by the grammar. -/
theorem two_signs_read (n : Nat) :
    Reads .value [.minus, .lp, .minus, .num n, .rp] (.sign true (.sign true (.num n))) :=
  .term (.factor (.minus (.paren (.term (.factor (.minus (.num n)))))))

/-! ### Strings -/

/-- A string with a quote is read as another string. -/
theorem C101_fails_string (s : List Char) (h : '\'' ∈ s) :
    Reads .value (fmt (.str s)) (.str (dbl s)) ∧ dbl s ≠ s := by
  refine ⟨.term (.factor (.unsigned (.str _))), fun hc => ?_⟩
  have h1 := dbl_count s
  rw [hc] at h1
  have := List.count_pos_iff.mpr h
  omega

/-! ### Conditions -/

/-- Tokens that only conditions have. -/
def condTok : Tok → Bool
  | .cmp _ | .and | .or | .not | .is | .between | .like => true
  | _ => false

/-- Parentheses opened less those closed. -/
def depth (t : List Tok) : Int := (t.map fun a => if a = .lp then (1 : Int) else if a = .rp then -1 else 0).sum

/-- Every token of a condition stands in no parentheses, `d` being open at the beginning. -/
def outside : Int → List Tok → Bool
  | _, [] => true
  | d, a :: r => (!condTok a || d == 0) && outside (d + if a = .lp then 1 else if a = .rp then -1 else 0) r

theorem depth_nil : depth [] = 0 := rfl

theorem depth_append (t u : List Tok) : depth (t ++ u) = depth t + depth u := by simp [depth]

theorem depth_cons (a : Tok) (t : List Tok) :
    depth (a :: t) = (if a = .lp then 1 else if a = .rp then -1 else 0) + depth t := by simp [depth]

theorem outside_append : ∀ (t u : List Tok) (d : Int), outside d (t ++ u) = (outside d t && outside (d + depth t) u)
  | [], u, d => by simp [outside, depth]
  | a :: r, u, d => by
    rw [List.cons_append, outside, outside, outside_append r u, depth_cons, Bool.and_assoc, add_assoc]

/-- Values have no token of a condition. -/
def isValueNT : NT → Bool
  | .prim | .factor | .term | .value => true
  | _ => false

theorem condTok_aTok (op : AOp) : condTok (aTok op) = false := by cases op <;> rfl

theorem reads_value {n : NT} {t : List Tok} {e : Ex} (h : Reads n t e) (hn : isValueNT n = true) :
    ∀ a ∈ t, condTok a = false := by
  induction h with
  | null => simp [condTok]
  | num n => simp [condTok]
  | str s => simp [condTok]
  | name p => simp [condTok]
  | paren _ ih =>
    intro a ha
    simp only [List.mem_cons, List.mem_append, List.not_mem_nil, or_false] at ha
    rcases ha with rfl | ha | rfl
    · rfl
    · exact ih rfl a ha
    · rfl
  | unsigned _ ih => exact ih rfl
  | plus _ ih =>
    intro a ha
    rcases List.mem_cons.mp ha with rfl | ha
    · rfl
    · exact ih rfl a ha
  | minus _ ih =>
    intro a ha
    rcases List.mem_cons.mp ha with rfl | ha
    · rfl
    · exact ih rfl a ha
  | factor _ ih => exact ih rfl
  | term _ ih => exact ih rfl
  | mul op _ _ _ _ ih1 ih2 =>
    intro a ha
    simp only [List.mem_append, List.mem_cons] at ha
    rcases ha with ha | rfl | ha
    · exact ih1 rfl a ha
    · exact condTok_aTok op
    · exact ih2 rfl a ha
  | add _ _ ih1 ih2 =>
    intro a ha
    simp only [List.mem_append, List.mem_cons] at ha
    rcases ha with ha | rfl | ha
    · exact ih1 rfl a ha
    · rfl
    · exact ih2 rfl a ha
  | sub _ _ ih1 ih2 =>
    intro a ha
    simp only [List.mem_append, List.mem_cons] at ha
    rcases ha with ha | rfl | ha
    · exact ih1 rfl a ha
    · rfl
    · exact ih2 rfl a ha
  | _ => simp [isValueNT] at hn

theorem outside_of_no_cond : ∀ (t : List Tok) (d : Int), (∀ a ∈ t, condTok a = false) → outside d t = true
  | [], _, _ => rfl
  | a :: r, d, h => by
    rw [outside, h a (by simp), outside_of_no_cond r _ fun b hb => h b (List.mem_cons_of_mem _ hb)]
    rfl

theorem depth_aTok (op : AOp) (t : List Tok) : depth (aTok op :: t) = depth t := by
  cases op <;> simp [depth_cons, aTok]

theorem reads_depth {n : NT} {t : List Tok} {e : Ex} (h : Reads n t e) : depth t = 0 := by
  induction h with
  | mul op _ _ _ _ ih1 ih2 => rw [depth_append, depth_aTok, ih1, ih2]; rfl
  | _ => simp_all [depth_append, depth_cons, depth_nil]

/-- In a condition that is read no token of a condition stands in parentheses. -/
theorem reads_outside {n : NT} {t : List Tok} {e : Ex} (h : Reads n t e) (hn : n ≠ .where_) : outside 0 t = true := by
  have v : ∀ {t e}, Reads .value t e → ∀ d, outside d t = true := fun h d =>
    outside_of_no_cond _ d (reads_value h rfl)
  cases hv : isValueNT n with
  | true => exact outside_of_no_cond _ 0 (reads_value h hv)
  | false =>
    induction h with
    | value h _ => exact v h 0
    | cmp op h1 h2 _ _ => simp [outside_append, outside, v h1, reads_depth h1, v h2]
    | between h1 h2 h3 _ _ _ =>
      simp [outside_append, outside, v h1, reads_depth h1, v h2, reads_depth h2, v h3]
    | like h1 h2 _ _ => simp [outside_append, outside, v h1, reads_depth h1, v h2]
    | isNull h1 _ => simp [outside_append, outside, v h1, reads_depth h1]
    | isNotNull h1 _ => simp [outside_append, outside, v h1, reads_depth h1]
    | not h1 ih => simp [outside, ih (by simp) rfl]
    | test h1 ih => exact ih (by simp) rfl
    | and h1 h2 ih1 ih2 => simp [outside_append, outside, ih1 (by simp) rfl, ih2 (by simp) rfl, reads_depth h1]
    | termB h1 ih => exact ih (by simp) rfl
    | or h1 h2 ih1 ih2 => simp [outside_append, outside, ih1 (by simp) rfl, ih2 (by simp) rfl, reads_depth h1]
    | where_ _ _ => exact absurd rfl hn
    | whereParen _ _ => exact absurd rfl hn
    | _ => simp [isValueNT] at hv

theorem fmt_depth (e : Ex) : depth (fmt e) = 0 := by
  induction e with
  | isNull b e ih => cases b <;> simp [fmt, depth_append, depth_cons, ih, depth_nil]
  | arith op l r ih1 ih2 =>
    rw [fmt, depth_cons, depth_append, depth_aTok, depth_append, ih1, ih2]; simp [depth_cons, depth_nil]
  | logic c l r ih1 ih2 => cases c <;> simp [fmt, depth_append, depth_cons, ih1, ih2, depth_nil]
  | _ => simp_all [fmt, depth_append, depth_cons, depth_nil]

def isCond : Ex → Bool
  | .cmp _ _ _ | .logic _ _ _ | .not _ | .isNull _ _ | .between _ _ _ | .like _ _ => true
  | _ => false

/-- The text of a condition has a token of a condition inside its parentheses. -/
theorem fmt_inside (e : Ex) (h : isCond e = true) (d : Int) (hd : 0 ≤ d) : outside d (fmt e) = false := by
  have h1 : (d + 1 == 0) = false := by
    rw [beq_eq_false_iff_ne]; omega
  cases e with
  | cmp op l r => simp [fmt, outside, outside_append, condTok, fmt_depth, h1]
  | logic c l r => cases c <;> simp [fmt, outside, outside_append, condTok, fmt_depth, h1]
  | not e => simp [fmt, outside, condTok, h1]
  | isNull b e => cases b <;> simp [fmt, outside, outside_append, condTok, fmt_depth, h1]
  | between v a b => simp [fmt, outside, outside_append, condTok, fmt_depth, h1]
  | like v p => simp [fmt, outside, outside_append, condTok, fmt_depth, h1]
  | _ => simp [isCond] at h

/-- No condition that was written is read as a condition: the grammar takes only values in parentheses. -/
theorem C101_fails_condition (e : Ex) (h : isCond e = true) : ¬ ∃ f, Reads .cond (fmt e) f := by
  rintro ⟨f, hf⟩
  have := reads_outside hf (by simp)
  rw [fmt_inside e h 0 (le_refl 0)] at this
  exact absurd this (by simp)

/-- After `WHERE` one pair of parentheses is taken; `and`, `or` of a condition and the negation of a condition are not
read there either. -/
theorem C101_fails_where (e l r : Ex) (c : Bool)
    (h : (e = .logic c l r ∧ (isCond l = true ∨ isCond r = true)) ∨ (e = .not l ∧ isCond l = true)) :
    ¬ ∃ f, Reads .where_ (fmt e) f := by
  rintro ⟨f, hf⟩
  have hc : isCond e = true := by
    rcases h with ⟨rfl, _⟩ | ⟨rfl, _⟩ <;> rfl
  generalize ht : fmt e = t at hf
  cases hf with
  | where_ hf => exact C101_fails_condition e hc ⟨f, ht ▸ hf⟩
  | whereParen hf =>
    rename_i u
    have ho := reads_outside hf (by simp)
    rcases h with ⟨rfl, h⟩ | ⟨rfl, h⟩
    · have hu : u = fmt l ++ (if c then .and else .or) :: fmt r := by
        have h2 : (fmt l ++ (if c then Tok.and else .or) :: fmt r) ++ [Tok.rp] = u ++ [.rp] := by
          simpa [fmt] using ht
        exact (List.append_cancel_right h2).symm
      subst hu
      have hd : (if (if c then Tok.and else .or) = .lp then (1 : Int)
          else if (if c then Tok.and else .or) = .rp then -1 else 0) = 0 := by cases c <;> rfl
      rw [outside_append, outside, hd, fmt_depth] at ho
      simp only [Bool.and_eq_true, add_zero] at ho
      rcases h with h | h
      · rw [fmt_inside l h 0 (le_refl 0)] at ho; simp at ho
      · rw [fmt_inside r h 0 (le_refl 0)] at ho; simp at ho
    · have hu : u = .not :: fmt l := by
        have h2 : (Tok.not :: fmt l) ++ [Tok.rp] = u ++ [.rp] := by simpa [fmt] using ht
        exact (List.append_cancel_right h2).symm
      subst hu
      have := fmt_inside l h 0 (le_refl 0)
      simp [outside, this] at ho

/-- Such a condition is read when it is written without those parentheses. -/
theorem conj_read (a b c d : List (List Char)) :
    Reads .where_ [.name a, .cmp .eq, .name b, .and, .name c, .cmp .eq, .name d]
      (.logic true (.cmp .eq (.name a) (.name b)) (.cmp .eq (.name c) (.name d))) := by
  have v : ∀ p, Reads .value [.name p] (.name p) := fun p => .term (.factor (.unsigned (.name p)))
  exact .where_ (.termB (.and (.test (.cmp .eq (v a) (v b))) (.test (.cmp .eq (v c) (v d)))))

/-! ### Sort items -/

/-- Without an order of nulls, directions typed in upper case are kept. -/
theorem C101_sort_partial (d : Option (List Char)) (h : ∀ x ∈ d, x = "ASC".toList ∨ x = "DESC".toList) :
    SortReads (fmtSort (readSort d none)) (some (d.getD "ASC".toList)) (some "LAST".toList) := by
  have e : fmtSort (readSort d none) = [d.getD "ASC".toList, "NULLS".toList, "LAST".toList] := by
    cases d with
    | none => rfl
    | some x => rcases h x rfl with rfl | rfl <;> rfl
  rw [e]
  refine SortReads.mk (some _) (some _) "NULLS".toList ?_ ?_ (by decide)
  · intro x hx
    obtain rfl := Option.some.inj hx
    cases d with
    | none => left; decide
    | some y =>
      rcases h y rfl with rfl | rfl
      · left; decide
      · right; decide
  · intro x hx
    obtain rfl := Option.some.inj hx
    right; decide

/-- `asc` typed otherwise than in upper case is written as DESC. -/
theorem C101_fails_sort_case (d : List Char) (n : Option (List Char)) (h : d ≠ "ASC".toList) :
    (fmtSort (readSort (some d) n)).head? = some "DESC".toList := by
  have h' : d ≠ ['A', 'S', 'C'] := h
  simp [fmtSort, readSort, h']

example : isWord "ASC" "asc".toList ∧ "asc".toList ≠ "ASC".toList := by decide

/-- So is `nulls first`: it is written as NULLS LAST. -/
theorem C101_fails_nulls_case (d : Option (List Char)) (x : List Char) (h : isWord "FIRST" x) (hx : x ≠ "FIRST".toList) :
    (fmtSort (readSort d (some x))).tail = ["NULLS".toList, "LAST".toList] := by
  have h2 : x ≠ "LAST".toList := by
    rintro rfl; revert h; decide
  have h3 : x ≠ ['F', 'I', 'R', 'S', 'T'] := hx
  have h4 : x ≠ ['L', 'A', 'S', 'T'] := h2
  simp [fmtSort, readSort, h3, h4]

example : isWord "FIRST" "first".toList := by decide

/-- An order of nulls in upper case is written twice, and is not read. -/
theorem C101_fails_nulls_twice (d : Option (List Char)) (x : List Char)
    (h : x = "FIRST".toList ∨ x = "LAST".toList) : ¬ ∃ a b, SortReads (fmtSort (readSort d (some x))) a b := by
  rintro ⟨a, b, hr⟩
  have h5 : (fmtSort (readSort d (some x))).length = 5 := by
    rcases h with rfl | rfl <;> simp [fmtSort, readSort]
  generalize fmtSort (readSort d (some x)) = t at hr h5
  cases hr with
  | mk _ _ n _ _ _ => cases a <;> cases b <;> simp at h5

/-! ### Set operations -/

/-- A union or an intersection is never written: what is joined are not texts. -/
theorem C101_fails_set_operation (word : List Char) (distinct : Bool) (rels : List (List Char)) (h : rels ≠ []) :
    fmtSetOp word distinct rels = .error .typeError := by
  match rels with
  | [] => exact absurd rfl h
  | [a] => rfl
  | a :: b :: r => rfl

end EulerDB.Presto
