/-
C82: the text that is left when the comments are taken out.
-/
import Verif.Strip.Props
import Verif.Rules.Props

namespace EulerDB.Strip

open EulerDB.Lex EulerDB.Group

/-! ### Only blanks are taken off the lines -/

section
variable {off : Char → Bool}

/-- The characters of a text that are no blanks. -/
def solid (off : Char → Bool) (s : List Char) : List Char := s.filter fun c => !off c

theorem solid_append (a b : List Char) : solid off (a ++ b) = solid off a ++ solid off b := List.filter_append ..

theorem solid_dropWhile (s : List Char) : solid off (s.dropWhile off) = solid off s := by
  induction s with
  | nil => rfl
  | cons c r ih =>
    rw [List.dropWhile_cons]
    split
    · rename_i h
      rw [ih, solid, solid, List.filter_cons, h]
      rfl
    · rfl

theorem solid_rstrip (s : List Char) : solid off (rstrip off s) = solid off s := by
  have := solid_dropWhile (off := off) s.reverse
  unfold solid at this
  rw [rstrip, solid, solid, List.filter_reverse, this, List.filter_reverse, List.reverse_reverse]

theorem solid_joinLines (hn : off '\n' = true) : ∀ ls : List (List Char), solid off (joinLines ls) = solid off ls.flatten
  | [] => rfl
  | [l] => by rw [joinLines, List.flatten_cons, List.flatten_nil, List.append_nil]
  | l :: l' :: r => by
    have ih := solid_joinLines hn (l' :: r)
    rw [joinLines, solid_append, List.flatten_cons, solid_append, ← ih]
    · congr 1
      rw [solid, List.filter_cons, hn]
      rfl
    · exact fun h => List.cons_ne_nil _ _ h

theorem quotedTail_append {q : Char} : ∀ {r s rest : List Char}, quotedTail q r = some (s, rest) → r = s ++ rest ∧ s ≠ []
  | [], s, rest, h => by cases h
  | [c], s, rest, h => by
    rw [quotedTail] at h
    split at h
    · cases h; exact ⟨rfl, by simp⟩
    · cases h
  | c :: d :: r, s, rest, h => by
    rw [quotedTail] at h
    split at h
    · cases h; exact ⟨rfl, by simp⟩
    · split at h
      · split at h
        · cases h
        · cases hq : quotedTail q r with
          | none => simp [hq] at h
          | some p =>
            obtain ⟨s1, r1⟩ := p
            simp only [hq] at h
            cases h
            have := quotedTail_append hq
            exact ⟨by rw [this.1]; rfl, by simp⟩
      · cases hq : quotedTail q (d :: r) with
        | none => simp [hq] at h
        | some p =>
          obtain ⟨s1, r1⟩ := p
          simp only [hq] at h
          cases h
          have := quotedTail_append hq
          exact ⟨by rw [this.1]; rfl, by simp⟩

theorem lines_cons (fuel : Nat) (cur : List Char) (c : Char) (r : List Char) : lines (fuel + 1) cur (c :: r) =
    if c = '\r' then
      match r with
      | [] => cur :: lines fuel [] []
      | d :: r' => if d = '\n' then cur :: lines fuel [] r' else cur :: lines fuel [] (d :: r')
    else if c = '\n' then cur :: lines fuel [] r
    else if c = '"' ∨ c = '\'' then
      match quotedTail c r with
      | some (s, rest) => lines fuel (cur ++ c :: s) rest
      | none => lines fuel (cur ++ [c]) r
    else lines fuel (cur ++ [c]) r := by rw [lines.eq_def]; rfl

theorem lines_ne : ∀ (fuel : Nat) (cur s : List Char), lines fuel cur s ≠ []
  | 0, cur, s => by rw [lines]; simp
  | _ + 1, cur, [] => by rw [lines]; simp
  | fuel + 1, cur, c :: r => by
    rw [lines_cons]
    split
    · split
      · simp
      · split <;> simp
    · split
      · simp
      · split
        · split
          · exact lines_ne _ _ _
          · exact lines_ne _ _ _
        · exact lines_ne _ _ _

theorem solid_lines (hn : off '\n' = true) (hr : off '\r' = true) : ∀ (fuel : Nat) (cur s : List Char), s.length < fuel →
    solid off (lines fuel cur s).flatten = solid off (cur ++ s)
  | 0, _, _, h => absurd h (by omega)
  | _ + 1, cur, [], _ => by rw [lines, List.flatten_cons, List.flatten_nil]
  | fuel + 1, cur, c :: r, h => by
    have hc : ∀ {c} (_ : off c = true) (x : List Char), solid off (c :: x) = solid off x := by
      intro c h x
      rw [solid, List.filter_cons, h]; rfl
    simp only [List.length_cons] at h
    rw [lines_cons]
    split
    · rename_i e
      subst e
      rw [solid_append, hc hr]
      split
      · rw [List.flatten_cons, solid_append, solid_lines hn hr fuel [] [] (by simp only [List.length_nil] at h ⊢; omega)]; rfl
      · rename_i d r'
        simp only [List.length_cons] at h
        split
        · rename_i e
          subst e
          rw [List.flatten_cons, solid_append, solid_lines hn hr fuel [] r' (by omega), hc hn]; rfl
        · rw [List.flatten_cons, solid_append, solid_lines hn hr fuel [] (d :: r') (by simp only [List.length_cons]; omega)]; rfl
    · split
      · rename_i e
        subst e
        rw [List.flatten_cons, solid_append, solid_lines hn hr fuel [] r (by omega), solid_append cur, hc hn]; rfl
      · split
        · split
          · rename_i hq
            obtain ⟨e, _⟩ := quotedTail_append hq
            have hl := congrArg List.length e
            rw [List.length_append] at hl
            rw [solid_lines hn hr fuel _ _ (by omega), e]
            simp
          · rw [solid_lines hn hr fuel _ _ (by omega)]
            simp
        · rw [solid_lines hn hr fuel _ _ (by omega)]
          simp

theorem solid_serialize (hn : off '\n' = true) (hr : off '\r' = true) (s : List Char) :
    solid off (serialize off s) = solid off s := by
  have h := solid_lines (off := off) hn hr (s.length + 1) [] s (by omega)
  rw [serialize, solid_joinLines hn, splitLines]
  refine Eq.trans ?_ h
  generalize lines (s.length + 1) [] s = ls
  induction ls with
  | nil => rfl
  | cons l r ih => rw [List.map_cons, List.flatten_cons, List.flatten_cons, solid_append, solid_append, solid_rstrip, ih]

/-! ### Strings -/

/-- A piece of a text: a line feed, a string in quotes, another character. -/
inductive Piece
  | nl
  | str (q : Char) (body : List Char)
  | chr (c : Char)

def Piece.text : Piece → List Char
  | .nl => ['\n']
  | .str q body => q :: (body ++ [q])
  | .chr c => [c]

/-- A string holds neither its quote nor a backslash; another character is neither a quote nor a line break. -/
def Piece.Ok : Piece → Prop
  | .nl => True
  | .str q body => (q = '"' ∨ q = '\'') ∧ q ∉ body ∧ '\\' ∉ body
  | .chr c => c ≠ '"' ∧ c ≠ '\'' ∧ c ≠ '\n' ∧ c ≠ '\r'

def render (ps : List Piece) : List Char := ps.flatMap Piece.text

def atBreak : List Piece → Bool
  | [] => true
  | .nl :: _ => true
  | _ => false

/-- The pieces without the blanks at the ends of the lines. -/
def tidy (off : Char → Bool) : List Piece → List Piece
  | [] => []
  | .nl :: r => .nl :: tidy off r
  | .str q b :: r => .str q b :: tidy off r
  | .chr c :: r => if off c && atBreak (tidy off r) then tidy off r else .chr c :: tidy off r

def strings : List Piece → List (Char × List Char)
  | [] => []
  | .str q b :: r => (q, b) :: strings r
  | _ :: r => strings r

theorem strings_tidy : ∀ ps : List Piece, strings (tidy off ps) = strings ps
  | [] => rfl
  | .nl :: r => by rw [tidy, strings, strings, strings_tidy r] <;> simp
  | .str q b :: r => by rw [tidy, strings, strings, strings_tidy r]
  | .chr c :: r => by
    rw [tidy]
    split
    · rw [strings_tidy r, strings]; simp
    · rw [strings, strings, strings_tidy r] <;> simp

theorem quotedTail_string {q : Char} (hq : q ≠ '\\') : ∀ (body rest : List Char), q ∉ body → '\\' ∉ body →
    quotedTail q (body ++ q :: rest) = some (body ++ [q], rest)
  | [], [], _, _ => by simp [quotedTail]
  | [], d :: r, _, _ => by simp [quotedTail]
  | [c], rest, h1, h2 => by
    have hc : c ≠ q := fun e => h1 (by simp [e])
    have hb : c ≠ '\\' := fun e => h2 (by simp [e])
    have ih := quotedTail_string hq [] rest (by simp) (by simp)
    rw [List.nil_append] at ih
    rw [List.singleton_append, quotedTail, if_neg hc, if_neg hb, ih]
    rfl
  | c :: d :: r, rest, h1, h2 => by
    have hc : c ≠ q := fun e => h1 (by simp [e])
    have hb : c ≠ '\\' := fun e => h2 (by simp [e])
    have ih := quotedTail_string hq (d :: r) rest (fun h => h1 (List.mem_cons_of_mem _ h)) (fun h => h2 (List.mem_cons_of_mem _ h))
    rw [List.cons_append] at ih
    rw [List.cons_append, List.cons_append, quotedTail, if_neg hc, if_neg hb, ih]
    rfl

theorem rstrip_off {c : Char} (h : off c = true) (s : List Char) : rstrip off (s ++ [c]) = rstrip off s := by
  rw [rstrip, rstrip, List.reverse_append, List.reverse_singleton, List.singleton_append, List.dropWhile_cons, if_pos h]

theorem rstrip_on {c : Char} (h : off c = false) (s : List Char) : rstrip off (s ++ [c]) = s ++ [c] := by
  rw [rstrip, List.reverse_append, List.reverse_singleton, List.singleton_append, List.dropWhile_cons, if_neg (by simp [h])]
  simp

/-- What the serializer makes of a line and the pieces after it. -/
theorem joinLines_render (hq : off '"' = false ∧ off '\'' = false) : ∀ (ps : List Piece) (fuel : Nat) (cur : List Char),
    (∀ p ∈ ps, p.Ok) → (render ps).length < fuel →
    joinLines ((lines fuel cur (render ps)).map (rstrip off)) =
      (if atBreak (tidy off ps) then rstrip off cur else cur) ++ render (tidy off ps)
  | _, 0, _, _, h => absurd h (by omega)
  | [], fuel + 1, cur, _, _ => by
    rw [render, List.flatMap_nil, lines, tidy]
    simp [joinLines, atBreak, render]
  | .nl :: r, fuel + 1, cur, hok, h => by
    have e : render (.nl :: r) = '\n' :: render r := rfl
    rw [e, List.length_cons] at h
    have ih := joinLines_render hq r fuel [] (fun p hp => hok p (List.mem_cons_of_mem _ hp)) (by omega)
    rw [e, lines_cons, if_neg (by decide), if_pos rfl, tidy]
    simp only [atBreak, if_true]
    rw [show render (.nl :: tidy off r) = '\n' :: render (tidy off r) from rfl]
    have hr : (if atBreak (tidy off r) = true then rstrip off [] else []) = [] := by split <;> rfl
    rw [hr, List.nil_append] at ih
    rw [← ih, List.map_cons]
    cases hl : lines fuel [] (render r) with
    | nil => exact absurd hl (lines_ne _ _ _)
    | cons a b =>
      rw [List.map_cons, joinLines]
      exact fun h => List.cons_ne_nil _ _ h
  | .str q b :: r, fuel + 1, cur, hok, h => by
    obtain ⟨h1, h2, h3⟩ := hok _ (List.mem_cons_self ..)
    have e : render (.str q b :: r) = q :: (b ++ q :: render r) := by
      simp [render, Piece.text]
    rw [e, List.length_cons, List.length_append, List.length_cons] at h
    have ih := joinLines_render hq r fuel (cur ++ q :: (b ++ [q])) (fun p hp => hok p (List.mem_cons_of_mem _ hp)) (by omega)
    have hne : q ≠ '\r' ∧ q ≠ '\n' ∧ q ≠ '\\' ∧ off q = false := by
      rcases h1 with rfl | rfl
      · exact ⟨by decide, by decide, by decide, hq.1⟩
      · exact ⟨by decide, by decide, by decide, hq.2⟩
    rw [e, lines_cons, if_neg hne.1, if_neg hne.2.1, if_pos h1, quotedTail_string hne.2.2.1 _ _ h2 h3]
    simp only
    rw [ih, tidy, ← List.cons_append, ← List.append_assoc, rstrip_on hne.2.2.2]
    simp [atBreak, render, Piece.text]
  | .chr c :: r, fuel + 1, cur, hok, h => by
    obtain ⟨h1, h2, h3, h4⟩ := hok _ (List.mem_cons_self ..)
    have e : render (.chr c :: r) = c :: render r := rfl
    rw [e, List.length_cons] at h
    have ih := joinLines_render hq r fuel (cur ++ [c]) (fun p hp => hok p (List.mem_cons_of_mem _ hp)) (by omega)
    rw [e, lines_cons, if_neg h4, if_neg h3, if_neg (by simp [h1, h2]), ih, tidy]
    cases hb : atBreak (tidy off r) with
    | false => simp [render, Piece.text, atBreak]
    | true =>
      cases ho : off c with
      | true => simp [rstrip_off ho, hb]
      | false => simp [rstrip_on ho, atBreak, render, Piece.text]

/-- Where strings are closed and hold no backslash, the serializer takes off the blanks at the ends of the lines and nothing
else; the strings stay as they are. -/
theorem C82_strings_kept_partial (hq : off '"' = false ∧ off '\'' = false) {ps : List Piece} (h : ∀ p ∈ ps, p.Ok) :
    serialize off (render ps) = render (tidy off ps) ∧ strings (tidy off ps) = strings ps := by
  refine ⟨?_, strings_tidy ps⟩
  rw [serialize, splitLines, joinLines_render hq ps _ [] h (by omega)]
  split <;> rfl

theorem lines_one : ∀ (fuel : Nat) (cur s : List Char), s.length < fuel → (∀ c ∈ s, isBreak c = false) →
    lines fuel cur s = [cur ++ s]
  | 0, _, _, h, _ => absurd h (by omega)
  | _ + 1, cur, [], _, _ => by rw [lines, List.append_nil]
  | fuel + 1, cur, c :: r, h, hb => by
    have hc := hb c (List.mem_cons_self ..)
    simp only [isBreak, Bool.or_eq_false_iff, beq_eq_false_iff_ne] at hc
    have hb' : ∀ c ∈ r, isBreak c = false := fun c h => hb c (List.mem_cons_of_mem _ h)
    simp only [List.length_cons] at h
    rw [lines_cons, if_neg hc.1, if_neg hc.2]
    split
    · split
      · rename_i hq
        obtain ⟨e, _⟩ := quotedTail_append hq
        subst e
        rw [List.length_append] at h
        rw [lines_one fuel _ _ (by omega) (fun c h => hb' c (List.mem_append_right _ h))]
        simp
      · rw [lines_one fuel _ _ (by omega) hb']
        simp
    · rw [lines_one fuel _ _ (by omega) hb']
      simp

/-- Of a text in one line only the blanks at the end are taken off. -/
theorem C82_one_line_partial {s : List Char} (h : ∀ c ∈ s, isBreak c = false) : serialize off s = rstrip off s := by
  rw [serialize, splitLines, lines_one _ _ _ (by omega) h]
  rfl

/-! ### The whole text -/

theorem lineBreaks_off (hn : off '\n' = true) (hr : off '\r' = true) : ∀ {v b : List Char}, lineBreaks v = some b →
    ∀ c ∈ b, off c = true
  | [], b, h => by cases h
  | c :: r, b, h => by
    rw [lineBreaks] at h
    split at h
    · cases h
      intro x hx
      have : isBreak x = true := by
        have := List.all_takeWhile (p := isBreak) (l := c :: r)
        exact List.all_eq_true.1 this x hx
      simp only [isBreak, Bool.or_eq_true, beq_iff_eq] at this
      rcases this with rfl | rfl
      · exact hr
      · exact hn
    · exact lineBreaks_off hn hr h

theorem solid_off {s : List Char} (h : ∀ c ∈ s, off c = true) : solid off s = [] := by
  rw [solid, List.filter_eq_nil_iff]
  intro c hc
  simp [h c hc]

theorem solid_insert (hn : off '\n' = true) (hr : off '\r' = true) (hs : off ' ' = true) (v : List Char) :
    solid off (insertToken v).value = [] := by
  unfold insertToken
  cases h : lineBreaks v with
  | some b => exact solid_off (lineBreaks_off hn hr h)
  | none =>
    refine solid_off ?_
    intro c hc
    rcases List.mem_singleton.1 hc with rfl
    exact hs

theorem Stripped.solid {l l' : List Tok} (hn : off '\n' = true) (hr : off '\r' = true) (hs : off ' ' = true)
    (h : Stripped l l') : (∀ x ∈ l, isGap x = true → ∀ c ∈ x.value, off c = true) →
    solid off (l'.flatMap Tok.value) = Strip.solid off ((l.filter isWord).flatMap Tok.value) := by
  induction h with
  | nil => intro _; rfl
  | keep t ht _ ih =>
    intro hg
    have ih := ih fun x hx => hg x (List.mem_cons_of_mem _ hx)
    rw [List.flatMap_cons, solid_append, ih, List.filter_cons]
    split
    · rw [List.flatMap_cons, solid_append]
    · rename_i hw
      have : isGap t = true := by
        simpa [isWord, ht] using hw
      rw [solid_off (hg t (List.mem_cons_self ..) this), List.nil_append]
  | gone hc _ ih =>
    intro hg
    rw [ih fun x hx => hg x (List.mem_append_right _ hx), List.filter_append, hc.words, List.nil_append]
  | blank hc _ ih =>
    intro hg
    rw [List.flatMap_cons, solid_append, solid_insert hn hr hs, ih fun x hx => hg x (List.mem_append_right _ hx),
      List.filter_append, hc.words, List.nil_append, List.nil_append]

/-- The blanks among the tokens. -/
def BlankOk (off : Char → Bool) (l : List Token) : Prop := ∀ a ∈ l, isSpace a = true → ∀ c ∈ a.value, off c = true

theorem solid_statement (hn : off '\n' = true) (hr : off '\r' = true) (hs : off ' ' = true) {l : List Token} (hb : BlankOk off l) :
    ∃ out, formatStatement off l = .ok out ∧ solid off out = solid off ((l.filter word).flatMap Token.value) := by
  obtain ⟨t, t', h1, h2, _, _, h3, h4⟩ := group_stripped l
  refine ⟨serialize off (text t'), by rw [formatStatement, h1]; simp only [h2], ?_⟩
  rw [solid_serialize hn hr, text, h4.solid hn hr hs]
  · congr 1
    clear h1 h2 h4 hb
    have h5 := f2_filter h3 fun a b h => h.kinds.2.2.1
    generalize (leaves t).filter isWord = m at h5
    generalize l.filter word = k at h5
    induction h5 with
    | nil => rfl
    | cons hab _ ih => rw [List.flatMap_cons, List.flatMap_cons, ih, hab.kinds.2.2.2]
  · clear h1 h2 h4
    intro x hx hg
    generalize leaves t = m at h3 hx
    induction h3 with
    | nil => cases hx
    | cons hab _ ih =>
      rcases List.mem_cons.1 hx with rfl | hx
      · rw [hab.kinds.2.2.2]
        exact hb _ (List.mem_cons_self ..) (by rw [← hab.kinds.2.1]; exact hg)
      · exact ih (fun a ha => hb a (List.mem_cons_of_mem _ ha)) hx

theorem solid_all (hn : off '\n' = true) (hr : off '\r' = true) (hs : off ' ' = true) : ∀ ls : List (List Token),
    (∀ l ∈ ls, BlankOk off l) → ∃ out, formatAll off ls = .ok out ∧
      solid off out = solid off ((ls.flatten.filter word).flatMap Token.value)
  | [], _ => ⟨[], rfl, rfl⟩
  | l :: r, h => by
    obtain ⟨o1, h1, h2⟩ := solid_statement hn hr hs (h l (List.mem_cons_self ..))
    obtain ⟨o2, h3, h4⟩ := solid_all hn hr hs r fun l hl => h l (List.mem_cons_of_mem _ hl)
    refine ⟨o1 ++ o2, ?_, ?_⟩
    · rw [formatAll, h1]
      simp only [h3]
    · rw [solid_append, h2, h4, List.flatten_cons, List.filter_append, List.flatMap_append, solid_append]

theorem solid_spaces {tail : List Token} (hb : BlankOk off tail) (ht : tail.all isSpace = true) :
    solid off (tail.flatMap Token.value) = [] := by
  refine solid_off ?_
  intro c hc
  obtain ⟨a, ha, hc⟩ := List.mem_flatMap.1 hc
  exact hb a ha (List.all_eq_true.1 ht a ha) c hc

theorem solid_word {l : List Token} (hb : BlankOk off l) : solid off ((l.filter word).flatMap Token.value) =
    solid off ((l.filter fun a => !remark a).flatMap Token.value) := by
  induction l with
  | nil => rfl
  | cons a r ih =>
    have ih := ih fun a ha => hb a (List.mem_cons_of_mem _ ha)
    rw [List.filter_cons, List.filter_cons, word]
    cases hr : remark a with
    | true => simpa using ih
    | false =>
      cases hs : isSpace a with
      | false =>
        simp only [Bool.not_false, Bool.and_self, if_true, List.flatMap_cons, solid_append, ih]
      | true =>
        simp only [Bool.not_false, Bool.not_true, Bool.and_false, if_true, List.flatMap_cons, solid_append,
          solid_off (hb a (List.mem_cons_self ..) hs), List.nil_append]
        simpa using ih

end

/-! ### With the rules of the lexer -/

open EulerDB.Rules in
theorem space_rules_blank : ∀ e ∈ entries, ∀ ty ∈ e.2, isIn ty Whitespace = true →
    e.1 = eol ∨ e.1 = .seq (.chr .space) (.lazy (.chr .space)) := by decide +kernel

open EulerDB.Rules in
theorem firstMatch_rule {k : Classes} {kw : List Char → TType} {b a : List Char} {n : Nat} {act : List Char → TType}
    (h : firstMatch (rules k kw) b a = some (n, act)) : ∃ e ∈ entries, e.1.match' k b a = some n ∧
      act = fun v => match e.2 with | some ty => ty | none => kw v := by
  rw [rules] at h
  generalize entries = es at h
  induction es with
  | nil => cases h
  | cons e r ih =>
    rw [List.map_cons, firstMatch] at h
    simp only at h
    cases hm : e.1.match' k b a with
    | none =>
      rw [hm] at h
      obtain ⟨e', h1, h2⟩ := ih h
      exact ⟨e', List.mem_cons_of_mem _ h1, h2⟩
    | some m =>
      rw [hm] at h
      cases h
      exact ⟨e, List.mem_cons_self .., hm, rfl⟩

open EulerDB.Rules in
theorem lexFrom_blanks {k : Classes} (hk : k.Ok) {kw : List Char → TType} (hkw : KwOk kw) : ∀ (n : Nat) (b a : List Char)
    (l : List Token), a.length ≤ n → (∃ m, lexFrom (rules k kw) m b a = .ok l) → BlankOk k.space l
  | _, b, [], l, _, ⟨m, h⟩ => by
    have : l = [] := by cases m <;> (rw [lexFrom] at h; cases h; rfl)
    subst this
    intro a ha
    cases ha
  | 0, b, c :: t, l, hl, _ => absurd hl (by simp)
  | n + 1, b, c :: t, l, hl, ⟨m, h⟩ => by
    obtain ⟨v, a', ty, l', m', h1, h2, rfl, h3, h4⟩ := lexFrom_step (rules_positive k kw) h
    have hlen : a'.length ≤ n := by
      have := congrArg List.length h1
      rw [List.length_append] at this
      have hv : 0 < v.length := List.length_pos_iff.2 h2
      simp only [List.length_cons] at this hl
      omega
    have ih := lexFrom_blanks hk hkw n _ _ _ hlen ⟨_, h3⟩
    intro x hx hs
    rcases List.mem_cons.1 hx with rfl | hx
    · rcases h4 with ⟨_, rfl, _⟩ | ⟨p, act, h5, h6, h7⟩
      · cases hs
      · obtain ⟨e, he, h8, h9⟩ := firstMatch_rule h5
        rw [h9] at h7
        cases hty : e.2 with
        | none =>
          simp only [hty] at h7
          subst h7
          rw [isSpace, (hkw v).1] at hs
          cases hs
        | some ty' =>
          simp only [hty] at h7
          subst h7
          have := space_of_blank hk (space_rules_blank e he ty (by rw [hty]; rfl) hs) h8
          intro y hy
          exact this y (by rw [← h6]; exact hy)
    · exact ih x hx hs

open EulerDB.Rules in
/-- Taking the comments out raises for no text, and keeps, in their order, all characters that are no blanks and stand in no
comment. -/
theorem C82_characters_kept {k : Classes} (hk : k.Ok) {kw : List Char → TType} (hkw : KwOk kw) (sql : List Char) :
    ∃ l out, lex (rules k kw) sql = .ok l ∧ format (rules k kw) k.space sql = .ok out ∧
      solid k.space out = solid k.space ((l.filter fun a => !remark a).flatMap Token.value) := by
  obtain ⟨l, hl⟩ := C44_tokens_total (rules_positive k kw) sql
  have hn : k.space '\n' = true := by rw [hk.space _ (by decide)]; decide
  have hr : k.space '\r' = true := by rw [hk.space _ (by decide)]; decide
  have hs : k.space ' ' = true := by rw [hk.space _ (by decide)]; decide
  have hb : BlankOk k.space l := lexFrom_blanks hk hkw _ _ _ _ (Nat.le_refl _) ⟨_, hl⟩
  obtain ⟨tail, h1, h2⟩ := C44_statements_make_stream l
  have hmem : ∀ st ∈ split l, ∀ a ∈ st, a ∈ l := by
    intro st hst a ha
    rw [← h1]
    exact List.mem_append_left _ (List.mem_flatten.2 ⟨st, hst, ha⟩)
  obtain ⟨out, h3, h4⟩ := solid_all hn hr hs (split l) fun st hst a ha => hb a (hmem st hst a ha)
  refine ⟨l, out, hl, by rw [format, hl]; exact h3, ?_⟩
  rw [h4, ← solid_word hb]
  have ht : BlankOk k.space tail := fun a ha => hb a (by rw [← h1]; exact List.mem_append_right _ ha)
  have hw : tail.filter word = [] := by
    rw [List.filter_eq_nil_iff]
    intro a ha
    simp [word, List.all_eq_true.1 h2 a ha]
  conv_rhs => rw [← h1, List.filter_append, hw, List.append_nil]

end EulerDB.Strip
