/-
C92: the patterns of the parsing library mean what the parsers mean: statements.
-/
import Verif.Regex.Plain

namespace EulerDB.Regex

open EulerDB

/-- A range of characters is read back as these characters (or as all others), unless the greatest of several is the character 6. -/
theorem C92_range_partial {s : List Char} (h : RangeOk s) (ex : Bool) :
    ∃ r, compile (regexRange s ex) = some r ∧ ∀ t, r.den t = match t with | [] => [] | c :: k => if decide (c ∈ s) = ex then [] else [k] :=
  ⟨_, compile_reads (reads_atom (regexRange_starts h.1 ex) (readAtom_range h ex)) rfl, den_range h ex⟩

/-- If several characters are given and the greatest is the character 6, it is not matched. -/
theorem C92_fails_range {s : List Char} (hl : s.length ≠ 1) (h6 : Char.ofNat 6 ∈ s) (hle : ∀ c ∈ s, c.toNat ≤ 6) {r : Re} (hr : compile (regexRange s false) = some r) :
    r.den [Char.ofNat 6] = [] := by
  have hne : s ≠ [] := fun h => by rw [h] at h6; cases h6
  have hasc := charSet_asc s
  have hany : (rangeSet s).any (inItem (Char.ofNat 6)) = false := by
    rw [rangeSet_many hl]
    cases hs : charSet s with
    | nil => rfl
    | cons p l =>
      rw [hs] at hasc
      rw [List.cons_append, rangeItems]
      refine rangeItems_six l none p hasc (by simp) ?_
      have h6' : Char.ofNat 6 ∈ p :: l := by rw [← hs]; exact mem_charSet.2 h6
      have hm := List.getLast_mem (l := p :: l) (by simp)
      have h1 : ((p :: l).getLast (by simp)).toNat ≤ 6 := hle _ (mem_charSet.1 (by rw [hs]; exact hm))
      obtain ⟨i, hi, hx⟩ := List.mem_iff_getElem.1 h6'
      rw [List.getLast_eq_getElem] at h1 ⊢
      by_cases hii : i = (p :: l).length - 1
      · simp only [← hii, hx]; decide
      · have := List.pairwise_iff_getElem.1 hasc i ((p :: l).length - 1) hi (by simp) (by omega)
        rw [hx] at this
        have h7 : (Char.ofNat 6).toNat = 6 := by decide
        omega
  rw [regexRange_text hl hne] at hr
  by_cases hn : rangeSet s = []
  · rw [hn] at hr
    have : compile ['[', ']'] = none := by decide +kernel
    simp only [Bool.false_eq_true, if_false, itemsText, List.flatMap_nil, List.nil_append, List.cons_append] at hr
    rw [this] at hr; cases hr
  · have := compile_reads (reads_atom (t := '[' :: (itemsText esc (rangeSet s) ++ [']'])) (a := (.set false (rangeSet s), false)) ⟨'[', _, rfl, by decide⟩ fun k => by
      have := readAtom_class esc_escaper (l := rangeSet s) rangeSet_le hn k
      simpa using this) rfl
    simp only [Bool.false_eq_true, if_false, List.cons_append, List.nil_append] at hr
    rw [this] at hr
    cases hr
    show (Re.set false (rangeSet s)).den [Char.ofNat 6] = []
    simp [Re.den, hany]

/-- A `Char` matches the characters that are included and not excluded. -/
theorem C92_char_partial {inc exc : List Char} (h : RangeOk (charChars inc exc).1) (hne : ∃ c ∈ inc, c ∉ exc) :
    ∃ r, compile (charText inc exc) = some r ∧ ∀ c k, matchRe r (c :: k) = if c ∈ inc ∧ c ∉ exc then some k else none := by
  refine ⟨_, compile_good (e := .char inc exc) h, fun c k => ?_⟩
  unfold matchRe
  rw [den_meaning (.char inc exc) h]
  have hf : ¬ (inc.filter fun d => decide (d ∉ exc)) = [] := by
    obtain ⟨c, h1, h2⟩ := hne
    simp only [List.filter_eq_nil_iff, not_forall]
    exact ⟨c, h1, by simp [h2]⟩
  have hm : (PE.char inc exc).meaning (c :: k) = if charOk inc exc c = true then [k] else [] := rfl
  have hok : charOk inc exc c = decide (c ∈ inc ∧ c ∉ exc) := by unfold charOk; rw [if_neg hf]
  rw [hm, hok]
  by_cases hc : c ∈ inc ∧ c ∉ exc <;> simp [hc]

/-- If every character is excluded, a `Char` matches every character that is not: the included ones no longer matter. -/
theorem C92_fails_char_excluded {inc exc : List Char} (h : RangeOk (charChars inc exc).1) (hall : ∀ c ∈ inc, c ∈ exc) :
    ∃ r, compile (charText inc exc) = some r ∧ ∀ c k, c ∉ exc → matchRe r (c :: k) = some k := by
  refine ⟨_, compile_good (e := .char inc exc) h, fun c k hc => ?_⟩
  unfold matchRe
  rw [den_meaning (.char inc exc) h]
  have hf : (inc.filter fun d => decide (d ∉ exc)) = [] := by
    simp only [List.filter_eq_nil_iff]
    intro a ha
    simp [hall a ha]
  have hm : (PE.char inc exc).meaning (c :: k) = if charOk inc exc c = true then [k] else [] := rfl
  have hok : charOk inc exc c = decide (c ∉ exc) := by unfold charOk; rw [if_pos hf]
  rw [hm, hok]
  simp [hc]

/-- The pattern of a parser compiles, and what it matches is composed of what the elements match. -/
theorem C92_text_partial {e : PE} (h : e.Good) : ∃ r, compile e.regex.2 = some r ∧ ∀ s, r.den s = e.meaning s :=
  ⟨_, compile_good h, den_meaning e h⟩

/-- A repetition of a repetition does not compile. -/
theorem C92_fails_text_repeat {e : PE} (h : e.Good) (hr : e.isRep = false) {lo lo' : Nat} {hi hi' : Option Nat} (hb : below hi lo = false) (hs : ¬ (lo = 1 ∧ hi = some 1)) (hs' : ¬ (lo' = 1 ∧ hi' = some 1)) :
    compile (PE.many (.many e lo hi) lo' hi').regex.2 = none := by
  obtain ⟨m, hm, hrd⟩ := reads_rep ((sound e h).unitReads hr) hb hs
  obtain ⟨d, r, hd, h1, h2, h3⟩ := suffix_head hs'
  have e1 : (PE.many (.many e lo hi) lo' hi').regex.2 = (iso e.regex .unit ++ suffix lo hi) ++ suffix lo' hi' := by
    simp [PE.regex, iso]
  have hrep := readRep_suffix hs' []
  rw [e1]
  unfold compile
  have hl : ((iso e.regex .unit ++ suffix lo hi) ++ suffix lo' hi').length = (((iso e.regex .unit ++ suffix lo hi) ++ suffix lo' hi').length - m - 1 + 1) + m := by
    have : 1 ≤ (suffix lo' hi').length := by rw [hd]; simp
    have h2 : ((iso e.regex .unit ++ suffix lo hi) ++ suffix lo' hi').length = (iso e.regex .unit ++ suffix lo hi).length + (suffix lo' hi').length := List.length_append
    omega
  rw [hl, hrd]
  rw [List.append_nil] at hrep
  rw [hd] at hrep ⊢
  rw [goRead_cons, if_neg h1, if_neg h2, if_neg h3, hrep]
  simp [Frame.add]

/-- Where there is no whitespace, the pattern of a parser matches what the parser finds. -/
theorem C92_found_partial {e : PE} (h : e.Good) (hn : e.NoEmpty) {s s' : List Char} (hp : e.parse id s = some s') : ∃ r, compile e.regex.2 = some r ∧ s' ∈ r.den s :=
  ⟨_, compile_good h, by rw [den_meaning e h]; exact found e h hn s s' hp⟩

/-- A parser that needs no second try finds exactly what its pattern matches. -/
theorem C92_plain_partial {e : PE} (h : e.Good) (hp : e.Plain) : ∃ r, compile e.regex.2 = some r ∧ ∀ s, matchRe r s = e.parse id s :=
  ⟨_, compile_good h, fun s => by unfold matchRe; rw [den_meaning e h]; exact plain_head e h hp s⟩

theorem parse_no {e : PE} (h : e.Good) (ws : List Char → List Char) (s : List Char) : (PE.no e).parse ws s = if e.meaning s = [] then some s else none := by
  simp only [PE.parse]
  rw [compile_no (e := e) h]
  have hd : (Re.ahead true (closeAlts e.alts)).den s = (PE.no e).meaning s := den_meaning (.no e) h s
  dsimp only
  rw [hd]
  simp only [PE.meaning]
  by_cases hc : e.meaning s = [] <;> simp [hc]

/-- `~e` refuses what `e` finds. -/
theorem C92_not_any_found {e : PE} (h : e.Good) (hn : e.NoEmpty) (ws : List Char → List Char) {s s' : List Char} (hp : e.parse id s = some s') : (PE.no e).parse ws s = none := by
  rw [parse_no h, if_neg]
  intro hc
  have := found e h hn s s' hp
  rw [hc] at this; cases this

/-- `~e` refuses exactly what `e` finds, if `e` needs no second try. -/
theorem C92_not_any_partial {e : PE} (h : e.Good) (hp : e.Plain) (ws : List Char → List Char) (s : List Char) :
    (PE.no e).parse ws s = match e.parse id s with | none => some s | some _ => none := by
  rw [parse_no h, ← plain_head e h hp s]
  cases e.meaning s <;> simp

/-! ### Words -/

/-- A word of one kind of characters: the longest run, if it is long enough. -/
theorem C92_word_same {init exc : List Char} (h : RangeOk (charChars init exc).1) {lo : Nat} {hi : Option Nat} (hb : below (bound hi) lo = false) :
    ∃ r, compile (wordText init init exc lo hi) = some r ∧ ∀ s, matchRe r s = runParse (charOk init exc) lo (bound hi) s := by
  have hg : (PE.many (.char init exc) lo (bound hi)).Good := ⟨h, rfl, hb⟩
  refine ⟨closeAlts (PE.many (.char init exc) lo (bound hi)).alts, ?_, fun s => ?_⟩
  · unfold wordText; rw [if_pos rfl]; exact compile_good hg
  · unfold matchRe
    rw [den_meaning _ hg, plain_head _ hg trivial s, many_char_parse]

/-- A word of an initial character and others. -/
theorem C92_word_partial {init body exc : List Char} (hne : body ≠ init) (h : RangeOk (charChars init exc).1) (h' : RangeOk (charChars body exc).1) {lo : Nat} {hi : Option Nat}
    (h1 : hi ≠ some 1) (hlo : 1 ≤ lo) (hb : below hi lo = false) :
    ∃ r, compile (wordText init body exc lo hi) = some r ∧
      ∀ s, matchRe r s = match s with | [] => none | c :: k => if charOk init exc c then runParse (charOk body exc) (lo - 1) (hi.map (· - 1)) k else none := by
  have hbd : bound (hi.map (· - 1)) = hi.map (· - 1) := by
    unfold bound
    rw [if_neg]
    cases hi with
    | none => simp
    | some b =>
      simp only [below, decide_eq_false_iff_not] at hb
      simp only [Option.map_some, Option.some.injEq]
      intro hc
      exact h1 (by congr 1; omega)
  have hb' : below (hi.map (· - 1)) (lo - 1) = false := by
    cases hi with
    | none => rfl
    | some b => simp only [below, decide_eq_false_iff_not, Option.map_some] at hb ⊢; omega
  have hg : (PE.and (.char init exc) (.many (.char body exc) (lo - 1) (hi.map (· - 1)))).Good := ⟨h, h', rfl, hb'⟩
  refine ⟨closeAlts (PE.and (.char init exc) (.many (.char body exc) (lo - 1) (hi.map (· - 1)))).alts, ?_, fun s => ?_⟩
  · unfold wordText; rw [if_neg hne, hbd]; exact compile_good hg
  · unfold matchRe
    rw [den_meaning _ hg, plain_head _ hg ⟨trivial, trivial⟩ s]
    cases s with
    | nil => rfl
    | cons c k =>
      have hp : (PE.and (.char init exc) (.many (.char body exc) (lo - 1) (hi.map (· - 1)))).parse id (c :: k) =
          match (if charOk init exc c = true then some k else none) with
          | none => none
          | some s' => (PE.many (.char body exc) (lo - 1) (hi.map (· - 1))).parse id (if s'.length < (c :: k).length then id s' else s') := rfl
      rw [hp]
      by_cases hc : charOk init exc c = true
      · simp only [hc, if_true]
        have e : (if k.length < (c :: k).length then id k else k) = k := by split <;> rfl
        rw [e, many_char_parse]
      · simp [hc]

/-- A word of exactly one character has no bound, if its initial characters are not its other characters. -/
theorem C92_fails_word_exact {init body exc : List Char} (hne : body ≠ init) (h : RangeOk (charChars init exc).1) (h' : RangeOk (charChars body exc).1) :
    ∃ r, compile (wordText init body exc 1 (some 1)) = some r ∧
      ∀ c w k, charOk init exc c = true → (∀ x ∈ w, charOk body exc x = true) → (∀ x ∈ k.head?, charOk body exc x = false) → matchRe r (c :: (w ++ k)) = some k := by
  have e : wordText init body exc 1 (some 1) = wordText init body exc 1 none := by simp [wordText, hne, bound]
  obtain ⟨r, hr, hm⟩ := C92_word_partial hne h h' (lo := 1) (hi := none) (by simp) (by omega) rfl
  refine ⟨r, by rw [e]; exact hr, fun c w k hc hw hk => ?_⟩
  rw [hm]
  simp only [hc, if_true]
  have ht : (w ++ k).takeWhile (charOk body exc) = w := by
    rw [List.takeWhile_append_of_pos hw]
    cases k with
    | nil => simp
    | cons d k => simp [hk d (by simp)]
  simp [runParse, runOf, ht]

/-- One or more characters that are not given. -/
theorem C92_notin_partial {not : List Char} (h : RangeOk (charSet not)) : ∃ r, compile (notInText not 1 none) = some r ∧ ∀ s, matchRe r s = runParse (fun c => decide (c ∉ not)) 1 none s := by
  have hne : charSet not ≠ [] := h.1
  have hchars : charChars [] not = (charSet not, true) := by simp [charChars, charSet]
  have hg : (PE.many (.char [] not) 1 none).Good := ⟨by show RangeOk (charChars [] not).1; rw [hchars]; exact h, rfl, rfl⟩
  have e : notInText not 1 none = (PE.many (.char [] not) 1 none).regex.2 := by
    have hc : (PE.many (.char [] not) 1 none).regex.2 = charText [] not ++ ['+'] := by simp [PE.regex, iso, suffix]
    have h2 : charText [] not = regexRange (charSet not) true := by rw [charText_eq, hchars]
    rw [hc, h2]
    unfold notInText
    dsimp only
    by_cases hl : (charSet not).length = 1
    · obtain ⟨c, hc⟩ := List.length_eq_one_iff.1 hl
      simp [hc, regexRange]
    · rw [if_neg hl, regexRange_text hl hne, regexRange_text hl hne]
      simp
  refine ⟨_, by rw [e]; exact compile_good hg, fun s => ?_⟩
  unfold matchRe
  rw [den_meaning _ hg, plain_head _ hg trivial s, many_char_parse]
  have : charOk [] not = fun c => decide (c ∉ not) := by funext c; simp [charOk]
  rw [this]

theorem readRep_colon (n : Nat) (k : List Char) : readRep ('{' :: (Text.natStr n ++ ':' :: k)) = none := by
  simp only [readRep, readNum_natStr n (show Char.isDigit ':' = false by decide)]
  rfl

theorem plain_starts {c : Char} (h : c ∉ special) (h2 : c ≠ '\\') : Starts [c] ∧ ∀ k, readAtom ([c] ++ k) = some ((Re.chr c, false), k) := by
  refine ⟨⟨c, [], rfl, fun hc => h ?_⟩, fun k => ?_⟩
  · simp only [special, List.mem_cons, List.not_mem_nil, or_false] at hc ⊢
    tauto
  · simp only [special, List.mem_cons, List.not_mem_nil, or_false, not_or] at h
    have hr := readOne_plain h2 k
    show readAtom (c :: k) = _
    unfold readAtom
    split <;> first
      | (rename_i heq; simp at heq; tauto)
      | (rename_i heq; cases heq)
      | skip
    rw [hr]; rfl

theorem digit_plain {c : Char} (h : c.isDigit = true) : c ∉ special ∧ c ≠ '\\' := by
  constructor
  · intro hc
    simp only [special, List.mem_cons, List.not_mem_nil, or_false] at hc
    rcases hc with h' | h' | h' | h' | h' | h' | h' | h' | h' | h' | h' | h' | h' <;> subst h' <;> exact absurd h (by decide)
  · intro hc; subst hc; exact absurd h (by decide)

/-- A text of plain characters is read as itself. -/
theorem reads_plain : ∀ (l : List Char), (∀ c ∈ l, c ∉ special ∧ c ≠ '\\') → Reads l fun f => f.add (l.map fun c => (Re.chr c, false))
  | [], _ => Reads.nil.congr fun f => by simp [Frame.add]
  | c :: l, h => by
    have h1 := plain_starts (h c (by simp)).1 (h c (by simp)).2
    exact ((reads_atom h1.1 h1.2).comp (reads_plain l fun d hd => h d (by simp [hd]))).congr fun f => by simp [Frame.add]

/-- A brace that begins no repetition is a character. -/
theorem reads_brace (n : Nat) {l : List Char} (h : ∀ c ∈ l, c ∉ special ∧ c ≠ '\\') : Reads ('{' :: (Text.natStr n ++ ':' :: l)) fun f => f.add (('{' :: (Text.natStr n ++ ':' :: l)).map fun c => (Re.chr c, false)) := by
  have hp : ∀ c ∈ Text.natStr n ++ ':' :: l, c ∉ special ∧ c ≠ '\\' := by
    intro c hc
    rcases List.mem_append.1 hc with hc | hc
    · exact digit_plain (Text.natStr_digit hc)
    · rcases List.mem_cons.1 hc with rfl | hc
      · exact ⟨by decide, by decide⟩
      · exact h c hc
  obtain ⟨m, hm, hr⟩ := reads_plain _ hp
  refine ⟨m + 1, by simpa using hm, fun k f st t => ?_⟩
  have e1 : '{' :: (Text.natStr n ++ ':' :: l) ++ t = '{' :: (Text.natStr n ++ ':' :: (l ++ t)) := by simp
  have e2 : Text.natStr n ++ ':' :: (l ++ t) = (Text.natStr n ++ ':' :: l) ++ t := by simp
  have hat : readAtom ('{' :: (Text.natStr n ++ ':' :: (l ++ t))) = some ((Re.chr '{', false), Text.natStr n ++ ':' :: (l ++ t)) := rfl
  rw [e1, show k + (m + 1) = (k + m) + 1 by omega, goRead_cons, if_neg (by decide), if_neg (by decide), if_neg (by decide), readRep_colon]
  dsimp only
  rw [hat]
  dsimp only
  rw [e2, hr]
  simp [Frame.add]

/-- At least two characters (or any other number but one) that are not given: the pattern matches one such character and then the number, in braces. -/
theorem C92_fails_notin {not : List Char} (h : RangeOk (charSet not)) {lo : Nat} (hlo : 2 ≤ lo) :
    ∃ r, compile (notInText not lo none) = some r ∧
      ∀ s, r.den s = match s with | [] => [] | c :: k => if c ∈ not then [] else afterPrefix ('{' :: (Text.natStr lo ++ [':', '}'])) k := by
  have hne : charSet not ≠ [] := h.1
  have e : notInText not lo none = regexRange (charSet not) true ++ ('{' :: (Text.natStr lo ++ ':' :: ['}'])) := by
    unfold notInText
    dsimp only
    rw [if_neg (by omega : ¬ lo = 0), if_neg (by omega : ¬ lo = 1)]
    congr 1
    by_cases hl : (charSet not).length = 1
    · obtain ⟨c, hc⟩ := List.length_eq_one_iff.1 hl
      simp [hc, regexRange]
    · rw [if_neg hl, regexRange_text hl hne, regexRange_text hl hne]
      simp
  have h1 := reads_atom (regexRange_starts hne true) (readAtom_range h true)
  have h2 := reads_brace lo (l := ['}']) (by intro c hc; simp only [List.mem_singleton] at hc; subst hc; exact ⟨by decide, by decide⟩)
  refine ⟨_, by rw [e]; exact compile_reads (h1.comp h2) rfl, fun s => ?_⟩
  show (seqOfPieces ([(Re.set true (rangeSet (charSet not)), false)] ++ (('{' :: (Text.natStr lo ++ ':' :: ['}'])).map fun c => (Re.chr c, false)))).den s = _
  rw [den_pieces_append]
  show ((Re.set true (rangeSet (charSet not))).den s).flatMap _ = _
  rw [den_range h]
  cases s with
  | nil => rfl
  | cons c k =>
    by_cases hc : c ∈ not
    · simp [mem_charSet, hc]
    · simp only [mem_charSet, hc, decide_false, Bool.false_eq_true, if_false, List.flatMap_cons, List.flatMap_nil, List.append_nil]
      exact den_lit _ k

/-! ### Keywords -/

/-- A word in small or capital letters, letter by letter. -/
theorem C92_caseless_partial (lower upper : List Char) : ∃ r, compile (caseless lower upper) = some r ∧ ∀ s, r.den s = (spelled lower upper s).toList :=
  ⟨_, compile_reads (reads_map _ letter reads_letter (lower.zip upper)) rfl, den_letters lower upper⟩

theorem spelled_length : ∀ (lower upper s r : List Char), spelled lower upper s = some r → r.length + min lower.length upper.length = s.length
  | [], _, s, r, h => by simp [spelled] at h; subst h; simp
  | _ :: _, [], s, r, h => by simp [spelled] at h; subst h; simp
  | l :: lower, u :: upper, [], r, h => by simp [spelled] at h
  | l :: lower, u :: upper, c :: s, r, h => by
    simp only [spelled] at h
    split at h
    · have := spelled_length lower upper s r h
      simp only [List.length_cons]
      omega
    · cases h

/-- If the word is longer in capital letters, the pattern does not match the word in capital letters. -/
theorem C92_fails_caseless {lower upper : List Char} (h : lower.length < upper.length) : ∃ r, compile (caseless lower upper) = some r ∧ [] ∉ r.den upper := by
  obtain ⟨r, hr, hd⟩ := C92_caseless_partial lower upper
  refine ⟨r, hr, ?_⟩
  rw [hd]
  intro hc
  cases hs : spelled lower upper upper with
  | none => rw [hs] at hc; cases hc
  | some x =>
    rw [hs] at hc
    simp only [Option.toList_some, List.mem_singleton] at hc
    have := spelled_length _ _ _ _ hs
    rw [← hc] at this
    simp at this
    omega

/-- A keyword is found where it is written and where the word ends. -/
theorem C92_keyword {lower upper ident : List Char} (h : RangeOk ident) : ∃ r, compile (keywordText (caseless lower upper) ident) = some r ∧
    ∀ s, matchRe r s = match spelled lower upper s with | none => none | some k => if wordEnd ident k then some k else none :=
  ⟨_, compile_good (e := .key lower upper ident) h, fun s => by
    unfold matchRe
    rw [den_meaning (.key lower upper ident) h, plain_head (.key lower upper ident) h trivial s]
    rfl⟩

/-- Two keywords, one directly after the other, are nowhere: the pattern of a keyword of two words matches nothing. -/
theorem C92_two_words {lower upper ident lower' upper' ident' : List Char} {l u : Char} (h : RangeOk ident) (h' : RangeOk ident') (hl : l ∈ ident) (hu : u ∈ ident) (hln : l ≠ '\n') (hun : u ≠ '\n')
    (s : List Char) : (PE.and (.key lower upper ident) (.key (l :: lower') (u :: upper') ident')).meaning s = [] := by
  have hg : (PE.and (.key lower upper ident) (.key (l :: lower') (u :: upper') ident')).Good := ⟨h, h'⟩
  have := plain_head _ hg ⟨trivial, trivial⟩ s
  rw [← List.head?_eq_none_iff, this]
  simp only [PE.parse]
  cases spelled lower upper s with
  | none => rfl
  | some r =>
    dsimp only
    cases hw : wordEnd ident r with
    | false => rfl
    | true =>
      simp only [if_true]
      have e : (if r.length < s.length then id r else r) = r := by split <;> rfl
      rw [e]
      cases r with
      | nil => rfl
      | cons c k =>
        have : ¬ (c = l ∨ c = u) := by
          simp only [wordEnd, Bool.or_eq_true, Bool.and_eq_true, decide_eq_true_iff] at hw
          rintro (rfl | rfl)
          · rcases hw with hw | hw
            · exact hw hl
            · exact hln hw.1
          · rcases hw with hw | hw
            · exact hw hu
            · exact hun hw.1
        simp [spelled, this]

/-- `~` of a keyword of two words refuses nothing. -/
theorem C92_fails_two_words {lower upper ident lower' upper' ident' : List Char} {l u : Char} (h : RangeOk ident) (h' : RangeOk ident') (hl : l ∈ ident) (hu : u ∈ ident) (hln : l ≠ '\n') (hun : u ≠ '\n')
    (ws : List Char → List Char) (s : List Char) : (PE.no (.and (.key lower upper ident) (.key (l :: lower') (u :: upper') ident'))).parse ws s = some s := by
  have hg : (PE.and (.key lower upper ident) (.key (l :: lower') (u :: upper') ident')).Good := ⟨h, h'⟩
  rw [parse_no hg, if_pos (C92_two_words h h' hl hu hln hun s)]

end EulerDB.Regex
