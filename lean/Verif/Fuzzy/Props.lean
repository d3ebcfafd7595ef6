import Verif.Fuzzy.Lemmas2

/-!
# Properties C08, C09, C51: fuzzy search

`like p s` is MySQL's LIKE; `fuzzyEncrypt` makes the stored ciphertext, `likeRewrite` the pattern the proxy sends.
`alnum` is Python's class of alphanumeric characters; only `'\0'.isalnum() == False` is used.
Patterns are `%`-separated words without `_` and backslash.
-/

namespace EulerDB.Fuzzy

open EulerDB EulerDB.Aes

/-- The words of a pattern. -/
def words (p : List Char) : List (List Char) := (splitPct p).filter (· ≠ [])

/-- A pattern the property speaks about: no `_`, no backslash. -/
def PlainPattern (p : List Char) : Prop := ∀ c ∈ p, c ≠ '_' ∧ c ≠ '\\'

instance (p) : Decidable (PlainPattern p) := inferInstanceAs (Decidable (∀ c ∈ p, _))

theorem mem_words {p w : List Char} : w ∈ words p ↔ w ∈ splitPct p ∧ w ≠ [] := by simp [words]

/-- The proxy accepts exactly the patterns whose words have at least three characters. -/
theorem C08_pattern_accepted_iff (alnum : Char → Bool) (A : Block) (p : List Char) :
    (∃ p', likeRewrite alnum A p = .ok p') ↔ ∀ w ∈ words p, 3 ≤ w.length := by
  constructor
  · rintro ⟨p', hp⟩ w hw
    unfold likeRewrite at hp
    split at hp
    · cases hp
    · rename_i ws hws
      obtain ⟨h1, _⟩ := encWords_eq alnum A _ _ hws
      obtain ⟨h2, h3⟩ := mem_words.1 hw
      exact (h1 w h2).resolve_left h3
  · intro h
    obtain ⟨r, hr⟩ := encWords_ok alnum A (splitPct p) (by
      intro w hw
      by_cases h0 : w = []
      · exact Or.inl h0
      · exact Or.inr (h w (mem_words.2 ⟨hw, h0⟩)))
    exact ⟨_, by unfold likeRewrite; rw [hr]⟩

theorem rewrite_words {alnum : Char → Bool} {A : Block} {p p' : List Char} (hp : likeRewrite alnum A p = .ok p') :
    ∀ w ∈ splitPct p, w = [] ∨ 3 ≤ w.length := by
  intro w hw
  by_cases h0 : w = []
  · exact Or.inl h0
  · exact Or.inr ((C08_pattern_accepted_iff alnum A p).1 ⟨p', hp⟩ w (mem_words.2 ⟨hw, h0⟩))

/-- **C08, partial.** A stored string that matches the pattern is found, for every key, every number of words, provided the
stored string is alphanumeric or no word of the pattern is.  Missing: a mixed stored string searched by an alphanumeric word
(`C08_fails_mixed`). -/
theorem C08_no_false_negatives_partial (alnum : Char → Bool) (hN : alnum '\x00' = false) (A : Block)
    (p p' s e : List Char) (hplain : PlainPattern p)
    (hp : likeRewrite alnum A p = .ok p') (he : fuzzyEncrypt alnum A s = .ok e)
    (hcls : strAlnum alnum s = true ∨ ∀ w ∈ words p, strAlnum alnum w = false)
    (hm : like p s = true) : like p' e = true := by
  rw [like_rewritten alnum hN A p p' s e hp he]
  have hws := rewrite_words hp
  rw [like_iff_segMatch p s hplain] at hm
  have hinf := segMatch_infix _ _ hm
  -- every word has the class of the text
  have hsame : ∀ w ∈ splitPct p, w ≠ [] → gramSize alnum w = gramSize alnum s := by
    intro w hw h0
    unfold gramSize
    have : strAlnum alnum w = strAlnum alnum s := by
      obtain ⟨x, y, hxy⟩ := hinf w hw
      by_cases ha : strAlnum alnum s = true
      · rw [ha]
        unfold strAlnum
        simp only [Bool.and_eq_true, Bool.not_eq_true', List.isEmpty_eq_false_iff, List.all_eq_true]
        refine ⟨h0, fun c hc => strAlnum_mem ha c ?_⟩
        rw [hxy]; simp [hc]
      · rw [(hcls.resolve_left ha) w (mem_words.2 ⟨hw, h0⟩)]
        simpa using ha
    rw [this]
  by_cases hl : s.length < gramSize alnum s
  · -- a short text: all words are empty
    have hempty : ∀ w ∈ splitPct p, w = [] := by
      intro w hw
      rcases hws w hw with h | h
      · exact h
      · obtain ⟨x, y, hxy⟩ := hinf w hw
        have := congrArg List.length hxy
        simp only [List.length_append] at this
        unfold gramSize at hl; split at hl <;> omega
    have htok : toks alnum [] = [] := by simp [toks, gramSize, strAlnum]
    by_cases h2 : 2 ≤ (splitPct p).length
    · apply segMatch_empties
      · intro t ht
        simp only [List.mem_map] at ht
        obtain ⟨w, hw, rfl⟩ := ht
        rw [hempty w hw, htok]
      · simpa using h2
    · have : ∃ w, splitPct p = [w] := by
        match hsp : splitPct p with
        | [] => exact absurd hsp (splitPct_ne_nil p)
        | [w] => exact ⟨w, rfl⟩
        | a :: b :: c => rw [hsp] at h2; simp at h2
      obtain ⟨w, hw⟩ := this
      rw [hw] at hm ⊢
      simp only [segMatch] at hm
      subst hm
      simp [segMatch]
  · have h1 : toks alnum s = grams (gramSize alnum s) s := by unfold toks; rw [if_neg hl]
    have h2 : (splitPct p).map (toks alnum) = (splitPct p).map (grams (gramSize alnum s)) := by
      apply List.map_congr_left
      intro w hw
      rw [toks_word w (hws w hw)]
      by_cases h0 : w = []
      · subst h0
        rw [grams_short, grams_short] <;> (unfold gramSize; split <;> simp)
      · rw [hsame w hw h0]
    rw [h1, h2]
    apply segMatch_grams _ _ _ _ _ hm
    · unfold gramSize; split <;> omega
    · intro w hw
      rcases hws w hw with h | h
      · exact Or.inl h
      · right; unfold gramSize; split <;> omega

/-- **C08 fails.** If the stored string has a character that is not alphanumeric and a word of the pattern is alphanumeric, the stored
string is never found, for every key, even when it matches. -/
theorem C08_fails_mixed (alnum : Char → Bool) (hN : alnum '\x00' = false) (A : Block) (p p' s e : List Char)
    (hp : likeRewrite alnum A p = .ok p') (he : fuzzyEncrypt alnum A s = .ok e)
    (hs : strAlnum alnum s = false) (w : List Char) (hw : w ∈ words p) (hwa : strAlnum alnum w = true) :
    like p' e = false := by
  by_contra hc
  rw [Bool.not_eq_false, like_rewritten alnum hN A p p' s e hp he] at hc
  obtain ⟨hw1, hw2⟩ := mem_words.1 hw
  have hl := (rewrite_words hp w hw1).resolve_left hw2
  obtain ⟨x, y, hxy⟩ := segMatch_infix _ _ hc (toks alnum w) (List.mem_map_of_mem hw1)
  obtain ⟨pre, post, rfl, _, _⟩ := toks_infix w s hl x y hxy
  -- all tokens of the text have length 2, those of the word length 3
  have hg : ∃ g, g ∈ toks alnum w := by
    rw [toks_word w (Or.inr hl)]
    apply List.exists_mem_of_length_pos
    rw [grams_length]; unfold gramSize; split <;> omega
  obtain ⟨g, hg⟩ := hg
  have h3 : g.length = 3 := by
    rw [toks_word w (Or.inr hl)] at hg
    have := grams_mem_length hg
    rw [this]; unfold gramSize; rw [if_pos hwa]
  have hgs : g ∈ toks alnum (pre ++ (w ++ post)) := by rw [hxy]; simp [hg]
  rcases toks_length_cases (alnum := alnum) (pre ++ (w ++ post)) with ⟨h, _, _⟩ | ⟨_, _, e'⟩ | ⟨_, _, e2⟩
  · rw [hs] at h; cases h
  · rw [e'] at hgs
    have := grams_mem_length hgs
    omega
  · have := e2 g hgs
    omega

/-- The witness: "hello world" LIKE "%world%" holds, and the rewritten search does not find it. -/
theorem C08_fails_hello_world (alnum : Char → Bool) (hN : alnum '\x00' = false) (hsp : alnum ' ' = false)
    (hw : ∀ c ∈ "world".toList, alnum c = true) (A : Block) :
    like "%world%".toList "hello world".toList = true ∧
    ∃ p' e, likeRewrite alnum A "%world%".toList = .ok p' ∧ fuzzyEncrypt alnum A "hello world".toList = .ok e ∧
      like p' e = false := by
  have hwords : words "%world%".toList = ["world".toList] := by decide
  refine ⟨by decide, ?_⟩
  obtain ⟨p', hp'⟩ := (C08_pattern_accepted_iff alnum A "%world%".toList).2 (by rw [hwords]; decide)
  refine ⟨p', _, hp', fuzzyEncrypt_eq alnum A _, ?_⟩
  apply C08_fails_mixed alnum hN A _ p' _ _ hp' (fuzzyEncrypt_eq alnum A _) _ "world".toList
  · rw [hwords]; simp
  · unfold strAlnum
    simp only [Bool.and_eq_true, List.all_eq_true]
    exact ⟨by decide, hw⟩
  · unfold strAlnum
    simp only [Bool.and_eq_false_iff, List.all_eq_false]
    exact Or.inr ⟨' ', by decide, by simp [hsp]⟩

/-- **C09, partial.** For a pattern with one word, whatever is found matches, for every key and every stored string.  Missing: patterns
with two or more words (`C09_fails_overlap`, `C09_every_word_occurs_partial`). -/
theorem C09_no_false_positives_partial (alnum : Char → Bool) (hN : alnum '\x00' = false) (A : Block)
    (p p' s e w : List Char) (hplain : PlainPattern p) (hone : words p = [w])
    (hp : likeRewrite alnum A p = .ok p') (he : fuzzyEncrypt alnum A s = .ok e)
    (hm : like p' e = true) : like p s = true := by
  rw [like_rewritten alnum hN A p p' s e hp he] at hm
  rw [like_iff_segMatch p s hplain]
  have hmem := mem_words.1 (by rw [hone]; simp : w ∈ words p)
  have hl := (rewrite_words hp w hmem.1).resolve_left hmem.2
  -- the split is empty words, w, empty words
  have hsplit : ∃ a b, splitPct p = a ++ w :: b ∧ (∀ v ∈ a, v = []) ∧ (∀ v ∈ b, v = []) := by
    unfold words at hone
    generalize splitPct p = l at hone
    clear hmem hm hp
    induction l with
    | nil => simp at hone
    | cons v l ih =>
      by_cases hv : v = []
      · rw [List.filter_cons_of_neg (by simpa using hv)] at hone
        obtain ⟨a, b, rfl, ha, hb⟩ := ih hone
        exact ⟨v :: a, b, rfl, by simpa [hv] using ha, hb⟩
      · rw [List.filter_cons_of_pos (by simpa using hv)] at hone
        injection hone with h1 h2
        subst h1
        refine ⟨[], l, rfl, by simp, ?_⟩
        intro u hu
        by_contra h0
        have : u ∈ l.filter (· ≠ []) := by simp [hu, h0]
        rw [h2] at this; simp at this
  obtain ⟨a, b, hab, ha, hb⟩ := hsplit
  have htok : toks alnum [] = [] := by simp [toks, gramSize, strAlnum]
  rw [hab, List.map_append, List.map_cons, segMatch_single_word] at hm
  · obtain ⟨x, y, hxy, hx, hy⟩ := hm
    obtain ⟨pre, post, rfl, h1, h2⟩ := toks_infix w s hl x y hxy
    rw [hab, segMatch_single_word w a b _ ha hb]
    refine ⟨pre, post, rfl, ?_, ?_⟩
    · intro h
      have := hx (by simp [h]); subst this
      exact List.length_eq_zero_iff.1 h1
    · intro h
      have := hy (by simp [h]); subst this
      exact List.length_eq_zero_iff.1 h2
  · intro v hv
    simp only [List.mem_map] at hv
    obtain ⟨u, hu, rfl⟩ := hv
    rw [ha u hu, htok]
  · intro v hv
    simp only [List.mem_map] at hv
    obtain ⟨u, hu, rfl⟩ := hv
    rw [hb u hu, htok]

/-- **C09, partial.** For any number of words, every word of the pattern occurs in whatever is found. -/
theorem C09_every_word_occurs_partial (alnum : Char → Bool) (hN : alnum '\x00' = false) (A : Block)
    (p p' s e : List Char) (hp : likeRewrite alnum A p = .ok p') (he : fuzzyEncrypt alnum A s = .ok e)
    (hm : like p' e = true) : ∀ w ∈ words p, w <:+: s := by
  intro w hw
  rw [like_rewritten alnum hN A p p' s e hp he] at hm
  obtain ⟨hw1, hw2⟩ := mem_words.1 hw
  have hl := (rewrite_words hp w hw1).resolve_left hw2
  obtain ⟨x, y, hxy⟩ := segMatch_infix _ _ hm (toks alnum w) (List.mem_map_of_mem hw1)
  obtain ⟨pre, post, rfl, _, _⟩ := toks_infix w s hl x y hxy
  exact ⟨pre, post, by simp⟩

/-- **C09 fails.** For every key, a search for "%abc%bcd%" finds "abcd", which does not match: the two words overlap in it. -/
theorem C09_fails_overlap (alnum : Char → Bool) (hN : alnum '\x00' = false)
    (ha : ∀ c ∈ "abcd".toList, alnum c = true) (A : Block) :
    like "%abc%bcd%".toList "abcd".toList = false ∧
    ∃ p' e, likeRewrite alnum A "%abc%bcd%".toList = .ok p' ∧ fuzzyEncrypt alnum A "abcd".toList = .ok e ∧
      like p' e = true := by
  refine ⟨by decide, ?_⟩
  have hwords : words "%abc%bcd%".toList = ["abc".toList, "bcd".toList] := by decide
  obtain ⟨p', hp'⟩ := (C08_pattern_accepted_iff alnum A "%abc%bcd%".toList).2 (by rw [hwords]; decide)
  refine ⟨p', _, hp', fuzzyEncrypt_eq alnum A _, ?_⟩
  rw [like_rewritten alnum hN A _ p' _ _ hp' (fuzzyEncrypt_eq alnum A _)]
  have hsub : ∀ w : List Char, w ≠ [] → (∀ c ∈ w, c ∈ "abcd".toList) → strAlnum alnum w = true := by
    intro w h0 hw
    unfold strAlnum
    simp only [Bool.and_eq_true, Bool.not_eq_true', List.isEmpty_eq_false_iff, List.all_eq_true]
    exact ⟨h0, fun c hc => ha c (hw c hc)⟩
  have t1 : toks alnum "abcd".toList = ["abc".toList, "bcd".toList] := by
    have : gramSize alnum "abcd".toList = 3 := by
      unfold gramSize; rw [if_pos (hsub _ (by decide) (by decide))]
    unfold toks; rw [this]; decide
  have t2 : toks alnum "abc".toList = ["abc".toList] := by
    have : gramSize alnum "abc".toList = 3 := by
      unfold gramSize; rw [if_pos (hsub _ (by decide) (by decide))]
    unfold toks; rw [this]; decide
  have t3 : toks alnum "bcd".toList = ["bcd".toList] := by
    have : gramSize alnum "bcd".toList = 3 := by
      unfold gramSize; rw [if_pos (hsub _ (by decide) (by decide))]
    unfold toks; rw [this]; decide
  have t0 : toks alnum [] = [] := by simp [toks, gramSize, strAlnum]
  have hs : splitPct "%abc%bcd%".toList = [[], "abc".toList, "bcd".toList, []] := by decide
  rw [hs]
  simp only [List.map_cons, List.map_nil, t0, t1, t2, t3]
  refine ⟨[], _, rfl, [], ["bcd".toList], rfl, [], [], rfl, rfl⟩

/-! ## C51: width of the fuzzy column -/

theorem flat_length (A : Block) (ts : List (List Char)) (h : ∀ g ∈ ts, Tok g) : (flat (ct A) ts).length = 24 * ts.length := by
  induction ts with
  | nil => rfl
  | cons t ts ih =>
    rw [flat_cons, List.length_append, (marked_ct A).length (h t (by simp)), ih (fun g hg => h g (by simp [hg])),
      List.length_cons]
    omega

/-- `fuzzy_type_fixed = 'VARCHAR(2000)'`, schema/metadata.py 81. -/
def fuzzyWidth : Nat := 2000

/-- **C51, partial.** A string of at most 84 characters fits in the fuzzy column. Missing: longer strings. -/
theorem C51_fuzzy_fits_partial (alnum : Char → Bool) (hN : alnum '\x00' = false) (A : Block) (s e : List Char)
    (he : fuzzyEncrypt alnum A s = .ok e) (hl : s.length ≤ 84) : e.length ≤ fuzzyWidth := by
  rw [fuzzyEncrypt_eq] at he
  injection he with he
  subst he
  rw [flat_length A _ (toks_tok hN s)]
  unfold fuzzyWidth
  rcases toks_length_cases (alnum := alnum) s with ⟨_, _, h⟩ | ⟨_, _, h⟩ | ⟨_, h, _⟩
  · rw [h, grams_length]; omega
  · rw [h, grams_length]; omega
  · omega

/-- **C51 fails.** No string of 86 or more characters fits, whatever the declared length of the column (at most 85 is safe for
alphanumeric strings, 84 for others). -/
theorem C51_fails_long (alnum : Char → Bool) (hN : alnum '\x00' = false) (A : Block) (s e : List Char)
    (he : fuzzyEncrypt alnum A s = .ok e) (hl : 86 ≤ s.length) : fuzzyWidth < e.length := by
  rw [fuzzyEncrypt_eq] at he
  injection he with he
  subst he
  rw [flat_length A _ (toks_tok hN s)]
  unfold fuzzyWidth
  rcases toks_length_cases (alnum := alnum) s with ⟨_, _, h⟩ | ⟨_, _, h⟩ | ⟨h, _, _⟩
  · rw [h, grams_length]; omega
  · rw [h, grams_length]; omega
  · omega

/-! ## The hypotheses are met -/

/-- A character class and a key for the examples. -/
def demoAlnum (c : Char) : Bool := c.isAlphanum
def demoBlock : Block := ⟨List.reverse, List.reverse, by simp, by simp⟩

/-- C08, C09: "%bob%smith%" on "bobsmith" meets all hypotheses of C08 (two words, alphanumeric text). -/
example : demoAlnum '\x00' = false ∧ PlainPattern "%bob%smith%".toList ∧
    (∃ p', likeRewrite demoAlnum demoBlock "%bob%smith%".toList = .ok p') ∧
    strAlnum demoAlnum "bobsmith".toList = true ∧ like "%bob%smith%".toList "bobsmith".toList = true := by
  refine ⟨by decide, by decide, (C08_pattern_accepted_iff _ _ _).2 (by decide), by decide, by decide⟩

/-- C09: a pattern with one word. -/
example : words "%bob%".toList = ["bob".toList] ∧ PlainPattern "%bob%".toList ∧
    ∃ p', likeRewrite demoAlnum demoBlock "%bob%".toList = .ok p' :=
  ⟨by decide, by decide, (C08_pattern_accepted_iff _ _ _).2 (by decide)⟩

/-- C08 fails, C09 fails, C51: the class of the examples meets the hypotheses. -/
example : demoAlnum ' ' = false ∧ (∀ c ∈ "world".toList, demoAlnum c = true) ∧
    (∀ c ∈ "abcd".toList, demoAlnum c = true) ∧
    ∃ e, fuzzyEncrypt demoAlnum demoBlock (List.replicate 90 'a') = .ok e :=
  ⟨by decide, by decide, by decide, _, fuzzyEncrypt_eq _ _ _⟩

end EulerDB.Fuzzy
