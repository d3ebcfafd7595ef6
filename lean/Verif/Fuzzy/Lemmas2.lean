import Verif.Fuzzy.Lemmas

namespace EulerDB.Fuzzy

open EulerDB EulerDB.Aes

/-! ### The stored text and the words as token lists -/

/-- The gram size `FuzzyCipher` uses for a string. -/
def gramSize (alnum : Char → Bool) (s : List Char) : Nat := if strAlnum alnum s then 3 else 2

/-- The tokens of a string.  A single character has the ciphertext of that character followed by NUL. -/
def toks (alnum : Char → Bool) (s : List Char) : List (List Char) :=
  if s.length < gramSize alnum s then
    match s with
    | [] => []
    | [c] => [[c, '\x00']]
    | s => [s]
  else grams (gramSize alnum s) s

/-- The admissible tokens. -/
def Tok (g : List Char) : Prop := g.length = 2 ∨ (g.length = 3 ∧ '\x00' ∉ g)

theorem ct_single (A : Block) (c : Char) : ct A [c] = ct A [c, '\x00'] := by
  apply ct_congr
  · exact (rstripNul_append_nuls [c] 1).symm
  · rw [blocks_small _ (by simp) (by simp), blocks_small _ (by simp) (by simp)]

theorem encAll_eq (A : Block) (gs : List (List Char)) : encAll A gs = .ok (flat (ct A) gs) := by
  induction gs with
  | nil => rfl
  | cons g gs ih => unfold encAll; rw [encrypt_eq, ih]; rfl

theorem ct_nil (A : Block) : ct A [] = [] := rfl

theorem fuzzyEncrypt_eq (alnum : Char → Bool) (A : Block) (s : List Char) :
    fuzzyEncrypt alnum A s = .ok (flat (ct A) (toks alnum s)) := by
  have key : ∀ s : List Char, encrypt A s = .ok (flat (ct A)
      (match s with
        | [] => []
        | [c] => [[c, '\x00']]
        | s => [s])) := by
    intro s
    rw [encrypt_eq]
    match s with
    | [] => rfl
    | [c] => simp [ct_single]
    | a :: b :: s => simp
  unfold fuzzyEncrypt toks gramSize
  split
  · split
    · exact key s
    · exact encAll_eq A _
  · split
    · exact key s
    · exact encAll_eq A _

theorem rstripNul_no_nul {s : List Char} (h : '\x00' ∉ s) : rstripNul s = s := by
  rw [rstripNul_eq_self_iff]
  intro h'
  exact h (List.mem_of_getLast? h')

theorem rstripNul_length_le (s : List Char) : (rstripNul s).length ≤ s.length := by
  obtain ⟨k, hk⟩ := rstripNul_spec s
  have := congrArg List.length hk
  rw [List.length_append] at this
  omega

theorem rstripNul_inj_length {a b : List Char} (h : rstripNul a = rstripNul b) (hl : a.length = b.length) : a = b := by
  obtain ⟨k, hk⟩ := rstripNul_spec a
  obtain ⟨l, hl'⟩ := rstripNul_spec b
  have h1 := congrArg List.length hk
  have h2 := congrArg List.length hl'
  rw [List.length_append, List.length_replicate] at h1 h2
  rw [hk, hl', h]
  congr 2
  rw [h] at h1
  omega

theorem marked_ct (A : Block) : Marked (ct A) Tok := by
  constructor
  · intro g hg
    have h0 : g ≠ [] := by rintro rfl; rcases hg with h | ⟨h, _⟩ <;> simp at h
    have h4 : g.length ≤ 4 := by rcases hg with h | ⟨h, _⟩ <;> omega
    have hb := blocks_small g h0 h4
    unfold ct
    rw [hb]
    apply b64_16
    rw [ecbBlocks_length A.E A.E_length 1]
    have hz := zeroPad_length (utf8 g)
    unfold blocks at hb
    omega
  · intro g h hg hh he
    have hr : rstripNul g = rstripNul h := by
      have h1 := decrypt_ct A g
      rw [he, decrypt_ct A h] at h1
      injection h1 with h1
      exact h1.symm
    have lg := rstripNul_length_le g
    have lh := rstripNul_length_le h
    rcases hg with hg | ⟨hg, ng⟩ <;> rcases hh with hh | ⟨hh, nh⟩
    · exact rstripNul_inj_length hr (by omega)
    · rw [rstripNul_no_nul nh] at hr; rw [hr] at lg; omega
    · rw [rstripNul_no_nul ng] at hr; rw [← hr] at lh; omega
    · exact rstripNul_inj_length hr (by omega)

theorem strAlnum_mem {alnum : Char → Bool} {s : List Char} (h : strAlnum alnum s = true) : ∀ c ∈ s, alnum c = true := by
  unfold strAlnum at h
  simp only [Bool.and_eq_true, List.all_eq_true] at h
  exact h.2

theorem toks_tok {alnum : Char → Bool} (hN : alnum '\x00' = false) (s : List Char) : ∀ g ∈ toks alnum s, Tok g := by
  intro g hg
  unfold toks at hg
  split at hg
  · rename_i hl
    match s, hg, hl with
    | [], hg, _ => simp at hg
    | [c], hg, _ => simp only [List.mem_singleton] at hg; subst hg; exact Or.inl rfl
    | [a, b], hg, _ => simp only [List.mem_singleton] at hg; subst hg; exact Or.inl rfl
    | a :: b :: c :: r, _, hl =>
      unfold gramSize at hl
      simp only [List.length_cons] at hl
      split at hl <;> omega
  · have h1 := grams_mem_length hg
    have h2 := grams_mem_sub hg
    unfold gramSize at h1
    split at h1
    · rename_i ha
      right
      refine ⟨h1, fun h0 => ?_⟩
      have := strAlnum_mem ha _ (h2 _ h0)
      rw [hN] at this; cases this
    · exact Or.inl h1

/-- All tokens of a text have the same length: 3 for an alphanumeric text of at least three characters, 2 otherwise. -/
theorem toks_length_cases {alnum : Char → Bool} (s : List Char) :
    (strAlnum alnum s = true ∧ 3 ≤ s.length ∧ toks alnum s = grams 3 s) ∨
    (strAlnum alnum s = false ∧ 2 ≤ s.length ∧ toks alnum s = grams 2 s) ∨
    (s.length < 3 ∧ (toks alnum s).length ≤ 1 ∧ ∀ g ∈ toks alnum s, g.length = 2) := by
  by_cases hl : s.length < gramSize alnum s
  · right; right
    have h3 : s.length < 3 := by unfold gramSize at hl; split at hl <;> omega
    refine ⟨h3, ?_⟩
    unfold toks
    rw [if_pos hl]
    match s, h3 with
    | [], _ => simp
    | [c], _ => simp
    | [a, b], _ => simp
  · have : toks alnum s = grams (gramSize alnum s) s := by unfold toks; rw [if_neg hl]
    unfold gramSize at hl this
    by_cases ha : strAlnum alnum s = true
    · left
      rw [if_pos ha] at hl this
      exact ⟨ha, by omega, this⟩
    · right; left
      rw [if_neg ha] at hl this
      exact ⟨by simpa using ha, by omega, this⟩

theorem toks_word {alnum : Char → Bool} (w : List Char) (h : w = [] ∨ 3 ≤ w.length) :
    toks alnum w = grams (gramSize alnum w) w := by
  unfold toks
  split
  · rename_i hl
    rcases h with rfl | h
    · rw [grams_short _ _ hl]
    · unfold gramSize at hl; split at hl <;> omega
  · rfl

/-! ### The rewritten pattern -/

theorem encWords_eq (alnum : Char → Bool) (A : Block) : ∀ (ws r : List (List Char)), encWords alnum A ws = .ok r →
    (∀ w ∈ ws, w = [] ∨ 3 ≤ w.length) ∧ r = ws.map fun w => flat (ct A) (toks alnum w)
  | [], r, h => by
    simp only [encWords] at h
    injection h with h; subst h; simp
  | w :: ws, r, h => by
    unfold encWords at h
    split at h
    · rename_i hw
      subst hw
      split at h
      · cases h
      · rename_i r' hr
        injection h with h; subst h
        obtain ⟨h1, rfl⟩ := encWords_eq alnum A ws r' hr
        refine ⟨by simpa using h1, ?_⟩
        simp [toks, gramSize, strAlnum]
    · split at h
      · cases h
      · rename_i hl
        rw [fuzzyEncrypt_eq] at h
        simp only at h
        split at h
        · cases h
        · rename_i r' hr
          injection h with h; subst h
          obtain ⟨h1, rfl⟩ := encWords_eq alnum A ws r' hr
          refine ⟨?_, rfl⟩
          simp only [List.mem_cons, forall_eq_or_imp]
          exact ⟨Or.inr (by omega), h1⟩

/-- The converse: the rewriting is refused only for words of one or two characters. -/
theorem encWords_ok (alnum : Char → Bool) (A : Block) : ∀ (ws : List (List Char)), (∀ w ∈ ws, w = [] ∨ 3 ≤ w.length) →
    ∃ r, encWords alnum A ws = .ok r
  | [], _ => ⟨[], rfl⟩
  | w :: ws, h => by
    obtain ⟨r, hr⟩ := encWords_ok alnum A ws (fun v hv => h v (by simp [hv]))
    unfold encWords
    split
    · exact ⟨_, by rw [hr]⟩
    · rename_i hw
      have := (h w (by simp)).resolve_left hw
      rw [if_neg (by omega), fuzzyEncrypt_eq, hr]
      exact ⟨_, rfl⟩

theorem flat_plain (A : Block) (ts : List (List Char)) : ∀ c ∈ flat (ct A) ts, c ≠ '%' ∧ c ≠ '_' ∧ c ≠ '\\' := by
  intro c hc
  unfold flat at hc
  simp only [List.mem_flatMap] at hc
  obtain ⟨g, _, hc⟩ := hc
  unfold ct at hc
  rcases b64encode_mem _ c hc with rfl | ⟨n, hn, rfl⟩
  · decide
  · have := b64Char_facts ⟨n, hn⟩
    exact ⟨this.2.2.2.1, this.2.2.2.2.1, this.2.2.2.2.2.1⟩

theorem joinPct_mem : ∀ (ws : List (List Char)) (c : Char), c ∈ joinPct ws → c = '%' ∨ ∃ w ∈ ws, c ∈ w
  | [], c, h => by simp [joinPct] at h
  | [w], c, h => Or.inr ⟨w, by simp, by simpa [joinPct] using h⟩
  | w :: a :: b, c, h => by
    unfold joinPct at h
    simp only [List.mem_append, List.mem_cons] at h
    rcases h with h | h | h
    · exact Or.inr ⟨w, by simp, h⟩
    · exact Or.inl h
    · rcases joinPct_mem (a :: b) c h with h | ⟨v, hv, h⟩
      · exact Or.inl h
      · exact Or.inr ⟨v, by simp [hv], h⟩

/-- What the backend's LIKE decides on the ciphertexts: matching of the token lists. -/
theorem like_rewritten (alnum : Char → Bool) (hN : alnum '\x00' = false) (A : Block) (p p' s e : List Char)
    (hp : likeRewrite alnum A p = .ok p') (he : fuzzyEncrypt alnum A s = .ok e) :
    like p' e = true ↔ segMatch ((splitPct p).map (toks alnum)) (toks alnum s) := by
  rw [fuzzyEncrypt_eq] at he
  injection he with he
  subst he
  unfold likeRewrite at hp
  split at hp
  · cases hp
  · rename_i ws hws
    injection hp with hp
    subst hp
    obtain ⟨_, hr⟩ := encWords_eq alnum A _ _ hws
    have hplain : ∀ w ∈ ws, ∀ c ∈ w, c ≠ '%' ∧ c ≠ '_' ∧ c ≠ '\\' := by
      intro w hw
      rw [hr] at hw
      simp only [List.mem_map] at hw
      obtain ⟨v, _, rfl⟩ := hw
      exact flat_plain A _
    have hne : ws ≠ [] := by
      rw [hr]; simp [splitPct_ne_nil]
    rw [like_iff_segMatch, splitPct_joinPct ws hne (fun w hw c hc => (hplain w hw c hc).1), hr]
    · rw [← segMatch_flat (marked_ct A)]
      · rw [List.map_map]; rfl
      · intro w hw g hg
        simp only [List.mem_map] at hw
        obtain ⟨v, _, rfl⟩ := hw
        exact toks_tok hN v g hg
      · exact toks_tok hN s
    · intro c hc
      rcases joinPct_mem ws c hc with rfl | ⟨w, hw, h⟩
      · decide
      · exact (hplain w hw c h).2

/-! ### More on segment matching -/

theorem segMatch_infix {α : Type} : ∀ (ws : List (List α)) (s : List α), segMatch ws s →
    ∀ w ∈ ws, ∃ x y, s = x ++ (w ++ y)
  | [], _, h, _, _ => h.elim
  | [w], s, h, v, hv => by
    simp only [segMatch] at h
    simp only [List.mem_singleton] at hv
    subst h; subst hv
    exact ⟨[], [], by simp⟩
  | w :: w' :: ws, s, ⟨x, t, hs, ht⟩, v, hv => by
    rcases List.mem_cons.1 hv with rfl | hv
    · exact ⟨[], x ++ t, by simpa using hs⟩
    · obtain ⟨a, b, rfl⟩ := segMatch_infix (w' :: ws) t ht v hv
      exact ⟨w ++ (x ++ a), b, by rw [hs]; simp⟩

theorem segMatch_empties {α : Type} : ∀ (ws : List (List α)) (s : List α), (∀ w ∈ ws, w = []) → 2 ≤ ws.length →
    segMatch ws s
  | [], _, _, h => by simp at h
  | [w], _, _, h => by simp at h
  | [w, w'], s, hw, _ => by
    have h1 := hw w (by simp)
    have h2 := hw w' (by simp)
    subst h1; subst h2
    exact ⟨s, [], by simp, rfl⟩
  | w :: w' :: w'' :: ws, s, hw, _ => by
    have h1 := hw w (by simp)
    subst h1
    exact ⟨[], s, by simp, segMatch_empties (w' :: w'' :: ws) s (fun v hv => hw v (by simp [hv])) (by simp)⟩

theorem segMatch_single_word {α : Type} (w : List α) : ∀ (a b : List (List α)) (s : List α),
    (∀ v ∈ a, v = []) → (∀ v ∈ b, v = []) →
    (segMatch (a ++ w :: b) s ↔ ∃ x y, s = x ++ (w ++ y) ∧ (a = [] → x = []) ∧ (b = [] → y = []))
  | [], [], s, _, _ => by
    simp only [List.nil_append, segMatch]
    constructor
    · rintro rfl; exact ⟨[], [], by simp⟩
    · rintro ⟨x, y, rfl, hx, hy⟩
      simp [hx, hy]
  | [], b1 :: b, s, _, hb => by
    simp only [List.nil_append, segMatch]
    constructor
    · rintro ⟨x, t, rfl, _⟩
      exact ⟨[], x ++ t, by simp⟩
    · rintro ⟨x, y, rfl, hx, -⟩
      have := hx trivial; subst this
      cases b with
      | nil =>
        have h1 := hb b1 (by simp); subst h1
        exact ⟨y, [], by simp, rfl⟩
      | cons b2 b =>
        exact ⟨[], y, by simp, segMatch_empties _ _ hb (by simp)⟩
  | a1 :: a, b, s, ha, hb => by
    have h1 := ha a1 (by simp); subst h1
    have ih := segMatch_single_word w a b
    rw [List.cons_append, segMatch_cons _ _ (by simp)]
    constructor
    · rintro ⟨x, t, rfl, h⟩
      obtain ⟨x', y', rfl, _, h2⟩ := (ih t (fun v hv => ha v (by simp [hv])) hb).1 h
      exact ⟨x ++ x', y', by simp, by simp, h2⟩
    · rintro ⟨x, y, rfl, _, h2⟩
      exact ⟨x, w ++ y, by simp, (ih _ (fun v hv => ha v (by simp [hv])) hb).2 ⟨[], y, by simp, by simp, h2⟩⟩

/-- Where the tokens of a word occur in the tokens of a text, the word occurs in the text, at the same distance from both ends. -/
theorem toks_infix {alnum : Char → Bool} (w s : List Char) (hw : 3 ≤ w.length) (x y : List (List Char))
    (h : toks alnum s = x ++ (toks alnum w ++ y)) :
    ∃ pre post, s = pre ++ (w ++ post) ∧ pre.length = x.length ∧ post.length = y.length := by
  rw [toks_word w (Or.inr hw)] at h
  have hlen : ∀ g ∈ grams (gramSize alnum w) w, g ∈ toks alnum s := by
    intro g hg; rw [h]; simp [hg]
  have hl := congrArg List.length h
  rw [List.length_append, List.length_append, grams_length] at hl
  have hne : ∃ g, g ∈ grams (gramSize alnum w) w := by
    have : 0 < (grams (gramSize alnum w) w).length := by
      rw [grams_length]; unfold gramSize; split <;> omega
    exact List.exists_mem_of_length_pos this
  obtain ⟨g, hg⟩ := hne
  have hgl := grams_mem_length hg
  have hgs := hlen g hg
  rcases toks_length_cases (alnum := alnum) s with ⟨_, _, e⟩ | ⟨_, _, e⟩ | ⟨_, e1, e2⟩
  · rw [e] at hgs h
    have := grams_mem_length hgs
    rw [hgl] at this
    rw [this] at h
    exact grams_infix 3 (by omega) w s x y hw h
  · rw [e] at hgs h
    have := grams_mem_length hgs
    rw [hgl] at this
    rw [this] at h
    exact grams_infix 2 (by omega) w s x y (by omega) h
  · exfalso
    have h2 := e2 g hgs
    rw [hgl] at h2
    rw [h2] at hl
    omega

end EulerDB.Fuzzy
