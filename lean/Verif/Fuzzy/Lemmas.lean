import Verif.Aes.Lemmas
import Verif.Fuzzy.Model
import Verif.Fuzzy.Spec

namespace EulerDB.Fuzzy

open EulerDB EulerDB.Aes

/-! ### Segment matching -/

/-- `s` is `w0 x1 w1 x2 w2 ... wk` for the segments `[w0, ..., wk]`. -/
def segMatch {α : Type} : List (List α) → List α → Prop
  | [], _ => False
  | [w], s => s = w
  | w :: w' :: ws, s => ∃ x t, s = w ++ (x ++ t) ∧ segMatch (w' :: ws) t

theorem splitPct_ne_nil : ∀ p, splitPct p ≠ []
  | [] => by simp [splitPct]
  | c :: r => by
    unfold splitPct
    split
    · simp
    · split <;> simp

theorem segMatch_cons {α : Type} (w : List α) (ws : List (List α)) (h : ws ≠ []) (s : List α) :
    segMatch (w :: ws) s ↔ ∃ x t, s = w ++ (x ++ t) ∧ segMatch ws t := by
  cases ws with
  | nil => exact absurd rfl h
  | cons a b => rfl

theorem segMatch_cons_char {α : Type} (c : α) (w : List α) (ws : List (List α)) (s : List α) :
    segMatch ((c :: w) :: ws) s ↔ ∃ s', s = c :: s' ∧ segMatch (w :: ws) s' := by
  cases ws with
  | nil => simp [segMatch]
  | cons a b =>
    simp only [segMatch, List.cons_append]
    constructor
    · rintro ⟨x, t, rfl, h⟩
      exact ⟨_, rfl, x, t, rfl, h⟩
    · rintro ⟨s', rfl, x, t, rfl, h⟩
      exact ⟨x, t, rfl, h⟩

theorem like_plain {c : Char} (p s : List Char) (h1 : c ≠ '%') (h2 : c ≠ '_') (h3 : c ≠ '\\') :
    like (c :: p) s = true ↔ ∃ s', s = c :: s' ∧ like p s' = true := by
  cases s with
  | nil =>
    unfold like
    split <;> simp_all
  | cons d s =>
    have : like (c :: p) (d :: s) = (decide (c = d) && like p s) := by
      conv_lhs => unfold like
      split <;> simp_all
    rw [this]
    simp only [Bool.and_eq_true, decide_eq_true_eq, List.cons.injEq]
    constructor
    · rintro ⟨rfl, h⟩; exact ⟨s, ⟨rfl, rfl⟩, h⟩
    · rintro ⟨s', ⟨rfl, rfl⟩, h⟩; exact ⟨rfl, h⟩

theorem like_pct (p s : List Char) : like ('%' :: p) s = true ↔ ∃ x t, s = x ++ t ∧ like p t = true := by
  have : like ('%' :: p) s = s.tails.any (like p) := by rw [like]
  rw [this, List.any_eq_true]
  constructor
  · rintro ⟨t, ht, h⟩
    obtain ⟨x, rfl⟩ := (List.mem_tails _ _).1 ht
    exact ⟨x, t, rfl, h⟩
  · rintro ⟨x, t, rfl, h⟩
    exact ⟨t, (List.mem_tails _ _).2 ⟨x, rfl⟩, h⟩

theorem like_iff_segMatch : ∀ (p s : List Char), (∀ c ∈ p, c ≠ '_' ∧ c ≠ '\\') →
    (like p s = true ↔ segMatch (splitPct p) s)
  | [], s, _ => by
    unfold like splitPct segMatch
    simp
  | c :: p, s, h => by
    have ih := fun s => like_iff_segMatch p s (fun c hc => h c (by simp [hc]))
    by_cases hc : c = '%'
    · subst hc
      rw [like_pct]
      unfold splitPct
      rw [if_pos rfl, segMatch_cons _ _ (splitPct_ne_nil p)]
      simp only [List.nil_append, ih]
    · have hh := h c (by simp)
      rw [like_plain p s hc hh.1 hh.2]
      unfold splitPct
      rw [if_neg hc]
      split
      · rename_i hn; exact absurd hn (splitPct_ne_nil p)
      · rename_i w ws hw
        rw [segMatch_cons_char]
        simp only [ih, hw]

theorem splitPct_word (w : List Char) (h : ∀ c ∈ w, c ≠ '%') : splitPct w = [w] := by
  induction w with
  | nil => rfl
  | cons c w ih =>
    unfold splitPct
    rw [if_neg (h c (by simp)), ih (fun d hd => h d (by simp [hd]))]

theorem splitPct_append (w p : List Char) (h : ∀ c ∈ w, c ≠ '%') : splitPct (w ++ '%' :: p) = w :: splitPct p := by
  induction w with
  | nil => simp [splitPct]
  | cons c w ih =>
    rw [List.cons_append]
    conv_lhs => unfold splitPct
    rw [if_neg (h c (by simp)), ih (fun d hd => h d (by simp [hd]))]

theorem splitPct_joinPct : ∀ (ws : List (List Char)), ws ≠ [] → (∀ w ∈ ws, ∀ c ∈ w, c ≠ '%') →
    splitPct (joinPct ws) = ws
  | [], h, _ => absurd rfl h
  | [w], _, h => by
    unfold joinPct
    exact splitPct_word w (h w (by simp))
  | w :: a :: b, _, h => by
    unfold joinPct
    rw [splitPct_append _ _ (h w (by simp)), splitPct_joinPct (a :: b) (by simp) (fun v hv => h v (by simp [hv]))]

theorem splitPct_parts : ∀ (p : List Char), ∀ w ∈ splitPct p, ∀ c ∈ w, c ≠ '%' ∧ c ∈ p
  | [], w, hw, c, hc => by
    simp only [splitPct, List.mem_singleton] at hw
    subst hw; simp at hc
  | d :: r, w, hw, c, hc => by
    have ih := splitPct_parts r
    unfold splitPct at hw
    split at hw
    · rcases List.mem_cons.1 hw with rfl | hw
      · simp at hc
      · exact ⟨(ih w hw c hc).1, by simp [(ih w hw c hc).2]⟩
    · rename_i hd
      split at hw
      · simp only [List.mem_singleton] at hw
        subst hw
        simp only [List.mem_singleton] at hc
        subst hc
        exact ⟨hd, by simp⟩
      · rename_i v vs hv
        rcases List.mem_cons.1 hw with rfl | hw
        · rcases List.mem_cons.1 hc with rfl | hc
          · exact ⟨hd, by simp⟩
          · have := ih v (by rw [hv]; simp) c hc
            exact ⟨this.1, by simp [this.2]⟩
        · have := ih w (by rw [hv]; simp [hw]) c hc
          exact ⟨this.1, by simp [this.2]⟩

/-! ### One ciphertext block -/

/-- Strings of at most four characters, not empty, fill one block. -/
theorem utf8_length_bound (s : List Char) : s.length ≤ (utf8 s).length ∧ (utf8 s).length ≤ 4 * s.length := by
  induction s with
  | nil => simp [utf8]
  | cons c s ih =>
    rw [← List.singleton_append, utf8_append, List.length_append, List.length_append]
    have h : (utf8 [c]).length = c.utf8Size := by simp [utf8, String.length_utf8EncodeChar]
    have h1 := c.utf8Size_pos
    have h2 := c.utf8Size_le_four
    simp only [List.length_singleton]
    omega

theorem blocks_small (s : List Char) (h0 : s ≠ []) (h : s.length ≤ 4) : blocks s = 1 := by
  have := utf8_length_bound s
  have : 0 < s.length := List.length_pos_iff.2 h0
  unfold blocks; omega

/-- 16 bytes give 22 characters of the alphabet and two pads. -/
theorem b64_16 (bs : List UInt8) (h : bs.length = 16) :
    ∃ u, b64encode bs = u ++ ['=', '='] ∧ u.length = 22 ∧ ∀ c ∈ u, c ≠ '=' := by
  match bs, h with
  | [x1, x2, x3, x4, x5, x6, x7, x8, x9, x10, x11, x12, x13, x14, x15, x16], _ =>
    simp only [b64encode]
    refine ⟨[_, _, _, _, _, _, _, _, _, _, _, _, _, _, _, _, _, _, _, _, _, _], rfl, rfl, ?_⟩
    intro c hc
    have hb := fun (n : Nat) (hn : n < 64) => (b64Char_facts ⟨n, hn⟩).2.1
    have := x1.toNat_lt; have := x2.toNat_lt; have := x3.toNat_lt; have := x4.toNat_lt
    have := x5.toNat_lt; have := x6.toNat_lt; have := x7.toNat_lt; have := x8.toNat_lt
    have := x9.toNat_lt; have := x10.toNat_lt; have := x11.toNat_lt; have := x12.toNat_lt
    have := x13.toNat_lt; have := x14.toNat_lt; have := x15.toNat_lt; have := x16.toNat_lt
    simp only [List.mem_cons, List.not_mem_nil, or_false] at hc
    rcases hc with h | h | h | h | h | h | h | h | h | h | h | h | h | h | h | h | h | h | h | h | h | h <;>
      (rw [h]; exact hb _ (by omega))

/-- What the fuzzy index needs of the encryption of a gram. -/
structure Marked (enc : List Char → List Char) (ok : List Char → Prop) : Prop where
  shape : ∀ g, ok g → ∃ u, enc g = u ++ ['=', '='] ∧ u.length = 22 ∧ ∀ c ∈ u, c ≠ '='
  inj : ∀ g h, ok g → ok h → enc g = enc h → g = h

theorem Marked.length {enc ok} (M : Marked enc ok) {g} (h : ok g) : (enc g).length = 24 := by
  obtain ⟨u, hu, hl, _⟩ := M.shape g h
  rw [hu, List.length_append, hl]; rfl

/-- Flattening. -/
def flat (enc : List Char → List Char) (ts : List (List Char)) : List Char := ts.flatMap enc

@[simp] theorem flat_nil (enc) : flat enc [] = [] := rfl
@[simp] theorem flat_cons (enc t ts) : flat enc (t :: ts) = enc t ++ flat enc ts := rfl
@[simp] theorem flat_append (enc a b) : flat enc (a ++ b) = flat enc a ++ flat enc b := by simp [flat]

theorem flat_prefix {enc ok} (M : Marked enc ok) : ∀ (w ts : List (List Char)) (y : List Char),
    (∀ g ∈ w, ok g) → (∀ g ∈ ts, ok g) → flat enc ts = flat enc w ++ y →
    ∃ ts', ts = w ++ ts' ∧ y = flat enc ts'
  | [], ts, y, _, _, h => ⟨ts, rfl, by simpa using h.symm⟩
  | g :: w, ts, y, hw, ht, h => by
    have hg := hw g (by simp)
    have lg := M.length hg
    cases ts with
    | nil =>
      have := congrArg List.length h
      simp only [flat_nil, flat_cons, List.length_nil, List.length_append] at this
      omega
    | cons t ts =>
      have htt := ht t (by simp)
      have lt := M.length htt
      rw [flat_cons, flat_cons, List.append_assoc] at h
      obtain ⟨h1, h2⟩ := List.append_inj h (by omega)
      have := M.inj t g htt hg h1
      subst this
      obtain ⟨ts', rfl, hy⟩ := flat_prefix M w ts y (fun g hg => hw g (by simp [hg])) (fun g hg => ht g (by simp [hg])) h2
      exact ⟨ts', rfl, hy⟩

/-- A marked block can only occur at a block boundary. -/
theorem flat_aligned {enc ok} (M : Marked enc ok) (b : List Char) (hb : ok b) : ∀ (ts : List (List Char)) (x y : List Char),
    (∀ g ∈ ts, ok g) → flat enc ts = x ++ (enc b ++ y) →
    ∃ x' ts', ts = x' ++ ts' ∧ x = flat enc x' ∧ flat enc ts' = enc b ++ y
  | [], x, y, _, h => by
    have := congrArg List.length h
    have := M.length hb
    simp only [flat_nil, List.length_nil, List.length_append] at *
    omega
  | t :: ts, x, y, ht, h => by
    have htt := ht t (by simp)
    have lt := M.length htt
    have lb := M.length hb
    by_cases h0 : x = []
    · subst h0
      exact ⟨[], t :: ts, rfl, rfl, by simpa using h⟩
    by_cases h24 : 24 ≤ x.length
    · rw [flat_cons] at h
      have hx : x = enc t ++ x.drop 24 := by
        have := congrArg (List.take 24) h
        rw [List.take_append_of_le_length (by omega), List.take_of_length_le (by omega),
          List.take_append_of_le_length (by omega)] at this
        conv_lhs => rw [← List.take_append_drop 24 x]
        rw [← this]
      rw [hx, List.append_assoc] at h
      have h' := List.append_cancel_left h
      obtain ⟨x', ts', rfl, hx', hts'⟩ := flat_aligned M b hb ts (x.drop 24) y (fun g hg => ht g (by simp [hg])) h'
      refine ⟨t :: x', ts', rfl, ?_, hts'⟩
      rw [flat_cons, ← hx', ← hx]
    · exfalso
      have hx0 : 0 < x.length := List.length_pos_iff.2 h0
      obtain ⟨ub, hub, lub, nub⟩ := M.shape b hb
      -- the two pads of `b` are at positions x+22 and x+23
      have p1 : (flat enc (t :: ts))[x.length + 22]? = some '=' := by
        rw [h, List.getElem?_append_right (by omega), hub, List.append_assoc, List.getElem?_append_right (by omega)]
        have : x.length + 22 - x.length - ub.length = 0 := by omega
        rw [this]; rfl
      have p2 : (flat enc (t :: ts))[x.length + 23]? = some '=' := by
        rw [h, List.getElem?_append_right (by omega), hub, List.append_assoc, List.getElem?_append_right (by omega)]
        have : x.length + 23 - x.length - ub.length = 1 := by omega
        rw [this]; rfl
      cases ts with
      | nil =>
        have hlen := congrArg List.length h
        simp only [flat_cons, flat_nil, List.length_append, List.length_nil] at hlen
        omega
      | cons t2 ts =>
        obtain ⟨u2, hu2, lu2, nu2⟩ := M.shape t2 (ht t2 (by simp))
        have key : ∀ i, i < 22 → (flat enc (t :: t2 :: ts))[24 + i]? ≠ some '=' := by
          intro i hi heq
          rw [flat_cons, flat_cons, List.getElem?_append_right (by omega)] at heq
          rw [show 24 + i - (enc t).length = i by omega, hu2, List.append_assoc,
            List.getElem?_append_left (by omega)] at heq
          exact nu2 _ (List.mem_of_getElem? heq) rfl
        by_cases h1 : x.length = 1
        · exact key 0 (by omega) (by rw [h1] at p2; exact p2)
        · exact key (x.length - 2) (by omega) (by rw [show 24 + (x.length - 2) = x.length + 22 by omega]; exact p1)

theorem segMatch_flat_of {enc : List Char → List Char} : ∀ (ws : List (List (List Char))) (ts : List (List Char)),
    segMatch ws ts → segMatch (ws.map (flat enc)) (flat enc ts)
  | [], _, h => h.elim
  | [w], ts, h => by
    simp only [segMatch] at h
    subst h
    simp [segMatch]
  | w :: w' :: ws, ts, h => by
    obtain ⟨x, t, rfl, ht⟩ := h
    refine ⟨flat enc x, flat enc t, by simp, ?_⟩
    exact segMatch_flat_of (w' :: ws) t ht

theorem any_flat {enc ok} (M : Marked enc ok) : ∀ (ws : List (List (List Char))) (ts : List (List Char)),
    (∀ w ∈ ws, ∀ g ∈ w, ok g) → (∀ g ∈ ts, ok g) →
    (∃ x t, flat enc ts = x ++ t ∧ segMatch (ws.map (flat enc)) t) → ∃ x t, ts = x ++ t ∧ segMatch ws t
  | [], _, _, _, ⟨_, _, _, h⟩ => h.elim
  | [w], ts, hw, ht, ⟨x, t, hx, h⟩ => by
    simp only [List.map_cons, List.map_nil, segMatch] at h
    subst h
    cases w with
    | nil => exact ⟨ts, [], by simp, rfl⟩
    | cons g w =>
      rw [flat_cons] at hx
      obtain ⟨x', ts', rfl, rfl, h'⟩ := flat_aligned M g (hw (g :: w) (by simp) g (by simp)) ts x _ ht hx
      have := flat_prefix M (g :: w) ts' [] (hw _ (by simp)) (fun g hg => ht g (by simp [hg])) (by simpa using h')
      obtain ⟨r, rfl, hr⟩ := this
      have : r = [] := by
        cases r with
        | nil => rfl
        | cons a r =>
          have ha := M.length (ht a (by simp))
          have := congrArg List.length hr
          simp only [flat_cons, List.length_nil, List.length_append] at this
          omega
      subst this
      exact ⟨x', g :: w, by simp, rfl⟩
  | w :: w' :: ws, ts, hw, ht, ⟨x, t, hx, h⟩ => by
    obtain ⟨y, u, rfl, hu⟩ := h
    cases w with
    | nil =>
      obtain ⟨x', t', rfl, h'⟩ := any_flat M (w' :: ws) ts (fun v hv => hw v (by simp [hv])) ht
        ⟨x ++ y, u, by simpa using hx, hu⟩
      exact ⟨[], x' ++ t', rfl, x', t', rfl, h'⟩
    | cons g w =>
      rw [flat_cons, List.append_assoc] at hx
      obtain ⟨x', ts', rfl, rfl, h'⟩ := flat_aligned M g (hw (g :: w) (by simp) g (by simp)) ts x _ ht hx
      have := flat_prefix M (g :: w) ts' (y ++ u) (hw _ (by simp)) (fun g hg => ht g (by simp [hg])) (by simpa using h')
      obtain ⟨r, rfl, hr⟩ := this
      obtain ⟨x2, t2, rfl, h2⟩ := any_flat M (w' :: ws) r (fun v hv => hw v (by simp [hv]))
        (fun g hg => ht g (by simp [hg])) ⟨y, u, hr.symm, hu⟩
      exact ⟨x', (g :: w) ++ (x2 ++ t2), rfl, x2, t2, rfl, h2⟩

theorem segMatch_flat {enc ok} (M : Marked enc ok) (ws : List (List (List Char))) (ts : List (List Char))
    (hw : ∀ w ∈ ws, ∀ g ∈ w, ok g) (ht : ∀ g ∈ ts, ok g) :
    segMatch (ws.map (flat enc)) (flat enc ts) ↔ segMatch ws ts := by
  constructor
  · intro h
    match ws with
    | [] => exact h.elim
    | [w] =>
      simp only [List.map_cons, List.map_nil, segMatch] at h
      obtain ⟨r, rfl, hr⟩ := flat_prefix M w ts [] (hw w (by simp)) ht (by simpa using h)
      cases r with
      | nil => simp [segMatch]
      | cons a r =>
        have ha := M.length (ht a (by simp))
        have := congrArg List.length hr
        simp only [flat_cons, List.length_nil, List.length_append] at this
        omega
    | w :: w' :: ws =>
      obtain ⟨x, t, hx, h'⟩ := h
      obtain ⟨r, rfl, hr⟩ := flat_prefix M w ts _ (hw w (by simp)) ht hx
      obtain ⟨x2, t2, rfl, h2⟩ := any_flat M (w' :: ws) r (fun v hv => hw v (by simp [hv]))
        (fun g hg => ht g (by simp [hg])) ⟨x, t, hr.symm, h'⟩
      exact ⟨x2, t2, rfl, h2⟩
  · exact segMatch_flat_of ws ts

/-! ### Grams -/

theorem grams_length (n : Nat) (s : List Char) : (grams n s).length = s.length + 1 - n := by simp [grams]

theorem grams_short (n : Nat) (s : List Char) (h : s.length < n) : grams n s = [] := by
  unfold grams; rw [show s.length + 1 - n = 0 by omega]; rfl

theorem grams_cons (n : Nat) (c : Char) (s : List Char) (h : n ≤ s.length + 1) :
    grams n (c :: s) = (c :: s).take n :: grams n s := by
  unfold grams
  rw [show (c :: s).length + 1 - n = (s.length + 1 - n) + 1 by simp; omega, List.range_succ_eq_map,
    List.map_cons, List.map_map]
  rfl

theorem grams_mem_length {n : Nat} {s g : List Char} (h : g ∈ grams n s) : g.length = n := by
  unfold grams at h
  simp only [List.mem_map, List.mem_range] at h
  obtain ⟨i, hi, rfl⟩ := h
  rw [List.length_take, List.length_drop]; omega

theorem grams_mem_sub {n : Nat} {s g : List Char} (h : g ∈ grams n s) : ∀ c ∈ g, c ∈ s := by
  unfold grams at h
  simp only [List.mem_map, List.mem_range] at h
  obtain ⟨i, hi, rfl⟩ := h
  intro c hc
  exact List.mem_of_mem_drop (List.mem_of_mem_take hc)

/-- The grams of a suffix are a suffix of the grams. -/
theorem grams_append_right (n : Nat) (hn : 0 < n) (a t : List Char) : ∃ x, grams n (a ++ t) = x ++ grams n t := by
  induction a with
  | nil => exact ⟨[], rfl⟩
  | cons c a ih =>
    obtain ⟨x, hx⟩ := ih
    by_cases h : n ≤ (a ++ t).length + 1
    · exact ⟨_ :: x, by rw [List.cons_append, grams_cons n c _ h, hx]; rfl⟩
    · refine ⟨[], ?_⟩
      rw [grams_short, grams_short]
      · rfl
      · simp at h; omega
      · simp at *; omega

/-- The grams of a prefix that is long enough are a prefix of the grams, and the rest ends with the grams of any suffix. -/
theorem grams_append (n : Nat) (hn : 0 < n) : ∀ (w y : List Char), n ≤ w.length →
    ∃ a, grams n (w ++ y) = grams n w ++ grams n (a ++ y)
  | [], y, h => by simp at h; omega
  | c :: w, y, h => by
    rw [List.cons_append, grams_cons n c w (by simpa using h), grams_cons n c (w ++ y) (by simp at *; omega)]
    have ht : (c :: (w ++ y)).take n = (c :: w).take n := by
      rw [← List.cons_append, List.take_append_of_le_length h]
    rw [ht]
    by_cases hw : n ≤ w.length
    · obtain ⟨a, ha⟩ := grams_append n hn w y hw
      exact ⟨a, by rw [ha]; rfl⟩
    · refine ⟨w, ?_⟩
      rw [grams_short n w (by omega)]; rfl

theorem grams_prefix (n : Nat) (hn : 0 < n) : ∀ (w s : List Char) (y : List (List Char)), n ≤ w.length →
    grams n s = grams n w ++ y → ∃ post, s = w ++ post ∧ y.length = post.length
  | [], s, y, h, _ => by simp at h; omega
  | c :: w, s, y, h, he => by
    have hl := congrArg List.length he
    rw [List.length_append, grams_length, grams_length] at hl
    simp only [List.length_cons] at h hl
    rw [grams_cons n c w h] at he
    cases s with
    | nil => simp only [List.length_nil] at hl; omega
    | cons d s =>
      simp only [List.length_cons] at hl
      rw [grams_cons n d s (by omega), List.cons_append] at he
      injection he with h1 h2
      by_cases hw : n ≤ w.length
      · obtain ⟨post, rfl, hp⟩ := grams_prefix n hn w s y hw h2
        refine ⟨post, ?_, hp⟩
        have : d = c := by
          obtain ⟨m, rfl⟩ : ∃ m, n = m + 1 := ⟨n - 1, by omega⟩
          simp only [List.take_succ_cons] at h1
          injection h1
        rw [this]; rfl
      · have hn' : n = w.length + 1 := by omega
        refine ⟨s.drop w.length, ?_, by rw [List.length_drop]; omega⟩
        have hcw : (c :: w).take n = c :: w := List.take_of_length_le (by simp; omega)
        rw [hcw] at h1
        conv_lhs => rw [← List.take_append_drop n (d :: s), h1]
        rw [hn', List.drop_succ_cons]

theorem grams_drop (n : Nat) (hn : 0 < n) : ∀ (k : Nat) (s : List Char), (grams n s).drop k = grams n (s.drop k)
  | 0, s => rfl
  | k + 1, [] => by simp [grams_short n [] hn]
  | k + 1, c :: s => by
    by_cases h : n ≤ s.length + 1
    · rw [grams_cons n c s h, List.drop_succ_cons, List.drop_succ_cons, grams_drop n hn k s]
    · rw [grams_short n (c :: s) (by simp; omega), grams_short, List.drop_nil]
      rw [List.length_drop]; simp; omega

/-- Where the grams of a word occur, the word occurs. -/
theorem grams_infix (n : Nat) (hn : 0 < n) (w s : List Char) (x y : List (List Char)) (hw : n ≤ w.length)
    (h : grams n s = x ++ (grams n w ++ y)) :
    ∃ pre post, s = pre ++ (w ++ post) ∧ pre.length = x.length ∧ post.length = y.length := by
  have hd := congrArg (List.drop x.length) h
  rw [grams_drop n hn, List.drop_left] at hd
  obtain ⟨post, hp, hl⟩ := grams_prefix n hn w _ y hw hd
  have hlen := congrArg List.length h
  rw [List.length_append, List.length_append, grams_length, grams_length] at hlen
  refine ⟨s.take x.length, post, by rw [← hp, List.take_append_drop], ?_, hl.symm⟩
  rw [List.length_take]; omega

/-- Matching is inherited by the grams. -/
theorem segMatch_grams (n : Nat) (hn : 0 < n) : ∀ (ws : List (List Char)) (s : List Char),
    (∀ w ∈ ws, w = [] ∨ n ≤ w.length) → segMatch ws s → segMatch (ws.map (grams n)) (grams n s)
  | [], _, _, h => h.elim
  | [w], s, _, h => by
    simp only [segMatch] at h
    subst h; simp [segMatch]
  | w :: w' :: ws, s, hw, ⟨x, t, hs, ht⟩ => by
    have ih := segMatch_grams n hn (w' :: ws) t (fun v hv => hw v (by simp [hv])) ht
    subst hs
    rcases hw w (by simp) with rfl | hl
    · obtain ⟨z, hz⟩ := grams_append_right n hn x t
      refine ⟨z, grams n t, ?_, ih⟩
      rw [List.nil_append, hz, grams_short n [] (by simpa using hn)]; rfl
    · obtain ⟨a, ha⟩ := grams_append n hn w (x ++ t) hl
      obtain ⟨z, hz⟩ := grams_append_right n hn (a ++ x) t
      refine ⟨z, grams n t, ?_, ih⟩
      rw [ha, ← List.append_assoc a, hz]

end EulerDB.Fuzzy
