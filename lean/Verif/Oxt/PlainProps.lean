import Verif.Oxt.Props
import Verif.Text
import Mathlib.Data.Nat.Digits.Defs

/-!
# C47: the index in clear, the words of a text, and what an encrypted search gives on an index made from texts
-/

namespace EulerDB.Oxt

open EulerDB

variable {γ : Type}

/-! ### The inverted index -/

/-- The rows listed under a word. -/
def rowsOf (d : Dict Nat (List Nat)) (w : Nat) : List Nat := (Dict.get? d w).getD []

theorem addWord_rows (ind : Nat) (d : Dict Nat (List Nat)) (w w' i : Nat) :
    i ∈ rowsOf (addWord ind d w) w' ↔ i ∈ rowsOf d w' ∨ (i = ind ∧ w' = w) := by
  unfold rowsOf addWord
  by_cases h : w' = w
  · subst h
    rw [Dict.get?_set_self]
    simp only [Option.getD_some]
    split
    · rename_i hm
      constructor
      · exact Or.inl
      · rintro (h | ⟨rfl, _⟩)
        · exact h
        · exact hm
    · simp
  · rw [Dict.get?_set_ne _ h]
    simp [h]

theorem words_rows (ind : Nat) (w' i : Nat) : ∀ (ws : List Nat) (d : Dict Nat (List Nat)),
    i ∈ rowsOf (ws.foldl (addWord ind) d) w' ↔ i ∈ rowsOf d w' ∨ (i = ind ∧ w' ∈ ws) := by
  intro ws
  induction ws with
  | nil => intro d; simp
  | cons w r ih =>
    intro d
    rw [List.foldl_cons, ih, addWord_rows]
    simp only [List.mem_cons]
    tauto

/-- **The inverted index lists a row under a word exactly if the row has the word.** -/
theorem C47_inverted_exact (forward : List (Nat × List Nat)) (w i : Nat) :
    i ∈ rowsOf (invert forward) w ↔ ∃ ws, (i, ws) ∈ forward ∧ w ∈ ws := by
  have : ∀ d : Dict Nat (List Nat), i ∈ rowsOf (forward.foldl (fun d e => e.2.foldl (addWord e.1) d) d) w ↔
      i ∈ rowsOf d w ∨ ∃ ws, (i, ws) ∈ forward ∧ w ∈ ws := by
    induction forward with
    | nil => intro d; simp
    | cons p r ih =>
      obtain ⟨j, ws⟩ := p
      intro d
      rw [List.foldl_cons, ih, words_rows]
      constructor
      · rintro ((h | ⟨rfl, h⟩) | ⟨ws', h1, h2⟩)
        · exact Or.inl h
        · exact Or.inr ⟨ws, by simp, h⟩
        · exact Or.inr ⟨ws', by simp [h1], h2⟩
      · rintro (h | ⟨ws', h1, h2⟩)
        · exact Or.inl (Or.inl h)
        · rcases List.mem_cons.1 h1 with h | h
          · cases h; exact Or.inl (Or.inr ⟨rfl, h2⟩)
          · exact Or.inr ⟨ws', h, h2⟩
  have h := this []
  simpa [rowsOf, Dict.get?, invert] using h

theorem addWord_keys (ind : Nat) (d : Dict Nat (List Nat)) (w : Nat) (h : (d.map Prod.fst).Nodup) : ((addWord ind d w).map Prod.fst).Nodup :=
  Dict.nodup_set h

theorem invert_nodup (forward : List (Nat × List Nat)) : ((invert forward).map Prod.fst).Nodup := by
  have hw : ∀ (ind : Nat) (ws : List Nat) (d : Dict Nat (List Nat)), (d.map Prod.fst).Nodup → ((ws.foldl (addWord ind) d).map Prod.fst).Nodup := by
    intro ind ws
    induction ws with
    | nil => intro d h; exact h
    | cons w r ih => intro d h; exact ih _ (addWord_keys ind d w h)
  have : ∀ d : Dict Nat (List Nat), (d.map Prod.fst).Nodup →
      ((forward.foldl (fun d e => e.2.foldl (addWord e.1) d) d).map Prod.fst).Nodup := by
    induction forward with
    | nil => intro d h; exact h
    | cons p r ih => intro d h; exact ih _ (hw _ _ _ h)
  exact this [] (by simp)

/-! ### The search in clear -/

theorem plain_fold (forward : Dict Nat (List Nat)) (rest : List Nat) : ∀ (l : List Nat), (∀ i ∈ l, ∃ ws, Dict.get? forward i = some ws) →
    ∃ out, l.foldr (fun ind acc =>
      match acc with
      | .error er => .error er
      | .ok l =>
        match Dict.getItem forward ind with
        | .error er => .error er
        | .ok ws => .ok (if rest.all (fun w => decide (w ∈ ws)) then ind :: l else l)) (.ok [] : Except PyErr (List Nat)) = .ok out ∧
      out = l.filter fun i => rest.all fun w => decide (w ∈ (Dict.get? forward i).getD []) := by
  intro l
  induction l with
  | nil => intro _; exact ⟨[], rfl, rfl⟩
  | cons a r ih =>
    intro h
    obtain ⟨out, h1, h2⟩ := ih fun i hi => h i (by simp [hi])
    obtain ⟨ws, hw⟩ := h a (by simp)
    refine ⟨if rest.all (fun w => decide (w ∈ ws)) then a :: out else out, ?_, ?_⟩
    · rw [List.foldr_cons, h1]
      simp only [Dict.getItem, hw]
    · rw [List.filter_cons, hw, ← h2]
      rfl

theorem plain_eq (forward : Dict Nat (List Nat)) (hn : (forward.map Prod.fst).Nodup) (first : Nat) (rest : List Nat) :
    searchPlain forward first rest = .ok ((rowsOf (invert forward) first).filter fun i =>
      rest.all fun w => decide (w ∈ (Dict.get? forward i).getD [])) := by
  obtain ⟨out, h1, h2⟩ := plain_fold forward rest (rowsOf (invert forward) first) (by
    intro i hi
    obtain ⟨ws, hm, _⟩ := (C47_inverted_exact _ _ _).1 hi
    exact ⟨ws, Dict.get?_of_mem_nodup hn hm⟩)
  rw [← h2]
  exact h1

/-- **C47: the search in clear is exact**: it gives the rows that have all the words, and it never raises. -/
theorem C47_plain_exact (forward : Dict Nat (List Nat)) (hn : (forward.map Prod.fst).Nodup) (first : Nat) (rest : List Nat) :
    ∃ out, searchPlain forward first rest = .ok out ∧
      ∀ i, i ∈ out ↔ ∃ ws, Dict.get? forward i = some ws ∧ first ∈ ws ∧ ∀ w ∈ rest, w ∈ ws := by
  refine ⟨_, plain_eq forward hn first rest, ?_⟩
  intro i
  rw [List.mem_filter, C47_inverted_exact]
  constructor
  · rintro ⟨⟨ws, hm, hf⟩, hall⟩
    have hg := Dict.get?_of_mem_nodup hn hm
    refine ⟨ws, hg, hf, ?_⟩
    rw [List.all_eq_true] at hall
    intro w hw
    have := hall w hw
    rw [hg] at this
    simpa using this
  · rintro ⟨ws, hg, hf, hall⟩
    refine ⟨⟨ws, Dict.mem_of_get? hg, hf⟩, ?_⟩
    rw [hg, List.all_eq_true]
    intro w hw
    simpa using hall w hw

/-! ### The encrypted search against the search in clear -/

/-- **C47 under its assumption.** If the hashes that name the entries differ on the words of the index, no hash under `k_z` is a multiple of the modulus, and
the tags of different pairs differ, then an encrypted search gives the encryption of exactly what the search in clear gives. -/
theorem C47_agrees_partial {e : Env γ} (forward : Dict Nat (List Nat)) (hn : (forward.map Prod.fst).Nodup) (first : Nat) (rest : List Nat)
    (hf : ∃ i ws, (i, ws) ∈ forward ∧ first ∈ ws)
    (ht : ∀ p ∈ invert forward, e.t p.1 = e.t first → p.1 = first)
    (hz : ∀ p ∈ invert forward, e.z p.1 % modP ≠ 0)
    (htag : ∀ w ∈ rest, ∀ i, ∀ w' i', i ∈ rowsOf (invert forward) first → i' ∈ rowsOf (invert forward) w' →
      e.xTag w i = e.xTag w' i' → w = w' ∧ i = i') :
    ∃ out, searchPlain forward first rest = .ok out ∧ search e (invert forward) first rest = .ok (out.map (e.enc first)) := by
  obtain ⟨⟨td, xs⟩, hs⟩ := C47_setup_total (e := e) (invert forward) hz
  have hin := invert_nodup forward
  obtain ⟨i0, ws0, hm0, hf0⟩ := hf
  have hrow : i0 ∈ rowsOf (invert forward) first := (C47_inverted_exact _ _ _).2 ⟨ws0, hm0, hf0⟩
  have hget : ∃ inds, Dict.get? (invert forward) first = some inds := by
    cases hg : Dict.get? (invert forward) first with
    | none => simp [rowsOf, hg] at hrow
    | some l => exact ⟨l, rfl⟩
  obtain ⟨inds, hg⟩ := hget
  have hrows : rowsOf (invert forward) first = inds := by simp [rowsOf, hg]
  refine ⟨_, plain_eq forward hn first rest, ?_⟩
  rw [C47_search_exact first inds rest hs (Dict.mem_of_get? hg) (by
    intro p hp heq
    have h1 := ht p hp heq
    obtain ⟨pw, pl⟩ := p
    cases h1
    have := Dict.get?_of_mem_nodup hin hp
    rw [hg] at this
    cases this
    rfl), hrows]
  congr 2
  apply List.filter_congr
  intro i hi
  rw [Bool.eq_iff_iff, List.all_eq_true, List.all_eq_true]
  have hi' : i ∈ rowsOf (invert forward) first := hrows ▸ hi
  constructor
  · intro h w hw
    have := h w hw
    rw [decide_eq_true_eq, (setupFrom_spec hs).1] at this
    rcases this with h0 | ⟨w', l, hm, i', hi'', htg⟩
    · simp at h0
    · have hr' : i' ∈ rowsOf (invert forward) w' := by simpa [rowsOf, Dict.get?_of_mem_nodup hin hm] using hi''
      obtain ⟨rfl, rfl⟩ := htag w hw i w' i' hi' hr' htg
      obtain ⟨ws, h1, h2⟩ := (C47_inverted_exact _ _ _).1 hr'
      simpa [Dict.get?_of_mem_nodup hn h1] using h2
  · intro h w hw
    have h1 := h w hw
    obtain ⟨ws, h2, _⟩ := (C47_inverted_exact _ _ _).1 hi'
    rw [Dict.get?_of_mem_nodup hn h2] at h1
    have h3 : i ∈ rowsOf (invert forward) w := (C47_inverted_exact _ _ _).2 ⟨ws, h2, by simpa using h1⟩
    rw [decide_eq_true_eq, (setupFrom_spec hs).1]
    cases hgw : Dict.get? (invert forward) w with
    | none => simp [rowsOf, hgw] at h3
    | some l => exact Or.inr ⟨w, l, Dict.mem_of_get? hgw, i, by simpa [rowsOf, hgw] using h3, rfl⟩

/-- **C47 fails: a word that no row has.** The search in clear gives no rows; the encrypted one raises. -/
theorem C47_fails_absent_word {e : Env γ} (index : List (Nat × List Nat)) (w : Nat) (rest : List Nat) (h : ∀ p ∈ index, e.t p.1 ≠ e.t w)
    (hz : ∀ p ∈ index, e.z p.1 % modP ≠ 0) : search e index w rest = .error .keyError := by
  obtain ⟨⟨td, xs⟩, hs⟩ := C47_setup_total index hz
  have := (setupFrom_spec hs).2.1 (e.t w) h
  simp only [search, hs, buildIndex, searchEnc, this, Dict.get?]

/-- The hypotheses of `C47_agrees_partial` can be met: two rows, two words, hashes the numbers themselves. -/
def demoForward : Dict Nat (List Nat) := [(1, [10, 21]), (2, [10])]

def demoHash : Env (Nat × Nat) := ⟨fun w => w, fun i => i, fun w => w, fun w => w, fun w i => (w, i)⟩

example : ∃ out, searchPlain demoForward 10 [21] = .ok out ∧ search demoHash (invert demoForward) 10 [21] = .ok (out.map (demoHash.enc 10)) := by
  have hinv : invert demoForward = [(10, [1, 2]), (21, [1])] := by decide
  refine C47_agrees_partial demoForward (by decide) 10 [21] ⟨1, [10, 21], by decide, by decide⟩ ?_ ?_ ?_
  · rw [hinv]; decide
  · rw [hinv]; decide
  · rw [hinv]
    intro w hw i w' i' hi hi' h
    have hw' : w = 21 := by simpa using hw
    subst hw'
    have hi1 : i = 1 ∨ i = 2 := by simpa [rowsOf, Dict.get?] using hi
    by_cases h10 : w' = 10
    · subst h10
      have : i' = 1 ∨ i' = 2 := by simpa [rowsOf, Dict.get?] using hi'
      rcases hi1 with rfl | rfl <;> rcases this with rfl | rfl <;> revert h <;> decide
    · by_cases h20 : w' = 21
      · subst h20
        have : i' = 1 := by simpa [rowsOf, Dict.get?] using hi'
        rcases hi1 with rfl | rfl <;> subst this <;> revert h <;> decide
      · exfalso
        simp [rowsOf, Dict.get?, Ne.symm h10, Ne.symm h20] at hi'

/-! ### The words of a text -/

theorem C47_fails_empty_text : keywords [] = .error .valueError := by
  simp [keywords, pieces, encodeAll, encodeWord]

theorem C47_fails_leading_separator (b : UInt8) (r : List UInt8) (h : isSep b = true) : keywords (b :: r) = .error .valueError := by
  unfold keywords pieces
  simp [h, encodeAll, encodeWord]

/-- One such text stops the construction of the whole index. -/
theorem C47_fails_whole_index (a b : List (List UInt8)) (t : List UInt8) (h : keywords t = .error .valueError)
    (ha : ∀ x ∈ a, ∃ ws, keywords x = .ok ws) : forwardIndex (a ++ t :: b) = .error .valueError := by
  have : ∀ n, forwardFrom n (a ++ t :: b) = .error .valueError := by
    induction a with
    | nil => intro n; simp only [List.nil_append, forwardFrom, h]
    | cons x r ih =>
      intro n
      obtain ⟨ws, hx⟩ := ha x (by simp)
      simp only [List.cons_append, forwardFrom, hx, ih (fun y hy => ha y (by simp [hy])) (n + 1)]
  exact this 1

/-- A zero byte at the start of a word is lost. -/
theorem C47_fails_zero_byte (b : UInt8) (w : List UInt8) : encodeWord (0 :: b :: w) = encodeWord (b :: w) := by
  simp [encodeWord]

/-- The number of a word, read as digits to the base 256. -/
theorem number_digits (l : List UInt8) : l.foldl (fun n b => n * 256 + b.toNat) 0 = Nat.ofDigits 256 (l.reverse.map UInt8.toNat) := by
  rw [Nat.ofDigits_eq_foldr, List.foldr_map, List.foldr_reverse]
  congr 1
  funext n b
  simp [Nat.mul_comm, Nat.add_comm]

/-- **C47: different words have different numbers**, as long as none starts with a zero byte. -/
theorem C47_word_numbers_partial (a b : UInt8) (v w : List UInt8) (ha : a ≠ 0) (hb : b ≠ 0)
    (h : encodeWord (a :: v) = encodeWord (b :: w)) : a :: v = b :: w := by
  have key : ∀ (c : UInt8) (u : List UInt8), c ≠ 0 → Nat.digits 256 (Nat.ofDigits 256 ((c :: u).reverse.map UInt8.toNat)) = (c :: u).reverse.map UInt8.toNat := by
    intro c u hc
    apply Nat.digits_ofDigits 256 (by decide)
    · intro l hl
      obtain ⟨x, _, rfl⟩ := List.mem_map.1 hl
      exact x.toNat_lt
    · intro hne
      simp only [List.reverse_cons, List.map_append, List.map_cons, List.map_nil, List.getLast_append_singleton]
      intro h0
      exact hc (UInt8.toNat_inj.1 h0)
  simp only [encodeWord, Except.ok.injEq] at h
  rw [number_digits, number_digits] at h
  have h2 := congrArg (Nat.digits 256) h
  rw [key a v ha, key b w hb] at h2
  have h3 := List.map_injective_iff.2 (fun x y hxy => UInt8.toNat_inj.1 hxy) h2
  exact List.reverse_injective h3

/-! ### Splitting a text -/

theorem pieces_word (w : List UInt8) (hw : ∀ b ∈ w, isSep b = false) : ∀ (cur r : List UInt8), pieces cur (w ++ r) = pieces (cur ++ w) r := by
  induction w with
  | nil => intro cur r; simp
  | cons b w ih =>
    intro cur r
    rw [List.cons_append, pieces]
    rw [if_neg (by simp [hw b (by simp)]), ih (fun x hx => hw x (by simp [hx]))]
    simp

/-- A text: words, each followed by a run of separators. -/
def spell : List (List UInt8 × List UInt8) → List UInt8
  | [] => []
  | (w, s) :: r => w ++ s ++ spell r

/-- Words without separators in them, not empty; only the last may have nothing after it. -/
def Spelled : List (List UInt8 × List UInt8) → Prop
  | [] => True
  | (w, s) :: r => w ≠ [] ∧ (∀ b ∈ w, isSep b = false) ∧ (∀ b ∈ s, isSep b = true) ∧ (r ≠ [] → s ≠ []) ∧ Spelled r

/-- **The words of a text**, if it has one and does not start with a separator, are all found and nothing else. -/
theorem C47_pieces_partial : ∀ (l : List (List UInt8 × List UInt8)), l ≠ [] → Spelled l → pieces [] (spell l) = l.map Prod.fst := by
  intro l
  induction l with
  | nil => intro h; exact absurd rfl h
  | cons p r ih =>
    obtain ⟨w, s⟩ := p
    rintro - ⟨hw0, hw, hs, hne, hr⟩
    rw [spell, List.append_assoc, pieces_word w hw, List.nil_append]
    cases s with
    | nil =>
      have : r = [] := by
        by_contra h
        exact hne h rfl
      subst this
      simp [spell, pieces]
    | cons b s =>
      rw [List.cons_append, pieces, if_pos (hs b (by simp))]
      by_cases hr0 : r = []
      · subst hr0
        rw [spell, List.append_nil, if_pos (List.all_eq_true.2 fun x hx => hs x (by simp [hx]))]
        rfl
      · have hrest : ∃ c t, spell r = c :: t ∧ isSep c = false := by
          cases r with
          | nil => exact absurd rfl hr0
          | cons q r' =>
            obtain ⟨w', s'⟩ := q
            obtain ⟨h1, h2, _⟩ := hr
            cases w' with
            | nil => exact absurd rfl h1
            | cons c w'' => exact ⟨c, w'' ++ s' ++ spell r', by simp [spell], h2 c (by simp)⟩
        obtain ⟨c, t, hc, hsep⟩ := hrest
        have hd : (s ++ spell r).dropWhile isSep = spell r := by
          have : ∀ s : List UInt8, (∀ x ∈ s, isSep x = true) → (s ++ spell r).dropWhile isSep = spell r := by
            intro s
            induction s with
            | nil => intro _; rw [List.nil_append, hc, List.dropWhile_cons, hsep]; rfl
            | cons x s ihs => intro h; rw [List.cons_append, List.dropWhile_cons, if_pos (h x (by simp))]; exact ihs fun y hy => h y (by simp [hy])
          exact this s fun x hx => hs x (by simp [hx])
        rw [if_neg, hd, ih hr0 hr]
        · rfl
        · intro hall
          rw [List.all_eq_true] at hall
          have := hall c (by simp [hc])
          rw [hsep] at this
          cases this

/-- **C47 fails for numbers and abbreviations**: a full stop or a comma inside a word takes it apart, so that neither `3.14` nor `U.S` is a word of any text. -/
theorem C47_fails_full_stop (v w : List UInt8) (hv : v ≠ []) (hw : w ≠ []) (h1 : ∀ b ∈ v, isSep b = false) (h2 : ∀ b ∈ w, isSep b = false) (s : UInt8)
    (hs : s = 46 ∨ s = 44 ∨ s = 32) : pieces [] (v ++ s :: w) = [v, w] := by
  have := C47_pieces_partial [(v, [s]), (w, [])] (by simp)
    ⟨hv, h1, by rcases hs with rfl | rfl | rfl <;> decide, by simp, hw, h2, by simp, by simp, trivial⟩
  simpa [spell] using this

/-- The hypotheses can be met: the words of `a b`. -/
example : pieces [] [97, 32, 98] = [[97], [98]] :=
  C47_pieces_partial [([97], [32]), ([98], [])] (by simp) ⟨by simp, by decide, by decide, by simp, by simp, by decide, by decide, by simp, trivial⟩

/-! ### The hash under a key -/

/-- `OXTRandom.prf`, 72-74, over a hash function: the key and the number are written one after the other. -/
def prf (md5 : List Char → Nat) (key : List Char) (n : Nat) : Nat := md5 (key ++ Text.natStr n)

/-- **C47 fails to separate keys**: a key that continues another by the first digits of a number gives the same hash for the rest of it. -/
theorem C47_fails_key_boundary (md5 : List Char → Nat) (key : List Char) (a b n : Nat) (h : Text.natStr n = Text.natStr a ++ Text.natStr b) :
    prf md5 (key ++ Text.natStr a) b = prf md5 key n := by
  simp only [prf, h, List.append_assoc]

example (md5 : List Char → Nat) (key : List Char) : prf md5 (key ++ ['1']) 2 = prf md5 key 12 :=
  C47_fails_key_boundary md5 key 1 2 12 (by decide)

/-- Under one key, different numbers are hashed differently if the hash function is injective. -/
theorem C47_prf_injective (md5 : List Char → Nat) (hinj : Function.Injective md5) (key : List Char) (a b : Nat) (h : prf md5 key a = prf md5 key b) : a = b :=
  Text.natStr_inj (List.append_cancel_left (hinj h))

end EulerDB.Oxt
