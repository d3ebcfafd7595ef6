/-
C100: of several words the longest that is there is taken, in whatever order they are given.
-/
import Verif.OneOf.Model

namespace EulerDB.OneOf

/-! ### The loop ends -/

theorem firstMasked_none {f : Char → Char} {cur : List Char} : ∀ {l : List (List Char)}, firstMasked f cur l = none → ∀ o ∈ l, masks f cur o = false
  | [], _, o, ho => by cases ho
  | x :: r, h, o, ho => by
    rw [firstMasked] at h
    split at h
    · cases h
    · next hx =>
      split at h
      · next hr =>
        rcases List.mem_cons.1 ho with rfl | ho
        · simp only [Bool.or_eq_true, not_or] at hx
          simpa using hx.2
        · exact firstMasked_none hr o ho
      · cases h

theorem firstMasked_some {f : Char → Char} {cur : List Char} : ∀ {l pre post : List (List Char)} {x : List Char}, firstMasked f cur l = some (pre, x, post) →
    l = pre ++ x :: post ∧ (isEqual f x cur = true ∨ masks f cur x = true)
  | [], _, _, _, h => by cases h
  | o :: r, pre, post, x, h => by
    rw [firstMasked] at h
    split at h
    · next ho =>
      injection h with h
      injection h with h1 h2
      injection h2 with h2 h3
      subst h1; subst h2; subst h3
      exact ⟨rfl, by simpa using ho⟩
    · split at h
      · cases h
      · next pre' x' post' hr =>
        injection h with h
        injection h with h1 h2
        injection h2 with h2 h3
        subst h1; subst h2; subst h3
        obtain ⟨h4, h5⟩ := firstMasked_some hr
        exact ⟨by rw [h4]; rfl, h5⟩

theorem masks_longer {f : Char → Char} {a b : List Char} (h : masks f a b = true) (hne : isEqual f b a = false) : a.length < b.length := by
  unfold masks at h
  have hp := List.isPrefixOf_iff_prefix.1 h
  have hl := hp.length_le
  rw [List.length_map, List.length_map] at hl
  rcases Nat.lt_or_ge a.length b.length with hlt | hge
  · exact hlt
  · have he : a.map f = b.map f := hp.eq_of_length (by rw [List.length_map, List.length_map]; omega)
    simp [isEqual, he] at hne

theorem longest_le {l : List (List Char)} {s : List Char} (h : s ∈ l) : s.length ≤ longest l := by
  induction l with
  | nil => cases h
  | cons a r ih =>
    have hc : longest (a :: r) = max a.length (longest r) := rfl
    rw [hc]
    rcases List.mem_cons.1 h with rfl | h
    · omega
    · have := ih h
      omega

/-- What the loop makes of the words: no word is a beginning of a later one, none is new, and none is lost but for case. -/
structure Good (f : Char → Char) (input out : List (List Char)) : Prop where
  order : out.Pairwise fun a b => masks f a b = false
  old : ∀ s ∈ out, s ∈ input
  all : ∀ s ∈ input, ∃ t ∈ out, t.map f = s.map f

def weight (M : Nat) : List (List Char) → Nat
  | [] => 0
  | c :: r => (r.length + 1) * (M + 1) + (M - c.length)

theorem weight_tail (M : Nat) (c : List Char) (r : List (List Char)) : weight M r < weight M (c :: r) := by
  cases r with
  | nil => simp only [weight, List.length_nil]; omega
  | cons d r =>
    simp only [weight, List.length_cons]
    have : (r.length + 1 + 1) * (M + 1) = (r.length + 1) * (M + 1) + (M + 1) := by rw [Nat.add_mul (r.length + 1) 1, Nat.one_mul]
    omega

theorem reorder_good (f : Char → Char) (M : Nat) : ∀ (fuel : Nat) (done l : List (List Char)), weight M l < fuel → (∀ s ∈ l, s.length ≤ M) →
    done.Pairwise (fun a b => masks f a b = false) → (∀ a ∈ done, ∀ b ∈ l, masks f a b = false) → ∃ k, reorder f fuel done l = .ok k ∧ Good f (done ++ l) k
  | 0, _, _, h, _, _, _ => by omega
  | fuel + 1, done, [], _, _, hd, _ => by
    refine ⟨done, by rw [reorder], ⟨hd, ?_, ?_⟩⟩
    · intro s hs
      simpa using hs
    · intro s hs
      exact ⟨s, by simpa using hs, rfl⟩
  | fuel + 1, done, cur :: rest, h, hM, hd, hdl => by
    rw [reorder]
    cases hf : firstMasked f cur rest with
    | none =>
      have hn := firstMasked_none hf
      obtain ⟨k, h1, h2⟩ := reorder_good f M fuel (done ++ [cur]) rest (by have := weight_tail M cur rest; omega) (fun s hs => hM s (List.mem_cons_of_mem _ hs))
        (by
          rw [List.pairwise_append]
          refine ⟨hd, by simp, ?_⟩
          intro a ha b hb
          rw [List.mem_singleton.1 hb]
          exact hdl a ha cur List.mem_cons_self)
        (by
          intro a ha b hb
          rcases List.mem_append.1 ha with ha | ha
          · exact hdl a ha b (List.mem_cons_of_mem _ hb)
          · rw [List.mem_singleton.1 ha]
            exact hn b hb)
      refine ⟨k, h1, ?_⟩
      rw [List.append_assoc] at h2
      exact h2
    | some p =>
      obtain ⟨pre, x, post⟩ := p
      obtain ⟨h3, h4⟩ := firstMasked_some hf
      subst h3
      simp only
      split
      · next he =>
        obtain ⟨k, h1, h2⟩ := reorder_good f M fuel done (cur :: (pre ++ post))
          (by
            simp only [weight, List.length_append, List.length_cons] at h ⊢
            have : (pre.length + (post.length + 1) + 1) * (M + 1) = (pre.length + post.length + 1) * (M + 1) + (M + 1) := by
              rw [← Nat.add_one_mul]
              congr 1
            omega)
          (by
            intro s hs
            refine hM s ?_
            simp only [List.mem_cons, List.mem_append] at hs ⊢
            tauto)
          hd
          (by
            intro a ha b hb
            refine hdl a ha b ?_
            simp only [List.mem_cons, List.mem_append] at hb ⊢
            tauto)
        refine ⟨k, h1, ⟨h2.order, ?_, ?_⟩⟩
        · intro s hs
          have := h2.old s hs
          simp only [List.mem_cons, List.mem_append] at this ⊢
          tauto
        · intro s hs
          by_cases hsx : s = x
          · obtain ⟨t, ht, hte⟩ := h2.all cur (by simp)
            refine ⟨t, ht, ?_⟩
            have he' : x.map f = cur.map f := by simpa [isEqual] using he
            rw [hte, hsx, he']
          · refine h2.all s ?_
            simp only [List.mem_cons, List.mem_append] at hs ⊢
            tauto
      · next he =>
        have he' : isEqual f x cur = false := by simpa using he
        have hm : masks f cur x = true := by
          rcases h4 with h4 | h4
          · rw [he'] at h4; cases h4
          · exact h4
        have hlen := masks_longer hm he'
        have hxM := hM x (by simp)
        obtain ⟨k, h1, h2⟩ := reorder_good f M fuel done (x :: cur :: (pre ++ post))
          (by
            simp only [weight, List.length_append, List.length_cons] at h ⊢
            have : (pre.length + post.length + 1 + 1) = (pre.length + (post.length + 1) + 1) := by omega
            rw [this]
            omega)
          (by
            intro s hs
            refine hM s ?_
            simp only [List.mem_cons, List.mem_append] at hs ⊢
            tauto)
          hd
          (by
            intro a ha b hb
            refine hdl a ha b ?_
            simp only [List.mem_cons, List.mem_append] at hb ⊢
            tauto)
        refine ⟨k, h1, ⟨h2.order, ?_, ?_⟩⟩
        · intro s hs
          have := h2.old s hs
          simp only [List.mem_cons, List.mem_append] at this ⊢
          tauto
        · intro s hs
          refine h2.all s ?_
          simp only [List.mem_cons, List.mem_append] at hs ⊢
          tauto

theorem weight_le {l : List (List Char)} : weight (longest l) l < (l.length + 1) * (longest l + 1) + 1 := by
  cases l with
  | nil => simp [weight]
  | cons c r =>
    simp only [weight, List.length_cons]
    have : (r.length + 1 + 1) * (longest (c :: r) + 1) = (r.length + 1) * (longest (c :: r) + 1) + (longest (c :: r) + 1) := by rw [Nat.add_mul (r.length + 1) 1, Nat.one_mul]
    omega

/-- **C100 (the order).** Putting the words in order ends for every list of words; afterwards no word is a beginning of a later one, none is new, and none is lost but for case and
repetition. -/
theorem C100_order (f : Char → Char) (l : List (List Char)) : ∃ k, ordered f l = .ok k ∧ Good f l k := by
  obtain ⟨k, h1, h2⟩ := reorder_good f (longest l) ((l.length + 1) * (longest l + 1) + 1) [] l weight_le (fun s hs => longest_le hs) .nil (by intro a ha; cases ha)
  exact ⟨k, h1, h2⟩

/-! ### The first is the longest -/

theorem longer_first {f : Char → Char} {text a b : List Char} (ha : literal f text a = true) (hb : literal f text b = true) (hm : masks f a b = false) : b.length ≤ a.length := by
  unfold literal at ha hb
  have h1 := List.isPrefixOf_iff_prefix.1 ha
  have h2 := List.isPrefixOf_iff_prefix.1 hb
  rcases Nat.le_total b.length a.length with h | h
  · exact h
  · have : a.map f <+: b.map f := List.prefix_of_prefix_length_le h1 h2 (by rw [List.length_map, List.length_map]; exact h)
    rw [masks, List.isPrefixOf_iff_prefix.2 this] at hm
    cases hm

theorem find_first {p : List Char → Bool} {R : List Char → List Char → Prop} : ∀ {k : List (List Char)} {s : List Char}, k.Pairwise R → k.find? p = some s → ∀ t ∈ k, p t = true → t = s ∨ R s t
  | [], _, _, h, _, _, _ => by cases h
  | a :: r, s, hp, h, t, ht, hpt => by
    rw [List.pairwise_cons] at hp
    rw [List.find?_cons] at h
    cases ha : p a with
    | true =>
      rw [ha] at h
      injection h with h
      subst h
      rcases List.mem_cons.1 ht with rfl | ht
      · exact .inl rfl
      · exact .inr (hp.1 t ht)
    | false =>
      rw [ha] at h
      rcases List.mem_cons.1 ht with rfl | ht
      · rw [ha] at hpt; cases hpt
      · exact find_first hp.2 h t ht hpt

theorem literal_map {f : Char → Char} {text s t : List Char} (h : t.map f = s.map f) : literal f text t = literal f text s := by
  unfold literal
  rw [h]

/-- The choice the words promise: a word is found exactly if one is there, it is one of the words, and none that is there is longer. -/
def Longest (p : List Char → Bool) (l : List (List Char)) (out : Option (List Char)) : Prop :=
  match out with
  | none => ∀ s ∈ l, p s = false
  | some s => s ∈ l ∧ p s = true ∧ ∀ t ∈ l, p t = true → t.length ≤ s.length

/-- Trying the words in that order finds the longest. -/
theorem C100_first_is_longest {f : Char → Char} {l k : List (List Char)} (h : Good f l k) (text : List Char) : Longest (literal f text) l (first (literal f text) k) := by
  unfold Longest first
  cases hf : k.find? (literal f text) with
  | none =>
    intro s hs
    obtain ⟨t, ht, hte⟩ := h.all s hs
    have := List.find?_eq_none.1 hf t ht
    rw [← literal_map hte]
    simpa using this
  | some s =>
    have hs := List.find?_some hf
    refine ⟨h.old s (List.mem_of_find?_eq_some hf), hs, ?_⟩
    intro t ht hpt
    obtain ⟨u, hu, hue⟩ := h.all t ht
    have hpu : literal f text u = true := by rw [literal_map hue]; exact hpt
    have hlen : u.length = t.length := by
      have := congrArg List.length hue
      simpa using this
    rcases find_first h.order hf u hu hpu with rfl | hR
    · omega
    · have := longer_first hs hpu hR
      omega

theorem caseless_literal {f : Char → Char} {text s : List Char} (h : s.length = 1 → ∀ c ∈ s, ∀ d, f d = f c → d = c) : caselessLiteral f text s = literal f text s := by
  unfold caselessLiteral literal
  split
  · next h1 =>
    match s, h1 with
    | [c], _ =>
      have hc := h rfl c List.mem_cons_self
      cases text with
      | nil => rfl
      | cons d r =>
        simp only [List.map_cons, List.map_nil, List.isPrefixOf, Bool.and_true]
        by_cases hd : c = d
        · simp [hd]
        · have : f c ≠ f d := fun he => hd (hc d he.symm).symm
          rw [beq_eq_false_iff_ne.2 hd, beq_eq_false_iff_ne.2 this]
  · rfl

theorem find_congr {p q : List Char → Bool} : ∀ {k : List (List Char)}, (∀ s ∈ k, p s = q s) → k.find? p = k.find? q
  | [], _ => rfl
  | a :: r, h => by
    rw [List.find?_cons, List.find?_cons, h a List.mem_cons_self, find_congr fun s hs => h s (List.mem_cons_of_mem _ hs)]

/-- **C100 (words whatever their case, partial).** If the words of one character are no letters, the longest word that is there is taken, whatever the case of its letters and the
order of the words. -/
theorem C100_caseless_partial (f : Char → Char) (l : List (List Char)) (h : ∀ s ∈ l, s.length = 1 → ∀ c ∈ s, ∀ d, f d = f c → d = c) (text : List Char) :
    ∃ r, caseless f l text = .ok r ∧ Longest (literal f text) l r := by
  obtain ⟨k, h1, h2⟩ := C100_order f l
  refine ⟨first (literal f text) k, ?_, C100_first_is_longest h2 text⟩
  unfold caseless
  rw [h1]
  simp only [first]
  congr 1
  refine find_congr fun s hs => ?_
  exact caseless_literal (h s (h2.old s hs))

/-! ### The pattern -/

theorem mem_pattern {k : List (List Char)} {s : List Char} : s ∈ pattern k ↔ s ∈ k := by
  unfold pattern
  rw [List.mem_append, List.mem_mergeSort, List.mem_filter, List.mem_filter]
  by_cases h : s.length = 1 <;> simp [h]

theorem pattern_order {k : List (List Char)} (h : [] ∉ k) : (pattern k).Pairwise fun a b => b.length ≤ a.length := by
  unfold pattern
  rw [List.pairwise_append]
  refine ⟨?_, ?_, ?_⟩
  · have := List.pairwise_mergeSort (le := fun (a b : List Char) => decide (b.length ≤ a.length)) (fun a b c h1 h2 => by simp only [decide_eq_true_eq] at *; omega)
      (fun a b => by simp only [Bool.or_eq_true, decide_eq_true_eq]; omega) (k.filter (fun s => s.length != 1))
    exact this.imp fun h => by simpa using h
  · refine List.Pairwise.imp_of_mem (R := fun _ _ => True) ?_ (List.pairwise_of_forall (fun _ _ => trivial))
    intro a b ha hb _
    have h1 := (List.mem_filter.1 ha).2
    have h2 := (List.mem_filter.1 hb).2
    simp only [beq_iff_eq] at h1 h2
    omega
  · intro a ha b hb
    rw [List.mem_mergeSort] at ha
    have h1 := (List.mem_filter.1 ha).1
    have h2 := (List.mem_filter.1 hb).2
    simp only [beq_iff_eq] at h2
    cases a with
    | nil => exact absurd h1 h
    | cons c r => simp only [List.length_cons]; omega

/-- **C100 (words as they are).** Without the empty word among them, the longest word that is there is taken, whatever the order of the words. -/
theorem C100_exact (l : List (List Char)) (h : [] ∉ l) (text : List Char) : ∃ r, exact l text = .ok r ∧ Longest (literal id text) l r := by
  obtain ⟨k, h1, h2⟩ := C100_order id l
  have hk : [] ∉ k := fun hk => h (h2.old [] hk)
  refine ⟨first (literal id text) (pattern k), by unfold exact; rw [h1], ?_⟩
  unfold Longest first
  cases hf : (pattern k).find? (literal id text) with
  | none =>
    intro s hs
    obtain ⟨t, ht, hte⟩ := h2.all s hs
    have := List.find?_eq_none.1 hf t (mem_pattern.2 ht)
    rw [← literal_map hte]
    simpa using this
  | some s =>
    refine ⟨h2.old s (mem_pattern.1 (List.mem_of_find?_eq_some hf)), List.find?_some hf, ?_⟩
    intro t ht hpt
    obtain ⟨u, hu, hue⟩ := h2.all t ht
    have hut : u = t := by simpa using hue
    subst hut
    rcases find_first (pattern_order hk) hf u (mem_pattern.2 hu) hpt with rfl | hR
    · omega
    · exact hR

/-- `<`, `<=`, `<>` in any order. -/
example : exact ["<".toList, "<=".toList, "<>".toList] "<= 5".toList = .ok (some "<=".toList) ∧ exact ["<>".toList, "<".toList, "<=".toList] "< 5".toList = .ok (some "<".toList) := by
  have h1 : ordered id ["<".toList, "<=".toList, "<>".toList] = .ok ["<=".toList, "<>".toList, "<".toList] := by decide
  have h2 : ordered id ["<>".toList, "<".toList, "<=".toList] = .ok ["<>".toList, "<=".toList, "<".toList] := by decide
  unfold exact
  rw [h1, h2]
  simp [first, pattern, literal, List.mergeSort, List.MergeSort.Internal.splitInTwo]

/-! ### Where it is false -/

/-- **C100 (false: the empty word).** The empty word, beside a longer one, is tried before the words of one character. -/
theorem C100_fails_empty {a b c : Char} (hac : a ≠ c) (text : List Char) : exact [[a, b], [], [c]] (c :: text) = .ok (some []) := by
  have h : ordered id [[a, b], [], [c]] = .ok [[a, b], [c], []] := by
    simp [ordered, reorder, firstMasked, isEqual, masks, longest, hac]
  unfold exact
  rw [h]
  simp [first, pattern, literal, List.mergeSort, List.MergeSort.Internal.splitInTwo, hac]

/-- **C100 (false: letters whatever their case).** A word of one letter is found in the case it is given only. -/
theorem C100_fails_letter {f : Char → Char} {c d : Char} (hcd : c ≠ d) (hf : f c = f d) (text : List Char) :
    caseless f [[c]] (d :: text) = .ok none ∧ literal f (d :: text) [c] = true := by
  constructor
  · simp [caseless, ordered, reorder, firstMasked, longest, first, caselessLiteral, hcd]
  · simp [literal, hf]

example : caseless Char.toUpper ["a".toList] "A".toList = .ok none ∧ caseless Char.toUpper ["ab".toList, "a".toList, "abc".toList] "ABCD".toList = .ok (some "abc".toList) := by decide

/-- **C100 (false: keywords).** Keywords are tried in the order given: a keyword hides every longer one that goes on with a character that is none of words, as `GROUP` hides
`GROUP BY`. -/
theorem C100_fails_keywords {f : Char → Char} {ident : Char → Bool} {s t : List Char} {c : Char} (hc : ident c = false) (rest : List Char) :
    keywords f ident [s, s ++ c :: t] (s ++ c :: t ++ rest) = some s := by
  have h : keyword f ident (s ++ c :: t ++ rest) s = true := by
    simp [keyword, hc]
  unfold keywords first
  rw [List.find?_cons, h]

example : keywords Char.toUpper Char.isAlpha ["group".toList, "group by".toList] "GROUP BY a".toList = some "group".toList ∧
    keywords Char.toUpper Char.isAlpha ["group by".toList, "group".toList] "GROUP BY a".toList = some "group by".toList := by decide

end EulerDB.OneOf
