import Verif.Comment.Model

/-!
# White space and comments are skipped, and nothing else (C97)
-/

namespace EulerDB.Comment

/-! ## Lines and blocks -/

theorem eol_length : (l : List Char) → (eol l).length ≤ l.length
  | [] => Nat.le_refl _
  | c :: l => by
    unfold eol
    split
    · exact Nat.le_refl _
    · exact Nat.le_trans (eol_length l) (Nat.le_succ _)

theorem eol_split : (l : List Char) → ∃ x, l = x ++ eol l ∧ '\n' ∉ x ∧ (eol l = [] ∨ (eol l).head? = some '\n')
  | [] => ⟨[], rfl, by simp, .inl rfl⟩
  | c :: l => by
    by_cases h : c = '\n'
    · subst h
      exact ⟨[], rfl, by simp, .inr rfl⟩
    · obtain ⟨x, h1, h2, h3⟩ := eol_split l
      have e : eol (c :: l) = eol l := if_neg h
      rw [e]
      refine ⟨c :: x, congrArg (c :: ·) h1, ?_, h3⟩
      rw [List.mem_cons]
      rintro (h4 | h4)
      · exact h h4.symm
      · exact h2 h4

theorem eol_append : (x l : List Char) → '\n' ∉ x → (l = [] ∨ l.head? = some '\n') → eol (x ++ l) = l
  | [], l, _, h => by
    cases l with
    | nil => rfl
    | cons c l =>
      rcases h with h | h
      · cases h
      · injection h with h
        exact if_pos h
  | c :: x, l, hx, h => by
    rw [List.mem_cons] at hx
    have e : eol (c :: x ++ l) = eol (x ++ l) := if_neg fun hc => hx (.inl hc.symm)
    rw [e]
    exact eol_append x l (fun h => hx (.inr h)) h

theorem close_cons2 (c d : Char) (l : List Char) : close (c :: d :: l) = if c = '*' ∧ d = '/' then some l else close (d :: l) := rfl

theorem Free.tail {c : Char} {x : List Char} (h : Free (c :: x)) : Free x := fun u v e => h (c :: u) v (congrArg (c :: ·) e)

theorem Free.cons {c : Char} {x : List Char} (h : Free x) (hc : c = '*' → x.head? ≠ some '/') : Free (c :: x) := by
  intro u v e
  cases u with
  | nil =>
    injection e with e1 e2
    exact hc e1 (by rw [e2]; rfl)
  | cons d u =>
    injection e with e1 e2
    exact h u v e2

theorem close_append : (x l : List Char) → Free x → close (x ++ '*' :: '/' :: l) = some l
  | [], l, _ => rfl
  | [c], l, _ => by
    show close (c :: '*' :: '/' :: l) = some l
    rw [close_cons2, if_neg (by rintro ⟨_, h⟩; cases h)]
    rfl
  | c :: d :: x, l, h => by
    show close (c :: d :: (x ++ '*' :: '/' :: l)) = some l
    rw [close_cons2, if_neg (by
      rintro ⟨rfl, rfl⟩
      exact h [] x rfl)]
    exact close_append (d :: x) l h.tail

theorem close_split : (l r : List Char) → close l = some r → ∃ x, l = x ++ '*' :: '/' :: r ∧ Free x
  | [], _, h => by cases h
  | [_], _, h => by cases h
  | c :: d :: l, r, h => by
    rw [close_cons2] at h
    split at h
    · next hc =>
      injection h with h
      subst h
      refine ⟨[], by rw [hc.1, hc.2]; rfl, fun u v e => ?_⟩
      cases u <;> cases e
    · next hc =>
      obtain ⟨x, h1, h2⟩ := close_split (d :: l) r h
      refine ⟨c :: x, congrArg (c :: ·) h1, h2.cons fun e1 e2 => hc ⟨e1, ?_⟩⟩
      cases x with
      | nil => cases e2
      | cons e x =>
        injection h1 with h3 _
        injection e2 with e2
        rw [h3, e2]

theorem close_none : (l : List Char) → close l = none → Free l := by
  intro l h u v e
  by_cases hf : Free u
  · rw [e, close_append u v hf] at h
    cases h
  · have : ∀ n (u v : List Char), u.length ≤ n → close (u ++ '*' :: '/' :: v) ≠ none := by
      intro n
      induction n with
      | zero =>
        intro u v hu
        cases u with
        | nil =>
          intro h
          cases h
        | cons c u => cases hu
      | succ n ih =>
        intro u v hu
        match u, hu with
        | [], _ =>
          intro h
          cases h
        | [c], _ =>
          show close (c :: '*' :: '/' :: v) ≠ none
          rw [close_cons2, if_neg (by rintro ⟨_, h⟩; cases h)]
          intro h
          cases h
        | c :: d :: u, hu =>
          show close (c :: d :: (u ++ '*' :: '/' :: v)) ≠ none
          rw [close_cons2]
          split
          · intro h
            cases h
          · exact ih (d :: u) v (Nat.le_of_succ_le_succ hu)
    rw [e] at h
    exact this _ u v (Nat.le_refl _) h

theorem close_length {l r : List Char} (h : close l = some r) : r.length < l.length := by
  obtain ⟨x, h1, _⟩ := close_split l r h
  rw [h1, List.length_append]
  show r.length < x.length + (r.length + 1 + 1)
  omega

theorem comment_cons (c : Char) (l : List Char) :
    comment (c :: l) = if c = '#' then some (eol l) else if c = '-' then dash l else if c = '/' then slash l else none := rfl

theorem comment_length {l r : List Char} (h : comment l = some r) : r.length < l.length := by
  cases l with
  | nil => cases h
  | cons c l =>
    rw [comment_cons] at h
    split at h
    · injection h with h
      rw [← h]
      exact Nat.lt_succ_of_le (eol_length l)
    · split at h
      · cases l with
        | nil => cases h
        | cons d m =>
          replace h : (if d = '-' then some (eol m) else none) = some r := h
          split at h
          · injection h with h
            rw [← h]
            exact Nat.lt_succ_of_le (Nat.le_trans (eol_length m) (Nat.le_succ _))
          · cases h
      · split at h
        · cases l with
          | nil => cases h
          | cons d m =>
            replace h : (if d = '*' then close m else none) = some r := h
            split at h
            · have := close_length h
              show r.length < m.length + 1 + 1
              omega
            · cases h
        · cases h

/-! ## The pattern -/

theorem skipN_enough : (n : Nat) → (l : List Char) → l.length ≤ n → ∀ m, l.length ≤ m → skipN n l = skipN m l
  | 0, [], _, m, _ => by cases m <;> rfl
  | 0, _ :: _, h, _, _ => by cases h
  | n + 1, [], _, m, _ => by cases m <;> rfl
  | n + 1, c :: l, h, 0, h' => by cases h'
  | n + 1, c :: l, h, m + 1, h' => by
    show (if white c then skipN n l else match comment (c :: l) with | some r => skipN n r | none => c :: l) =
      (if white c then skipN m l else match comment (c :: l) with | some r => skipN m r | none => c :: l)
    split
    · exact skipN_enough n l (Nat.le_of_succ_le_succ h) m (Nat.le_of_succ_le_succ h')
    · split
      · next r hr =>
        have hl := comment_length hr
        exact skipN_enough n r (by simp at hl h; omega) m (by simp at hl h'; omega)
      · rfl

theorem skipWs_nil : skipWs [] = [] := rfl

theorem skipWs_white {c : Char} (l : List Char) (h : white c = true) : skipWs (c :: l) = skipWs l := by
  show (if white c then skipN l.length l else _) = _
  rw [if_pos h]
  rfl

theorem skipWs_comment {c : Char} {l r : List Char} (h : white c = false) (hc : comment (c :: l) = some r) : skipWs (c :: l) = skipWs r := by
  show (if white c then skipN l.length l else match comment (c :: l) with | some r => skipN l.length r | none => c :: l) = _
  rw [if_neg (by rw [h]; decide), hc]
  have := comment_length hc
  exact skipN_enough _ _ (by simp at this; omega) _ (Nat.le_refl _)

theorem skipWs_stop {c : Char} {l : List Char} (h : white c = false) (hc : comment (c :: l) = none) : skipWs (c :: l) = c :: l := by
  show (if white c then skipN l.length l else match comment (c :: l) with | some r => skipN l.length r | none => c :: l) = _
  rw [if_neg (by rw [h]; decide), hc]

theorem Blank.skips {l r : List Char} (h : Blank l r) : skipWs l = skipWs r := by
  induction h with
  | nil r => rfl
  | white hw _ ih => rw [skipWs_white _ hw, ih]
  | hash hx hl _ ih =>
    rw [← ih]
    exact skipWs_comment (by decide) (congrArg some (eol_append _ _ hx hl))
  | dashes hx hl _ ih =>
    rw [← ih]
    exact skipWs_comment (by decide) (congrArg some (eol_append _ _ hx hl))
  | block hx _ ih =>
    rw [← ih]
    exact skipWs_comment (by decide) (close_append _ _ hx)

theorem begins_comment {c : Char} {l : List Char} (h1 : c ≠ '#') (h2 : c = '-' → l.head? ≠ some '-') (h3 : c = '/' → ∀ m, l = '*' :: m → Free m) : comment (c :: l) = none := by
  rw [comment_cons, if_neg h1]
  split
  · next h =>
    cases l with
    | nil => rfl
    | cons d m =>
      show (if d = '-' then _ else none) = none
      rw [if_neg fun e => h2 h (by rw [e]; rfl)]
  · split
    · next h =>
      cases l with
      | nil => rfl
      | cons d m =>
        show (if d = '*' then close m else none) = none
        split
        · next e =>
          subst e
          have hf := h3 h m rfl
          cases hm : close m with
          | none => rfl
          | some r =>
            obtain ⟨x, h4, _⟩ := close_split m r hm
            exact absurd h4 (hf x r)
        · rfl
    · rfl

theorem comment_none {c : Char} {l : List Char} (h : comment (c :: l) = none) : c ≠ '#' ∧ (c = '-' → l.head? ≠ some '-') ∧ (c = '/' → ∀ m, l = '*' :: m → Free m) := by
  refine ⟨?_, ?_, ?_⟩
  · rintro rfl
    cases h
  · rintro rfl e
    cases l with
    | nil => cases e
    | cons d m =>
      injection e with e
      subst e
      cases h
  · rintro rfl m rfl
    exact close_none m h

theorem comment_blank {c : Char} {l r : List Char} (h : comment (c :: l) = some r) {e : List Char} (hb : Blank r e) : Blank (c :: l) e := by
  rw [comment_cons] at h
  split at h
  · next hc =>
    injection h with h
    obtain ⟨x, h1, h2, h3⟩ := eol_split l
    rw [h] at h1 h3
    rw [hc, h1]
    exact .hash h2 h3 hb
  · split at h
    · next hc =>
      cases l with
      | nil => cases h
      | cons d m =>
        replace h : (if d = '-' then some (eol m) else none) = some r := h
        split at h
        · next hd =>
          injection h with h
          obtain ⟨x, h1, h2, h3⟩ := eol_split m
          rw [h] at h1 h3
          rw [hc, hd, h1]
          exact .dashes h2 h3 hb
        · cases h
    · split at h
      · next hc =>
        cases l with
        | nil => cases h
        | cons d m =>
          replace h : (if d = '*' then close m else none) = some r := h
          split at h
          · next hd =>
            obtain ⟨x, h1, h2⟩ := close_split m r h
            rw [hc, hd, h1]
            exact .block h2 hb
          · cases h
      · cases h

theorem skipN_ok : (n : Nat) → (l : List Char) → l.length ≤ n → Blank l (skipWs l) ∧ Begins (skipWs l)
  | _, [], _ => ⟨.nil _, .inl rfl⟩
  | 0, _ :: _, h => by cases h
  | n + 1, c :: l, h => by
    by_cases hw : white c = true
    · rw [skipWs_white l hw]
      obtain ⟨h1, h2⟩ := skipN_ok n l (Nat.le_of_succ_le_succ h)
      exact ⟨.white hw h1, h2⟩
    · rw [Bool.not_eq_true] at hw
      cases hc : comment (c :: l) with
      | none =>
        rw [skipWs_stop hw hc]
        exact ⟨.nil _, .inr ⟨c, l, rfl, hw, comment_none hc⟩⟩
      | some r =>
        rw [skipWs_comment hw hc]
        have := comment_length hc
        obtain ⟨h1, h2⟩ := skipN_ok n r (by simp at this h; omega)
        exact ⟨comment_blank hc h1, h2⟩

theorem begins_stop {r : List Char} (h : Begins r) : skipWs r = r := by
  rcases h with rfl | ⟨c, l, rfl, hw, h1, h2, h3⟩
  · rfl
  · exact skipWs_stop hw (begins_comment h1 h2 h3)

/-- **C97 (what is skipped).** Before a token the parser skips white space and comments - `--` and `#` to the end of the line, `/*` to the first `*/` -, all of them and nothing
else: what is left is the one text that follows them and begins with neither. -/
theorem C97_skip (l r : List Char) : skipWs l = r ↔ Blank l r ∧ Begins r := by
  constructor
  · rintro rfl
    exact skipN_ok _ l (Nat.le_refl _)
  · rintro ⟨h1, h2⟩
    rw [h1.skips, begins_stop h2]

/-- **C97 (comments are white space).** A comment between tokens, and a space in its place, leave the same. -/
theorem C97_space {l r : List Char} (h : Blank l r) : skipWs l = skipWs (' ' :: r) := by
  rw [h.skips, skipWs_white r rfl]

example : skipWs "  -- first\n /* a -- b\n * */ # end\n\tFROM t -- last".toList = "FROM t -- last".toList ∧ skipWs "- 1".toList = "- 1".toList ∧ skipWs "/* open".toList = "/* open".toList := by
  decide +kernel

/-! ## The position and the cache -/

theorem Blank.suffix {l r : List Char} (h : Blank l r) : ∃ x, l = x ++ r := by
  induction h with
  | nil r => exact ⟨[], rfl⟩
  | @white c _ _ _ _ ih =>
    obtain ⟨x, h⟩ := ih
    exact ⟨c :: x, congrArg (c :: ·) h⟩
  | @hash y _ _ _ _ _ ih =>
    obtain ⟨x, h⟩ := ih
    exact ⟨'#' :: (y ++ x), by rw [h]; simp⟩
  | @dashes y _ _ _ _ _ ih =>
    obtain ⟨x, h⟩ := ih
    exact ⟨'-' :: '-' :: (y ++ x), by rw [h]; simp⟩
  | @block y _ _ _ _ ih =>
    obtain ⟨x, h⟩ := ih
    exact ⟨'/' :: '*' :: (y ++ '*' :: '/' :: x), by rw [h]; simp⟩

/-- **C97 (the position).** Skipping goes forward (which C96 needs of it) and not beyond the end of the text, and from its position on there is what is left. -/
theorem C97_pos (s : List Char) (i : Nat) : i ≤ pos s i ∧ (i ≤ s.length → pos s i ≤ s.length) ∧ s.drop (pos s i) = skipWs (s.drop i) := by
  obtain ⟨x, hx⟩ := ((C97_skip (s.drop i) _).1 rfl).1.suffix
  have hlen : (s.drop i).length = x.length + (skipWs (s.drop i)).length := by
    rw [← List.length_append, ← hx]
  have hp : pos s i = i + x.length := by
    unfold pos
    omega
  refine ⟨by omega, fun h => ?_, ?_⟩
  · rw [List.length_drop] at hlen
    omega
  · rw [hp, ← List.drop_drop]
    conv => lhs; rw [hx]
    simp

theorem pos_end {s : List Char} {i : Nat} (h : s.length ≤ i) : pos s i = i := by
  unfold pos
  rw [List.drop_eq_nil_of_le h]
  rfl

/-- What is in the cache is right. -/
def Cache.Good (k : Cache) : Prop := ∀ s, k.content = some s → k.skips.length = s.length ∧ ∀ (i e : Nat), k.skips[i]? = some (some e) → e = pos s i

theorem set_good {s : List Char} {L : List (Option Nat)} (hl : L.length = s.length) (h : ∀ (i e : Nat), L[i]? = some (some e) → e = pos s i) (i : Nat) :
    (Cache.mk (some s) (L.set i (some (pos s i)))).Good := by
  intro s' hs
  injection hs with hs
  subst hs
  refine ⟨by simp [hl], fun j e hj => ?_⟩
  replace hj : (L.set i (some (pos s i)))[j]? = some (some e) := hj
  rw [List.getElem?_set] at hj
  split at hj
  · next hij =>
    split at hj
    · injection hj with hj
      injection hj with hj
      rw [← hj, hij]
    · cases hj
  · exact h j e hj

theorem replicate_good (s : List Char) (i e : Nat) (h : (List.replicate s.length (none : Option Nat))[i]? = some (some e)) : e = pos s i := by
  rw [List.getElem?_replicate] at h
  split at h
  · injection h with h
    cases h
  · cases h

theorem skip_good {k : Cache} (hk : k.Good) (s : List Char) (i : Nat) : (k.skip s i).1 = pos s i ∧ (k.skip s i).2.Good := by
  unfold Cache.skip
  split
  · next hc =>
    obtain ⟨h1, h2⟩ := hk s hc
    split
    · next h =>
      rw [List.getElem?_eq_none_iff] at h
      exact ⟨(pos_end (by omega)).symm, hk⟩
    · next e h => exact ⟨h2 i e h, hk⟩
    · refine ⟨rfl, ?_⟩
      have := set_good h1 h2 i
      rw [← hc] at this
      exact this
  · split
    · next h =>
      refine ⟨(pos_end h).symm, fun s' hs => ?_⟩
      injection hs with hs
      subst hs
      exact ⟨by simp, replicate_good s⟩
    · exact ⟨rfl, set_good (by simp) (replicate_good s) i⟩

theorem skips_good : (l : List (List Char × Nat)) → {k : Cache} → k.Good → k.skips' l = l.map fun c => pos c.1 c.2
  | [], _, _ => rfl
  | (s, i) :: l, k, hk => by
    obtain ⟨h1, h2⟩ := skip_good hk s i
    show (k.skip s i).1 :: (k.skip s i).2.skips' l = _
    rw [h1, skips_good l h2]
    rfl

/-- **C97 (the cache).** Whatever texts and positions are asked for, and in whatever order, the cache of `skip` answers what the pattern would. -/
theorem C97_cache (l : List (List Char × Nat)) : (Cache.mk none []).skips' l = l.map fun c => pos c.1 c.2 :=
  skips_good l fun _ h => by cases h

end EulerDB.Comment
