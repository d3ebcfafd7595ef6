import Verif.Comment.Props
import Verif.Sql.Scan

/-!
# The pattern of white space and comments (C97)
-/

namespace EulerDB.Comment

open EulerDB.Regex (Re iter inItem)

/-! ## Repetition of a character -/

/-- What may be left after as many characters as possible, then fewer. -/
def fewer (p : Char → Bool) : List Char → List (List Char)
  | [] => [[]]
  | c :: l => if p c then fewer p l ++ [c :: l] else [c :: l]

theorem iter_succ (f : List Char → List (List Char)) (n : Nat) (s : List Char) :
    iter f (n + 1) 0 none s = ((f s).flatMap fun s' => if s'.length < s.length then iter f n 0 none s' else []) ++ [s] := by
  show (if (none : Option Nat) = some 0 then [] else (f s).flatMap fun s' => if s'.length < s.length ∨ 0 < 0 then iter f n (0 - 1) (Option.map (· - 1) none) s' else []) ++ (if (0 : Nat) = 0 then [s] else []) = _
  rw [if_neg (by simp), if_pos rfl]
  simp

theorem iter_set (items : List (Char × Char)) (neg : Bool) {p : Char → Bool} (hp : ∀ c, p c = (items.any (inItem c) != neg)) :
    (n : Nat) → (s : List Char) → s.length < n → iter (Re.set neg items).den n 0 none s = fewer p s
  | 0, _, h => by cases h
  | n + 1, [], _ => by
    rw [iter_succ]
    rfl
  | n + 1, c :: l, h => by
    rw [iter_succ]
    show ((if items.any (inItem c) = neg then ([] : List (List Char)) else [l]).flatMap _) ++ _ = if p c then fewer p l ++ [c :: l] else [c :: l]
    rw [hp c]
    by_cases hc : items.any (inItem c) = neg
    · rw [if_pos hc, hc]
      simp
    · have : (items.any (inItem c) != neg) = true := by simpa using hc
      rw [if_neg hc, this, if_pos rfl]
      show (if l.length < (c :: l).length then iter _ n 0 none l else []) ++ [] ++ [c :: l] = _
      rw [if_pos (show l.length < (c :: l).length from Nat.lt_succ_self _), List.append_nil, iter_set items neg hp n l (Nat.lt_of_succ_lt_succ h)]

theorem white_items (c : Char) : white c = ([('\t', '\n'), ('\r', '\r'), (' ', ' ')].any (inItem c) != false) := by
  have key : ∀ a : Char, (c == a) = (decide (a.toNat ≤ c.toNat) && decide (c.toNat ≤ a.toNat)) := by
    intro a
    rw [Bool.eq_iff_iff]
    simp only [beq_iff_eq, Bool.and_eq_true, decide_eq_true_eq]
    constructor
    · rintro rfl
      exact ⟨Nat.le_refl _, Nat.le_refl _⟩
    · rintro ⟨h1, h2⟩
      exact Char.toNat_inj.1 (Nat.le_antisymm h2 h1)
  have k1 : (decide (('\t').toNat ≤ c.toNat) && decide (c.toNat ≤ ('\n').toNat)) = ((c == '\t') || (c == '\n')) := by
    rw [key, key, Bool.eq_iff_iff]
    simp only [Bool.or_eq_true, Bool.and_eq_true, decide_eq_true_eq]
    have e1 : ('\t').toNat = 9 := rfl
    have e2 : ('\n').toNat = 10 := rfl
    omega
  unfold white inItem
  simp only [List.any_cons, List.any_nil, Bool.or_false]
  rw [k1, ← key, ← key]
  cases c == ' ' <;> cases c == '\n' <;> cases c == '\r' <;> cases c == '\t' <;> rfl

theorem line_items (c : Char) : (decide (c ≠ '\n')) = ([('\n', '\n')].any (inItem c) != true) := by
  unfold inItem
  simp only [List.any_cons, List.any_nil, Bool.or_false]
  by_cases h : c = '\n'
  · subst h
    rfl
  · have : ¬ (('\n').toNat ≤ c.toNat ∧ c.toNat ≤ ('\n').toNat) := fun ⟨h1, h2⟩ => h (Char.toNat_inj.1 (Nat.le_antisymm h2 h1))
    rw [decide_eq_true h]
    have e : (decide (('\n').toNat ≤ c.toNat) && decide (c.toNat ≤ ('\n').toNat)) = false := by
      rw [Bool.eq_false_iff]
      intro hh
      simp only [Bool.and_eq_true, decide_eq_true_eq] at hh
      exact this hh
    rw [e]
    rfl

theorem ws_den (s : List Char) : wsRe.den s = fewer white s := iter_set _ _ white_items _ s (by omega)

theorem line_den (s : List Char) : lineRe.den s = fewer (fun c => decide (c ≠ '\n')) s := iter_set _ _ line_items _ s (by omega)

theorem fewer_line (s : List Char) : (fewer (fun c => decide (c ≠ '\n')) s).head? = some (eol s) := by
  induction s with
  | nil => rfl
  | cons c l ih =>
    unfold fewer eol
    by_cases h : c = '\n'
    · rw [if_neg (by simp [h]), if_pos h]
      rfl
    · rw [if_pos (by simp [h]), if_neg h, List.head?_append, ih]
      rfl

theorem fewer_mem {p : Char → Bool} : {s t : List Char} → t ∈ fewer p s → t.length ≤ s.length
  | [], t, h => by
    have : t = [] := by simpa [fewer] using h
    rw [this]
    exact Nat.le_refl _
  | c :: l, t, h => by
    unfold fewer at h
    split at h
    · rcases List.mem_append.1 h with h | h
      · exact Nat.le_trans (fewer_mem h) (Nat.le_succ _)
      · rw [List.mem_singleton.1 h]
        exact Nat.le_refl _
    · rw [List.mem_singleton.1 h]
      exact Nat.le_refl _

/-! ## Comments -/

theorem chr_den (d c : Char) (l : List Char) : (Re.chr d).den (c :: l) = if c = d then [l] else [] := by
  show (if [(d, d)].any (inItem c) = false then ([] : List (List Char)) else [l]) = _
  unfold inItem
  simp only [List.any_cons, List.any_nil, Bool.or_false]
  by_cases h : c = d
  · subst h
    rw [if_pos rfl, if_neg (by simp)]
  · rw [if_neg h, if_pos]
    rw [Bool.eq_false_iff]
    intro hh
    simp only [Bool.and_eq_true, decide_eq_true_eq] at hh
    exact h (Char.toNat_inj.1 (Nat.le_antisymm hh.2 hh.1))

theorem chr_nil (d : Char) : (Re.chr d).den [] = [] := rfl

theorem seq_den (a b : Re) (s : List Char) : (Re.seq a b).den s = (a.den s).flatMap b.den := rfl

theorem hash_den (s : List Char) : hashRe.den s = match s with | [] => [] | c :: l => if c = '#' then lineRe.den l else [] := by
  cases s with
  | nil => rfl
  | cons c l =>
    show ((Re.chr '#').den (c :: l)).flatMap lineRe.den = if c = '#' then lineRe.den l else []
    rw [chr_den]
    split
    · simp
    · rfl

theorem two_den (a b : Char) (r : Re) (c : Char) (l : List Char) : (Re.seq (.chr a) (.seq (.chr b) r)).den (c :: l) =
    if c = a then (match l with | [] => [] | d :: m => if d = b then r.den m else []) else [] := by
  rw [seq_den, chr_den]
  split
  · show (Re.seq (.chr b) r).den l ++ [] = _
    rw [List.append_nil]
    cases l with
    | nil => rfl
    | cons d m =>
      rw [seq_den, chr_den]
      show _ = if d = b then r.den m else []
      split
      · simp
      · rfl
  · rfl

theorem pair_den (a b : Char) (c : Char) (l : List Char) : (Re.seq (.chr a) (.chr b)).den (c :: l) =
    if c = a then (match l with | [] => [] | d :: m => if d = b then [m] else []) else [] := by
  rw [seq_den, chr_den]
  split
  · show (Re.chr b).den l ++ [] = _
    rw [List.append_nil]
    cases l with
    | nil => rfl
    | cons d m => rw [chr_den]
  · rfl

theorem lazy_close : (s : List Char) → ((lazy s).flatMap closeRe.den).head? = close s
  | [] => rfl
  | [c] => by
    show (closeRe.den [c] ++ ([] ++ [])).head? = none
    unfold closeRe
    rw [pair_den]
    split <;> rfl
  | c :: d :: l => by
    show (closeRe.den (c :: d :: l) ++ (lazy (d :: l)).flatMap closeRe.den).head? = _
    rw [close_cons2, List.head?_append, lazy_close (d :: l)]
    unfold closeRe
    rw [pair_den]
    by_cases h : c = '*'
    · rw [if_pos h]
      show ((if d = '/' then [l] else []).head?).or _ = _
      by_cases h2 : d = '/'
      · rw [if_pos h2, if_pos ⟨h, h2⟩]
        rfl
      · rw [if_neg h2, if_neg fun e => h2 e.2]
        rfl
    · rw [if_neg h, if_neg fun e => h e.1]
      rfl

theorem lazy_mem : {s t : List Char} → t ∈ lazy s → t.length ≤ s.length
  | [], t, h => by
    have : t = [] := by simpa [lazy] using h
    rw [this]
    exact Nat.le_refl _
  | c :: l, t, h => by
    rcases List.mem_cons.1 h with h | h
    · rw [h]
      exact Nat.le_refl _
    · exact Nat.le_trans (lazy_mem h) (Nat.le_succ _)

theorem ignored_head (s : List Char) : (ignored s).head? = comment s := by
  cases s with
  | nil => rfl
  | cons c l =>
    unfold ignored dashRe openRe
    rw [two_den, hash_den, pair_den, comment_cons]
    by_cases h1 : c = '#'
    · subst h1
      show ([] ++ (lineRe.den l ++ [])).head? = some (eol l)
      rw [List.nil_append, List.append_nil, line_den, fewer_line]
    · rw [if_neg h1]
      by_cases h2 : c = '-'
      · subst h2
        show ((match l with | [] => [] | d :: m => if d = '-' then lineRe.den m else []) ++ ([] ++ [])).head? = dash l
        rw [List.append_nil, List.append_nil]
        cases l with
        | nil => rfl
        | cons d m =>
          show (if d = '-' then lineRe.den m else []).head? = if d = '-' then some (eol m) else none
          split
          · rw [line_den, fewer_line]
          · rfl
      · rw [if_neg h2, if_neg h2]
        show ([] ++ ((if c = '#' then lineRe.den l else []) ++ _)).head? = _
        rw [if_neg h1, List.nil_append, List.nil_append]
        by_cases h3 : c = '/'
        · subst h3
          rw [if_pos rfl, if_pos rfl]
          cases l with
          | nil => rfl
          | cons d m =>
            show (((if d = '*' then [m] else []) : List (List Char)).flatMap fun t => (lazy t).flatMap closeRe.den).head? = if d = '*' then close m else none
            split
            · show ((lazy m).flatMap closeRe.den ++ []).head? = _
              rw [List.append_nil, lazy_close]
            · rfl
        · rw [if_neg h3, if_neg h3]
          rfl

theorem ignored_white {c : Char} (l : List Char) (h : white c = true) : ignored (c :: l) = [] := by
  have hc : comment (c :: l) = none := by
    refine begins_comment ?_ ?_ ?_
    · rintro rfl
      cases h
    · rintro rfl
      cases h
    · rintro rfl
      cases h
  rw [← ignored_head] at hc
  exact List.head?_eq_none_iff.1 hc

/-- White space, then a comment: with less white space there is no comment. -/
theorem unit_den (s : List Char) : (wsRe.den s).flatMap ignored = ignored (s.dropWhile white) := by
  rw [ws_den]
  induction s with
  | nil => rfl
  | cons c l ih =>
    unfold fewer
    by_cases h : white c = true
    · rw [if_pos h, List.flatMap_append, ih, List.dropWhile_cons_of_pos h]
      show _ ++ (ignored (c :: l) ++ []) = _
      rw [ignored_white l h, List.append_nil, List.append_nil]
    · rw [if_neg h, List.dropWhile_cons_of_neg h]
      show ignored (c :: l) ++ [] = _
      rw [List.append_nil]

theorem fewer_white (s : List Char) : (fewer white s).head? = some (s.dropWhile white) := by
  induction s with
  | nil => rfl
  | cons c l ih =>
    unfold fewer
    by_cases h : white c = true
    · rw [if_pos h, List.dropWhile_cons_of_pos h, List.head?_append, ih]
      rfl
    · rw [if_neg h, List.dropWhile_cons_of_neg h]
      rfl

theorem dropWhile_length (p : Char → Bool) (s : List Char) : (s.dropWhile p).length ≤ s.length := (List.dropWhile_sublist p).length_le

theorem skipWs_drop : (s : List Char) → skipWs (s.dropWhile white) = skipWs s
  | [] => rfl
  | c :: l => by
    by_cases h : white c = true
    · rw [List.dropWhile_cons_of_pos h, skipWs_white l h, skipWs_drop l]
    · rw [List.dropWhile_cons_of_neg h]

theorem stop_drop {s : List Char} (h : comment (s.dropWhile white) = none) : skipWs s = s.dropWhile white := by
  rw [← skipWs_drop]
  cases hs : s.dropWhile white with
  | nil => rfl
  | cons c l =>
    rw [hs] at h
    refine skipWs_stop ?_ h
    have := List.head?_dropWhile_not white s
    rw [hs] at this
    simpa using this

theorem go_drop {s r : List Char} (h : comment (s.dropWhile white) = some r) : skipWs s = skipWs r := by
  rw [← skipWs_drop]
  cases hs : s.dropWhile white with
  | nil =>
    rw [hs] at h
    cases h
  | cons c l =>
    rw [hs] at h
    refine skipWs_comment ?_ h
    have := List.head?_dropWhile_not white s
    rw [hs] at this
    simpa using this

theorem iter_head : (n : Nat) → (s : List Char) → s.length < n →
    ∃ t, (iter (fun t => (wsRe.den t).flatMap ignored) n 0 none s).head? = some t ∧ t.dropWhile white = skipWs s
  | 0, _, h => by cases h
  | n + 1, s, h => by
    rw [iter_succ, unit_den]
    cases hc : comment (s.dropWhile white) with
    | none =>
      have : ignored (s.dropWhile white) = [] := by
        rw [← ignored_head] at hc
        exact List.head?_eq_none_iff.1 hc
      rw [this]
      exact ⟨s, rfl, (stop_drop hc).symm⟩
    | some r =>
      have hl : r.length < s.length := Nat.lt_of_lt_of_le (comment_length hc) (dropWhile_length _ _)
      obtain ⟨t, h1, h2⟩ := iter_head n r (by omega)
      refine ⟨t, ?_, by rw [h2, go_drop hc]⟩
      rw [← ignored_head] at hc
      cases hi : ignored (s.dropWhile white) with
      | nil =>
        rw [hi] at hc
        cases hc
      | cons x xs =>
        rw [hi] at hc
        injection hc with hc
        subst hc
        rw [List.flatMap_cons, if_pos hl, List.append_assoc, List.head?_append, h1]
        rfl

/-- **C97 (the pattern).** The first match of the pattern, among all in the order of backtracking, leaves what is left behind white space and comments. -/
theorem C97_pattern (s : List Char) : (pattern s).head? = some (skipWs s) := by
  obtain ⟨t, h1, h2⟩ := iter_head (s.length + 1) s (Nat.lt_succ_self _)
  unfold pattern
  cases hi : iter (fun t => (wsRe.den t).flatMap ignored) (s.length + 1) 0 none s with
  | nil =>
    rw [hi] at h1
    cases h1
  | cons x xs =>
    rw [hi] at h1
    injection h1 with h1
    subst h1
    rw [List.flatMap_cons, List.head?_append, ws_den, fewer_white, h2]
    rfl

/-! ## The scanner of C68 -/

theorem closed_close : (l : List Char) → Sql.closed l = (close l).isSome
  | [] => rfl
  | [c] => by
    show ((c == '*' && (none : Option Char) == some '/') || false) = false
    cases c == '*' <;> rfl
  | c :: d :: l => by
    show ((c == '*' && (some d == some '/')) || Sql.closed (d :: l)) = _
    rw [close_cons2, closed_close (d :: l)]
    by_cases h : c = '*' ∧ d = '/'
    · rw [if_pos h, h.1, h.2]
      rfl
    · rw [if_neg h]
      have : (c == '*' && (some d == some '/')) = false := by
        rw [Bool.eq_false_iff]
        intro e
        simp only [Bool.and_eq_true, beq_iff_eq, Option.some.injEq] at e
        exact h e
      rw [this]
      rfl

theorem scan_line : (l : List Char) → Sql.skipM .line l = Sql.skip (eol l)
  | [] => rfl
  | c :: l => by
    show (if c = '\n' then Sql.skipM .code l else Sql.skipM .line l) = Sql.skip (if c = '\n' then c :: l else eol l)
    split
    · next h =>
      subst h
      rfl
    · exact scan_line l

theorem scan_block : (l r : List Char) → close l = some r → Sql.skipM .block l = Sql.skip r
  | [], _, h => by cases h
  | [_], _, h => by cases h
  | c :: d :: l, r, h => by
    rw [close_cons2] at h
    show (if c = '*' ∧ some d = some '/' then Sql.skipM .closing (d :: l) else Sql.skipM .block (d :: l)) = _
    split at h
    · next hc =>
      injection h with h
      rw [if_pos ⟨hc.1, by rw [hc.2]⟩, h]
      rfl
    · next hc =>
      rw [if_neg (fun e => hc ⟨e.1, by injection e.2⟩)]
      exact scan_block (d :: l) r h

theorem scan_eq : (n : Nat) → (s : List Char) → s.length ≤ n → Sql.skip s = skipWs s
  | _, [], _ => rfl
  | 0, _ :: _, h => by cases h
  | n + 1, c :: l, h => by
    have hl : l.length ≤ n := Nat.le_of_succ_le_succ h
    show (if Sql.white c then Sql.skip l else if c = '#' then Sql.skipM .line l else if c = '-' ∧ l.head? = some '-' then Sql.skipM .line l
      else if c = '/' ∧ l.head? = some '*' ∧ Sql.closed l.tail = true then Sql.skipM .opening l else c :: l) = _
    have hw : Sql.white c = white c := rfl
    rw [hw]
    by_cases h0 : white c = true
    · rw [if_pos h0, skipWs_white l h0, scan_eq n l hl]
    · rw [if_neg h0]
      rw [Bool.not_eq_true] at h0
      by_cases h1 : c = '#'
      · rw [if_pos h1, scan_line, scan_eq n _ (Nat.le_trans (eol_length l) hl)]
        subst h1
        exact (skipWs_comment h0 rfl).symm
      · rw [if_neg h1]
        by_cases h2 : c = '-' ∧ l.head? = some '-'
        · rw [if_pos h2, scan_line]
          obtain ⟨rfl, h3⟩ := h2
          cases l with
          | nil => cases h3
          | cons d m =>
            injection h3 with h3
            subst h3
            rw [scan_eq n _ (Nat.le_trans (eol_length _) hl)]
            exact (skipWs_comment (r := eol m) h0 rfl).symm
        · rw [if_neg h2]
          by_cases h3 : c = '/' ∧ l.head? = some '*' ∧ Sql.closed l.tail = true
          · rw [if_pos h3]
            obtain ⟨rfl, h4, h5⟩ := h3
            cases l with
            | nil => cases h4
            | cons d m =>
              injection h4 with h4
              subst h4
              rw [show ('*' :: m).tail = m from rfl, closed_close, Option.isSome_iff_exists] at h5
              obtain ⟨r, hr⟩ := h5
              show Sql.skipM .block m = _
              have := close_length hr
              rw [scan_block m r hr, scan_eq n r (by simp at hl; omega)]
              exact (skipWs_comment (l := '*' :: m) (r := r) h0 hr).symm
          · rw [if_neg h3]
            refine (skipWs_stop h0 (begins_comment h1 (fun e1 e2 => h2 ⟨e1, e2⟩) fun e1 m e2 => ?_)).symm
            subst e2
            refine close_none m ?_
            cases hm : close m with
            | none => rfl
            | some r => exact absurd ⟨e1, rfl, by rw [show ('*' :: m).tail = m from rfl, closed_close, hm]; rfl⟩ h3

/-- **C97 (the scanner).** The scanner that the models of the parser are built on (C68-C70, C86) skips what the pattern matches. -/
theorem C97_scan (s : List Char) : (pattern s).head? = some (Sql.skip s) := by
  rw [C97_pattern, scan_eq _ s (Nat.le_refl _)]

end EulerDB.Comment
