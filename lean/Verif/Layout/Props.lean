/-
C99: what the options of `format` keep.
-/
import Verif.Layout.Model
import Verif.Group.Keeps

namespace EulerDB.Layout

open EulerDB.Lex EulerDB.Group

/-- The tokens that are no white space. -/
def solid (l : List Tok) : List Tok := l.filter fun t => !t.isWhitespace

theorem solid_append (a b : List Tok) : solid (a ++ b) = solid a ++ solid b := List.filter_append ..

/-! ### Blanks around operators -/

theorem solid_put (l : List Tok) (n : Nat) : solid (leavesAll (put l n blank)) = solid (leavesAll l) := by
  have h : solid (leavesAll l) = solid (leavesAll (l.take n ++ l.drop n)) := by rw [List.take_append_drop]
  rw [h]
  unfold put
  rw [leavesAll_append, leavesAll_append, solid_append, solid_append]
  rfl

theorem putAfter_eq (l : List Tok) (i : Nat) (t : Tok) : ∃ n, i < n ∧ putAfter l i t = put l n t := by
  unfold putAfter
  cases h : tokenNext l i with
  | none =>
    refine ⟨max l.length (i + 1), by omega, ?_⟩
    simp only [put]
    rw [List.take_of_length_le (by omega), List.drop_of_length_le (by omega)]
  | some n =>
    refine ⟨n, ?_, rfl⟩
    unfold tokenNext findFrom at h
    split at h
    · cases h
    · injection h with h
      omega

theorem behind_eq (l : List Tok) (i : Nat) : behind l i = l ∨ ∃ n, i < n ∧ behind l i = put l n blank := by
  unfold behind
  split
  · exact .inr (putAfter_eq l i blank)
  · exact .inl rfl

/-- The number of operators from a place on. -/
def ops (l : List Tok) (n : Nat) : Nat := (l.drop n).countP isOp

theorem ops_put {l : List Tok} {n i : Nat} (h : i ≤ n) : ops (put l n blank) i = ops l i := by
  unfold ops put
  by_cases hl : i ≤ l.length
  · have h1 : i ≤ (l.take n).length := by rw [List.length_take]; omega
    have h2 : l.drop i = (l.take n).drop i ++ l.drop n := by
      conv_lhs => rw [← List.take_append_drop n l]
      rw [List.drop_append_of_le_length h1]
    rw [List.drop_append_of_le_length h1, h2, List.countP_append, List.countP_append, List.countP_cons]
    rfl
  · rw [List.take_of_length_le (by omega), List.drop_of_length_le (by omega : l.length ≤ n), List.drop_of_length_le (by omega : l.length ≤ i)]
    have h3 : i = l.length + (i - l.length) := by omega
    rw [h3, ← List.drop_drop, List.drop_left]
    have h4 : i - l.length = (i - l.length - 1) + 1 := by omega
    rw [h4, List.drop_succ_cons, List.drop_nil]

theorem ops_put_before {l : List Tok} {i : Nat} (h : i ≤ l.length) : ops (put l i blank) (i + 2) = ops l (i + 1) := by
  unfold ops put
  have h1 : (l.take i).length = i := by rw [List.length_take]; omega
  have h2 : (l.take i ++ blank :: l.drop i).drop (i + 2) = l.drop (i + 1) := by
    rw [List.drop_append, h1, List.drop_of_length_le (by omega), show i + 2 - i = 1 + 1 by omega, List.drop_succ_cons, List.drop_drop]
    rfl
  rw [h2]

theorem length_put (l : List Tok) (n : Nat) (t : Tok) : (put l n t).length = l.length + 1 := by
  unfold put
  rw [List.length_append, List.length_cons, ← Nat.add_assoc, ← List.length_append, List.take_append_drop]

theorem around_spec {l : List Tok} {i : Nat} (h : i < l.length) : solid (leavesAll (around l i).1) = solid (leavesAll l) ∧
    ops (around l i).1 ((around l i).2 + 1) = ops l (i + 1) := by
  have hb : solid (leavesAll (behind l i)) = solid (leavesAll l) ∧ ops (behind l i) (i + 1) = ops l (i + 1) ∧ i ≤ (behind l i).length := by
    rcases behind_eq l i with hb | ⟨n, hn, hb⟩
    · rw [hb]; exact ⟨rfl, rfl, by omega⟩
    · rw [hb]; exact ⟨solid_put l n, ops_put (by omega), by rw [length_put]; omega⟩
  unfold around
  split
  · exact ⟨by rw [solid_put]; exact hb.1, by rw [ops_put_before hb.2.2]; exact hb.2.1⟩
  · exact ⟨hb.1, hb.2.1⟩

theorem findFrom_some {p : Tok → Bool} {l : List Tok} {start i : Nat} (h : findFrom p l start = some i) :
    i < l.length ∧ (l.drop (i + 1)).countP p < (l.drop start).countP p := by
  unfold findFrom at h
  split at h
  · cases h
  · next k hk =>
    injection h with h
    obtain ⟨hlt, hp, _⟩ := List.findIdx?_eq_some_iff_getElem.1 hk
    rw [List.length_drop] at hlt
    refine ⟨by omega, ?_⟩
    have hlt' : k < (l.drop start).length := by rw [List.length_drop]; omega
    have h1 : (l.drop start).drop k = (l.drop start)[k] :: (l.drop start).drop (k + 1) := List.drop_eq_getElem_cons hlt'
    have h2 : (l.drop start).countP p = ((l.drop start).take k).countP p + ((l.drop start).drop k).countP p := by
      rw [← List.countP_append, List.take_append_drop]
    rw [h2, h1, List.countP_cons, if_pos hp, List.drop_drop, show start + (k + 1) = i + 1 by omega]
    omega

theorem spaceLoop_ok : ∀ (fuel : Nat) (l : List Tok) (start : Nat), ops l start < fuel → ∃ k, spaceLoop fuel l start = .ok k ∧ solid (leavesAll k) = solid (leavesAll l)
  | 0, _, _, h => by omega
  | fuel + 1, l, start, h => by
    rw [spaceLoop]
    cases hf : findFrom isOp l start with
    | none => exact ⟨l, rfl, rfl⟩
    | some i =>
      obtain ⟨h1, h2⟩ := findFrom_some hf
      obtain ⟨h3, h4⟩ := around_spec h1
      obtain ⟨k, h5, h6⟩ := spaceLoop_ok fuel (around l i).1 ((around l i).2 + 1) (by
        rw [h4]
        unfold ops at h ⊢
        omega)
      exact ⟨k, h5, by rw [h6, h3]⟩

mutual
theorem spaces_ok : (t : Tok) → ∃ t', spaces t = .ok t' ∧ solid (leaves t') = solid (leaves t)
  | .leaf i m ty v => ⟨_, by rw [spaces], rfl⟩
  | .grp i c ty l => by
    obtain ⟨k, h1, h2⟩ := spacesAll_ok l
    obtain ⟨k', h3, h4⟩ := spaceLoop_ok (k.length + 1) k 0 (by
      unfold ops
      have := List.countP_le_length (p := isOp) (l := k.drop 0)
      rw [List.drop_zero] at *
      omega)
    refine ⟨.grp i c ty k', by rw [spaces, h1]; simp only [h3], ?_⟩
    rw [leaves, leaves, h4, h2]
theorem spacesAll_ok : (l : List Tok) → ∃ k, spacesAll l = .ok k ∧ solid (leavesAll k) = solid (leavesAll l)
  | [] => ⟨[], by rw [spacesAll], rfl⟩
  | t :: r => by
    obtain ⟨t', h1, h2⟩ := spaces_ok t
    obtain ⟨k, h3, h4⟩ := spacesAll_ok r
    refine ⟨t' :: k, by rw [spacesAll, h1]; simp only [h3], ?_⟩
    rw [leavesAll, leavesAll, solid_append, solid_append, h2, h4]
end

/-- **C99 (blanks around operators).** The filter ends without an error for every tree, and keeps every token that is no white space, in its place and with its text. -/
theorem C99_spaces (t : Tok) : ∃ t', spaces t = .ok t' ∧ solid (leaves t') = solid (leaves t) := spaces_ok t

/-! ### Fewer blanks -/

theorem leaves_white {t : Tok} (h : t.isWhitespace = true) (v : List Char) : solid (leaves (setValue v t)) = [] ∧ solid (leaves t) = [] := by
  cases t with
  | leaf i m ty w =>
    have hm : isIn m Whitespace = true := h
    simp [solid, leaves, setValue, Tok.isWhitespace, hm]
  | grp i c ty l => cases h

theorem solid_single : ∀ (last first : Bool) (l : List Tok), solid (leavesAll (single last first l)) = solid (leavesAll l)
  | _, _, [] => rfl
  | last, first, t :: r => by
    rw [single, leavesAll, leavesAll, solid_append, solid_append, solid_single]
    split
    · next h => rw [(leaves_white h _).1, (leaves_white h []).2]
    · rfl

theorem solid_noGap : ∀ (l : List Tok), solid (leavesAll (noGapBeforeComma l)) = solid (leavesAll l)
  | [] => rfl
  | [t] => rfl
  | t :: u :: r => by
    rw [noGapBeforeComma]
    split
    · next h =>
      have ht : t.isWhitespace = true := by
        rw [Bool.and_eq_true] at h
        exact h.1
      rw [solid_noGap (u :: r)]
      rw [leavesAll.eq_def (t :: u :: r)]
      simp only
      rw [solid_append, (leaves_white ht []).2, List.nil_append]
    · rw [leavesAll, solid_append, solid_noGap (u :: r), leavesAll.eq_def (t :: u :: r)]
      simp only
      rw [solid_append]

theorem solid_popSecond {a : Tok} : ∀ {l k : List Tok}, popSecond a l = .ok k → solid (leavesAll k) = solid (leavesAll (a :: l)) ∧ ∃ b r, k = a :: b :: r ∧ b.isWhitespace = false
  | [], _, h => by cases h
  | b :: r, k, h => by
    rw [popSecond] at h
    split at h
    · next hb =>
      obtain ⟨h1, h2⟩ := solid_popSecond h
      refine ⟨?_, h2⟩
      rw [h1, leavesAll, leavesAll, leavesAll, solid_append, solid_append, solid_append, (leaves_white hb []).2, List.nil_append]
    · next hb =>
      injection h with h
      subst h
      exact ⟨rfl, b, r, rfl, by simpa using hb⟩

theorem solid_popGaps {l k : List Tok} (h : popGaps l = .ok k) : solid (leavesAll k) = solid (leavesAll l) := by
  cases l with
  | nil => cases h
  | cons a r => exact (solid_popSecond h).1

theorem popSecond_gaps {a : Tok} : ∀ {l k : List Tok}, popSecond a l = .ok k → ∃ ws r, l = ws ++ r ∧ (∀ w ∈ ws, w.isWhitespace = true) ∧ k = a :: r
  | [], _, h => by cases h
  | b :: r, k, h => by
    rw [popSecond] at h
    split at h
    · next hb =>
      obtain ⟨ws, r', h1, h2, h3⟩ := popSecond_gaps h
      refine ⟨b :: ws, r', by rw [h1]; rfl, ?_, h3⟩
      intro w hw
      rcases List.mem_cons.1 hw with rfl | hw
      · exact hb
      · exact h2 w hw
    · injection h with h
      exact ⟨[], b :: r, rfl, by simp, h.symm⟩

/-- Taking white space out of a list keeps the leaves that are none, also when the list is read from behind. -/
theorem popGaps_parts {l k : List Tok} (h : popGaps l = .ok k) : ∃ a ws r, l = a :: (ws ++ r) ∧ (∀ w ∈ ws, w.isWhitespace = true) ∧ k = a :: r := by
  cases l with
  | nil => cases h
  | cons a r =>
    obtain ⟨ws, r', h1, h2, h3⟩ := popSecond_gaps h
    exact ⟨a, ws, r', by rw [h1], h2, h3⟩

theorem solid_whites : ∀ {ws : List Tok}, (∀ w ∈ ws, w.isWhitespace = true) → solid (leavesAll ws) = []
  | [], _ => rfl
  | w :: r, h => by
    rw [leavesAll, solid_append, (leaves_white (h w List.mem_cons_self) []).2, solid_whites fun x hx => h x (List.mem_cons_of_mem _ hx)]
    rfl

theorem solid_popGaps_reverse {l k : List Tok} (h : popGaps l.reverse = .ok k) : solid (leavesAll k.reverse) = solid (leavesAll l) := by
  obtain ⟨a, ws, r, h1, h2, h3⟩ := popGaps_parts h
  have h4 : l = (r.reverse ++ ws.reverse) ++ [a] := by
    rw [← List.reverse_reverse l, h1]
    simp
  rw [h3, h4, List.reverse_cons, leavesAll_append, leavesAll_append, leavesAll_append, solid_append, solid_append, solid_append,
    solid_whites (ws := ws.reverse) (fun w hw => h2 w (List.mem_reverse.1 hw)), List.append_nil]

theorem solid_trimmed {l k : List Tok} (h : trimmed l = .ok k) : solid (leavesAll k) = solid (leavesAll l) := by
  unfold trimmed at h
  split at h
  · cases h
  · next l1 h1 =>
    split at h
    · cases h
    · next l2 h2 =>
      injection h with h
      rw [← h, solid_single, solid_popGaps_reverse h2, solid_popGaps h1]

theorem solid_stripList {c : Cls} {l k : List Tok} (h : stripList c l = .ok k) : solid (leavesAll k) = solid (leavesAll l) := by
  unfold stripList at h
  split at h
  · injection h with h
    rw [← h, solid_single, solid_noGap]
  · split at h
    · exact solid_trimmed h
    · injection h with h
      rw [← h, solid_single]

mutual
theorem solid_fewer : (t : Tok) → {t' : Tok} → fewer t = .ok t' → solid (leaves t') = solid (leaves t)
  | .leaf i m ty v, t', h => by
    rw [fewer] at h
    injection h with h
    rw [← h]
  | .grp i c ty l, t', h => by
    rw [fewer] at h
    split at h
    · cases h
    · next k hk =>
      split at h
      · cases h
      · next k' hk' =>
        injection h with h
        rw [← h, leaves, leaves, solid_stripList hk', solid_fewerAll l hk]
theorem solid_fewerAll : (l : List Tok) → {k : List Tok} → fewerAll l = .ok k → solid (leavesAll k) = solid (leavesAll l)
  | [], k, h => by
    rw [fewerAll] at h
    injection h with h
    rw [← h]
  | t :: r, k, h => by
    rw [fewerAll] at h
    split at h
    · cases h
    · next t' ht =>
      split at h
      · cases h
      · next r' hr =>
        injection h with h
        rw [← h, leavesAll, leavesAll, solid_append, solid_append, solid_fewer t ht, solid_fewerAll r hr]
end

theorem solid_noLastGap (l : List Tok) : solid (leavesAll (noLastGap l)) = solid (leavesAll l) := by
  unfold noLastGap
  cases h : l.getLast? with
  | none => rfl
  | some t =>
    simp only
    split
    · next ht =>
      obtain ⟨hne, hl⟩ := List.getLast?_eq_some_iff.1 h
      rw [hl, List.dropLast_concat, leavesAll_append, solid_append]
      have : solid (leavesAll [t]) = [] := solid_whites (by intro w hw; rw [List.mem_singleton.1 hw]; exact ht)
      rw [this, List.append_nil]
    · rfl

/-- **C99 (fewer blanks).** What the filter gives has every token that is no white space, in its place and with its text. -/
theorem C99_whitespace {t t' : Tok} (h : fewerSpaces t = .ok t') : solid (leaves t') = solid (leaves t) := by
  unfold fewerSpaces at h
  split at h
  · cases h
  · next i m ty v hf =>
    injection h with h
    rw [← h]
    exact solid_fewer t hf
  · next i c ty l hf =>
    injection h with h
    have := solid_fewer t hf
    rw [← h, ← this, leaves, leaves, solid_noLastGap]

/-! ### When it ends without an error -/

/-- A list of tokens in parentheses has two tokens, and neither the first nor the last is white space. -/
def closed : List Tok → Bool
  | [] => false
  | a :: r => !a.isWhitespace && (match r.getLast? with | none => false | some b => !b.isWhitespace)

mutual
/-- Every group of parentheses is closed. -/
def wellClosed : Tok → Bool
  | .leaf .. => true
  | .grp _ c _ l => (decide (c ≠ .parenthesis) || closed l) && wellClosedAll l
def wellClosedAll : List Tok → Bool
  | [] => true
  | t :: r => wellClosed t && wellClosedAll r
end

theorem popSecond_ok {a : Tok} : ∀ {l : List Tok}, (∃ b ∈ l, b.isWhitespace = false) → ∃ k, popSecond a l = .ok k
  | [], h => by
    obtain ⟨b, hb, _⟩ := h
    cases hb
  | b :: r, h => by
    rw [popSecond]
    split
    · next hb =>
      refine popSecond_ok ?_
      obtain ⟨x, hx, hw⟩ := h
      rcases List.mem_cons.1 hx with rfl | hx
      · rw [hb] at hw; cases hw
      · exact ⟨x, hx, hw⟩
    · exact ⟨_, rfl⟩

theorem trimmed_ok {l : List Tok} (h : closed l = true) : ∃ k, trimmed l = .ok k := by
  cases l with
  | nil => cases h
  | cons a r =>
    simp only [closed, Bool.and_eq_true] at h
    obtain ⟨ha, hr⟩ := h
    cases hl : r.getLast? with
    | none => rw [hl] at hr; cases hr
    | some b =>
      rw [hl] at hr
      have hb : b.isWhitespace = false := by simpa using hr
      have ha' : a.isWhitespace = false := by simpa using ha
      obtain ⟨k, hk⟩ := popSecond_ok (a := a) ⟨b, List.mem_of_getLast? hl, hb⟩
      have hk' : popGaps (a :: r) = .ok k := hk
      obtain ⟨_, c, r', hkc, hc⟩ := solid_popSecond hk
      obtain ⟨k2, hk2⟩ : ∃ k2, popGaps k.reverse = .ok k2 := by
        rw [hkc, List.reverse_cons]
        cases hrev : (c :: r').reverse with
        | nil => simp at hrev
        | cons x xs =>
          exact popSecond_ok ⟨a, by simp, ha'⟩
      refine ⟨single false true k2.reverse, ?_⟩
      unfold trimmed
      rw [hk']
      simp only
      rw [hk2]

/-- Being white space and the class of the group are kept. -/
theorem fewer_white : (t : Tok) → {t' : Tok} → fewer t = .ok t' → t'.isWhitespace = t.isWhitespace
  | .leaf i m ty v, t', h => by
    rw [fewer] at h
    injection h with h
    rw [← h]
  | .grp i c ty l, t', h => by
    rw [fewer] at h
    split at h
    · cases h
    · split at h
      · cases h
      · injection h with h
        rw [← h]
        rfl

theorem fewerAll_white : (l : List Tok) → {k : List Tok} → fewerAll l = .ok k → k.map Tok.isWhitespace = l.map Tok.isWhitespace
  | [], k, h => by
    rw [fewerAll] at h
    injection h with h
    rw [← h]
  | t :: r, k, h => by
    rw [fewerAll] at h
    split at h
    · cases h
    · next t' ht =>
      split at h
      · cases h
      · next r' hr =>
        injection h with h
        rw [← h, List.map_cons, List.map_cons, fewer_white t ht, fewerAll_white r hr]

theorem closed_map {l k : List Tok} (h : k.map Tok.isWhitespace = l.map Tok.isWhitespace) : closed k = closed l := by
  cases l with
  | nil =>
    cases k with
    | nil => rfl
    | cons _ _ => cases h
  | cons a r =>
    cases k with
    | nil => cases h
    | cons b s =>
      rw [List.map_cons, List.map_cons] at h
      injection h with h1 h2
      have h3 : s.getLast?.map Tok.isWhitespace = r.getLast?.map Tok.isWhitespace := by
        rw [← List.getLast?_map, ← List.getLast?_map, h2]
      simp only [closed, h1]
      cases hs : s.getLast? <;> cases hr : r.getLast? <;> rw [hs, hr] at h3 <;> simp_all

mutual
theorem fewer_ok : (t : Tok) → wellClosed t = true → ∃ t', fewer t = .ok t'
  | .leaf i m ty v, _ => ⟨_, by rw [fewer]⟩
  | .grp i c ty l, h => by
    rw [wellClosed, Bool.and_eq_true] at h
    obtain ⟨k, hk⟩ := fewerAll_ok l h.2
    have : ∃ k', stripList c k = .ok k' := by
      unfold stripList
      split
      · exact ⟨_, rfl⟩
      · split
        · next hc =>
          refine trimmed_ok ?_
          rw [closed_map (fewerAll_white l hk)]
          simpa [hc] using h.1
        · exact ⟨_, rfl⟩
    obtain ⟨k', hk'⟩ := this
    exact ⟨.grp i c ty k', by rw [fewer, hk]; simp only [hk']⟩
theorem fewerAll_ok : (l : List Tok) → wellClosedAll l = true → ∃ k, fewerAll l = .ok k
  | [], _ => ⟨_, by rw [fewerAll]⟩
  | t :: r, h => by
    rw [wellClosedAll, Bool.and_eq_true] at h
    obtain ⟨t', ht⟩ := fewer_ok t h.1
    obtain ⟨k, hk⟩ := fewerAll_ok r h.2
    exact ⟨t' :: k, by rw [fewerAll, ht]; simp only [hk]⟩
end

/-- **C99 (fewer blanks, no error).** On every tree whose parentheses are closed the filter gives a result. -/
theorem C99_whitespace_total {t : Tok} (h : wellClosed t = true) : ∃ t', fewerSpaces t = .ok t' := by
  obtain ⟨t', ht⟩ := fewer_ok t h
  unfold fewerSpaces
  rw [ht]
  cases t' <;> exact ⟨_, rfl⟩

/-! ### What stands between two tokens -/

def textAll (l : List Tok) : List Char := l.flatMap text

theorem text_setValue {t : Tok} (h : t.isWhitespace = true) (v : List Char) : text (setValue v t) = v := by
  cases t with
  | leaf i m ty w => simp [text, leaves, setValue, Tok.value]
  | grp i c ty l => cases h

theorem single_empty : ∀ {ws : List Tok}, (∀ w ∈ ws, w.isWhitespace = true) → ∀ (rest : List Tok), ∃ es, single true false (ws ++ rest) = es ++ single true false rest ∧ textAll es = []
  | [], _, rest => ⟨[], rfl, rfl⟩
  | w :: r, h, rest => by
    have hw := h w List.mem_cons_self
    obtain ⟨es, h1, h2⟩ := single_empty (fun x hx => h x (List.mem_cons_of_mem _ hx)) rest
    refine ⟨setValue [] w :: es, ?_, ?_⟩
    · rw [List.cons_append, single, hw, h1]
      rfl
    · rw [textAll, List.flatMap_cons, text_setValue hw, List.nil_append]
      exact h2

theorem single_append : ∀ (last first : Bool) (l : List Tok) (x : Tok) (r : List Tok), x.isWhitespace = false →
    ∃ a, single last first (l ++ x :: r) = a ++ x :: single false false r
  | last, first, [], x, r, h => ⟨[], by rw [List.nil_append, single, h]; rfl⟩
  | last, first, t :: l, x, r, h => by
    obtain ⟨a, ha⟩ := single_append t.isWhitespace false l x r h
    rw [List.cons_append, single, ha]
    exact ⟨_ :: a, rfl⟩

/-- **C99 (blanks that separate).** White space between two tokens of a list, however much, becomes one blank: the two are not run together. -/
theorem C99_one_blank {pre ws post : List Tok} {x y : Tok} (hx : x.isWhitespace = false) (hy : y.isWhitespace = false) (hne : ws ≠ []) (hw : ∀ w ∈ ws, w.isWhitespace = true) :
    ∃ a b, textAll (single false true (pre ++ x :: (ws ++ y :: post))) = a ++ text x ++ [' '] ++ text y ++ b := by
  obtain ⟨a, ha⟩ := single_append false true pre x (ws ++ y :: post) hx
  cases ws with
  | nil => exact absurd rfl hne
  | cons w r =>
    have hw1 := hw w List.mem_cons_self
    obtain ⟨es, h1, h2⟩ := single_empty (fun z hz => hw z (List.mem_cons_of_mem _ hz)) (y :: post)
    refine ⟨textAll a, textAll (single false false post), ?_⟩
    rw [ha, List.cons_append, single, hw1]
    simp only [if_pos, Bool.or_self, Bool.false_eq_true, if_false]
    rw [h1, single, hy]
    simp only [textAll] at h2 ⊢
    simp [List.flatMap_append, List.flatMap_cons, text_setValue hw1, h2]

/-! ### Case of words -/

/-- **C99 (case of keywords).** Only keywords change, and only in the case of their letters: the types of the tokens and the text in capitals are kept. -/
theorem C99_keywords {conv : List Char → List Char} {fold : List Char → List Char} (hc : ∀ v, fold (conv v) = fold v) (l : List Token) :
    (keywordCase conv l).map (fun t => (t.ttype, fold t.value)) = l.map (fun t => (t.ttype, fold t.value)) ∧
    (keywordCase conv l).filter (fun t => !isIn t.ttype Keyword) = l.filter (fun t => !isIn t.ttype Keyword) := by
  constructor
  · unfold keywordCase
    rw [List.map_map]
    refine List.map_congr_left fun t _ => ?_
    simp only [Function.comp]
    split
    · rw [hc]
    · rfl
  · induction l with
    | nil => rfl
    | cons t r ih =>
      unfold keywordCase at ih ⊢
      rw [List.map_cons, List.filter_cons, List.filter_cons, ih]
      by_cases ht : isIn t.ttype Keyword = true
      · rw [if_pos ht]
        simp [ht]
      · rw [if_neg ht]

/-- The letters in capitals. -/
def capitals (v : List Char) : List Char := v.map Char.toUpper

example : keywordCase capitals [⟨DML, "select".toList⟩, ⟨Whitespace, [' ']⟩, ⟨Name, "a".toList⟩] = [⟨DML, "SELECT".toList⟩, ⟨Whitespace, [' ']⟩, ⟨Name, "a".toList⟩] := by decide

/-! ### The literal of Python -/

/-- Python reads a literal after its opening quote: its value and what follows it; escapes other than those of quote and backslash keep both characters, a line break ends in an error. -/
def readPy : List Char → Option (List Char × List Char)
  | [] => none
  | [c] => if c = '\'' then some ([], []) else none
  | c :: d :: r =>
    if c = '\'' then some ([], d :: r)
    else if c = '\n' then none
    else if c = '\\' then
      if d = '\'' ∨ d = '\\' then (readPy r).map fun x => (d :: x.1, x.2)
      else (readPy (d :: r)).map fun x => (c :: x.1, x.2)
    else (readPy (d :: r)).map fun x => (c :: x.1, x.2)

theorem readPy_cons {c : Char} {s : List Char} (h1 : c ≠ '\'') (h2 : c ≠ '\n') (h3 : c ≠ '\\') (hs : s ≠ []) : readPy (c :: s) = (readPy s).map fun x => (c :: x.1, x.2) := by
  cases s with
  | nil => exact absurd rfl hs
  | cons d r => rw [readPy, if_neg h1, if_neg h2, if_neg h3]

theorem readPy_escaped : ∀ (s rest : List Char), (∀ c ∈ s, c ≠ '\\' ∧ c ≠ '\n') → readPy (escaped s ++ '\'' :: rest) = some (s, rest)
  | [], rest, _ => by
    cases rest with
    | nil => rfl
    | cons d r => simp [escaped, readPy]
  | c :: s, rest, h => by
    have ih := readPy_escaped s rest fun x hx => h x (List.mem_cons_of_mem _ hx)
    have hc := h c List.mem_cons_self
    have he : escaped (c :: s) = (if c = '\'' then ['\\', '\''] else [c]) ++ escaped s := rfl
    rw [he]
    by_cases hq : c = '\''
    · subst hq
      rw [if_pos rfl, List.append_assoc, List.cons_append, List.cons_append, List.nil_append, readPy, if_neg (by decide), if_neg (by decide), if_pos rfl, if_pos (.inl rfl), ih]
      rfl
    · rw [if_neg hq, List.append_assoc, List.cons_append, List.nil_append, readPy_cons hq hc.2 hc.1 (by simp), ih]
      rfl

theorem pythonBody_line (name : List Char) : ∀ (l : List (List Char × Bool)), (∀ t ∈ l, '\n' ∉ t.1) → pythonBody name l = escaped (l.flatMap Prod.fst)
  | [], _ => rfl
  | (v, w) :: r, h => by
    have hv : v.contains '\n' = false := by
      have := h (v, w) List.mem_cons_self
      simpa using this
    rw [pythonBody, hv, Bool.and_false, if_neg (by decide), pythonBody_line name r fun t ht => h t (List.mem_cons_of_mem _ ht), List.flatMap_cons]
    simp [escaped, List.flatMap_append]

/-- **C99 (as a literal of Python, partial).** A statement of one line without a backslash is, read by Python, the statement. -/
theorem C99_python_partial (name : List Char) {l : List (List Char × Bool)} (h : ∀ t ∈ l, ∀ c ∈ t.1, c ≠ '\\' ∧ c ≠ '\n') :
    ∃ s, python name false l = name ++ [' ', '=', ' ', '\''] ++ s ∧ readPy s = some (l.flatMap Prod.fst, []) := by
  refine ⟨pythonBody name l ++ ['\''], by simp [python], ?_⟩
  rw [pythonBody_line name l fun t ht hn => (h t ht '\n' hn).2 rfl]
  refine readPy_escaped _ [] ?_
  intro c hc
  obtain ⟨t, ht, hct⟩ := List.mem_flatMap.1 hc
  exact h t ht c hct

/-! ### Cutting literals -/

/-- A literal with at most `width` characters is left alone. -/
theorem C99_truncate_short {width : Nat} {mark value : List Char} (h : value.length ≤ width + 2) : cut width mark value = value := by
  unfold cut
  simp only
  rw [if_neg]
  intro hlt
  split at hlt
  · simp only [inside, List.length_drop, List.length_take] at hlt
    omega
  · simp only [inside, List.length_drop, List.length_take] at hlt
    omega

/-- MySQL reads a literal after its opening quote: its value and what follows it. -/
def readLit : List Char → Option (List Char × List Char)
  | [] => none
  | [c] => if c = '\'' then some ([], []) else none
  | c :: d :: r =>
    if c = '\'' then
      if d = '\'' then (readLit r).map fun x => ('\'' :: x.1, x.2) else some ([], d :: r)
    else if c = '\\' then (readLit r).map fun x => (d :: x.1, x.2)
    else (readLit (d :: r)).map fun x => (c :: x.1, x.2)

theorem readLit_plain : ∀ (s rest : List Char), (∀ c ∈ s, c ≠ '\'' ∧ c ≠ '\\') → rest ≠ [] → readLit (s ++ rest) = (readLit rest).map fun x => (s ++ x.1, x.2)
  | [], rest, _, _ => by
    rw [List.nil_append]
    cases readLit rest <;> rfl
  | c :: s, rest, h, hr => by
    have ih := readLit_plain s rest (fun x hx => h x (List.mem_cons_of_mem _ hx)) hr
    have hc := h c List.mem_cons_self
    cases hs : s ++ rest with
    | nil =>
      rw [List.append_eq_nil_iff] at hs
      exact absurd hs.2 hr
    | cons d r =>
      rw [List.cons_append, hs, readLit, if_neg hc.1, if_neg hc.2, ← hs, ih]
      cases readLit rest <;> rfl

theorem cut_plain {width : Nat} {mark s : List Char} {c : Char} (hc : c ≠ '\'') : cut width mark ('\'' :: c :: s ++ ['\'']) =
    if width < (c :: s).length then '\'' :: (c :: s).take width ++ mark ++ ['\''] else '\'' :: c :: s ++ ['\''] := by
  have h1 : inside 1 ('\'' :: c :: s ++ ['\'']) = c :: s := by
    unfold inside
    have : ('\'' :: c :: s ++ ['\'']).length - 1 = ('\'' :: c :: s).length := by simp
    rw [this, List.take_left]
    rfl
  have h2 : (('\'' :: c :: s ++ ['\'']).take 2 == ['\'', '\'']) = false := by
    simp [hc]
  unfold cut
  simp only [h2, Bool.false_eq_true, if_false, h1]
  rfl

/-- **C99 (cutting, partial).** The first characters of a literal without quotes and backslashes, and the mark, make again a literal. -/
theorem C99_truncate_partial {width : Nat} {mark s rest : List Char} (hs : ∀ c ∈ s, c ≠ '\'' ∧ c ≠ '\\') (hm : ∀ c ∈ mark, c ≠ '\'' ∧ c ≠ '\\') (hw : width < s.length)
    (hr : ∀ r, rest ≠ '\'' :: r) :
    ∃ t, cut width mark ('\'' :: s ++ ['\'']) = '\'' :: t ∧ readLit (t ++ rest) = some (s.take width ++ mark, rest) := by
  cases s with
  | nil => simp at hw
  | cons c s =>
    refine ⟨(c :: s).take width ++ mark ++ ['\''], ?_, ?_⟩
    · have := cut_plain (width := width) (mark := mark) (s := s) (hs c List.mem_cons_self).1
      rw [if_pos hw] at this
      simpa using this
    · have hp : ∀ x ∈ (c :: s).take width ++ mark, x ≠ '\'' ∧ x ≠ '\\' := by
        intro x hx
        rcases List.mem_append.1 hx with hx | hx
        · exact hs x (List.mem_of_mem_take hx)
        · exact hm x hx
      rw [List.append_assoc, readLit_plain _ _ hp (by simp)]
      cases rest with
      | nil => simp [readLit]
      | cons d r =>
        have hd : d ≠ '\'' := fun h => hr r (by rw [h])
        simp [readLit, hd]

end EulerDB.Layout
