/-
When the rewriting of quotes leaves a statement as it is.
-/
import Verif.Rules.Model

namespace EulerDB.Rules

open EulerDB.Lex

theorem takeWhile_dropWhile (p : Char → Bool) (t : List Char) : t.takeWhile p ++ t.dropWhile p = t := List.takeWhile_append_dropWhile

/-- A substitution that changes no part of the text. -/
theorem subQuoted_id {f : List Char → List Char} : ∀ (n : Nat) (t : List Char), (∀ v, v <:+: t → f v = v) → subQuoted f n t = t
  | 0, _, _ => rfl
  | _ + 1, [], _ => rfl
  | n + 1, c :: t, h => by
    have ht := subQuoted_id n t fun v hv => h v (hv.trans (List.suffix_cons c t).isInfix)
    rw [subQuoted]
    split
    · rename_i hc
      split
      · rename_i r hr
        have e : c :: t = (c :: (t.takeWhile (fun x => x != '\'' && x != '\n') ++ ['\''])) ++ r := by
          conv => lhs; rw [← takeWhile_dropWhile (fun x => x != '\'' && x != '\n') t, hr]
          simp
        have h1 := h (c :: (t.takeWhile (fun x => x != '\'' && x != '\n') ++ ['\''])) ⟨[], r, by rw [e]; rfl⟩
        have h2 := subQuoted_id n r fun v hv => h v (hv.trans ⟨c :: (t.takeWhile (fun x => x != '\'' && x != '\n') ++ ['\'']), [], by
          rw [e, List.append_nil]⟩)
        rw [h1, h2, ← e]
      · rw [ht]
    · rw [ht]

theorem hide_id {t : List Char} (h : '"' ∉ t) : hide t = t := by
  induction t with
  | nil => rfl
  | cons c t ih =>
    have hc : c ≠ '"' := fun e => h (by rw [e]; exact List.mem_cons_self ..)
    have := ih fun e => h (List.mem_cons_of_mem _ e)
    unfold hide at this ⊢
    rw [List.flatMap_cons, this, if_neg hc]
    rfl

theorem unhide_id : ∀ (n : Nat) (t : List Char), ¬ mark <:+: t → unhide n t = t
  | 0, _, _ => rfl
  | _ + 1, [], _ => rfl
  | n + 1, c :: t, h => by
    rw [unhide, if_neg fun hp => h (List.isPrefixOf_iff_prefix.1 hp).isInfix,
      unhide_id n t fun hv => h (hv.trans (List.suffix_cons c t).isInfix)]

theorem backticks_id : ∀ (n : Nat) (t : List Char), '"' ∉ t → backticks n t = t
  | 0, _, _ => rfl
  | _ + 1, [], _ => rfl
  | n + 1, c :: t, h => by
    rw [backticks, if_neg fun e => h (by rw [e]; exact List.mem_cons_self ..),
      backticks_id n t fun e => h (List.mem_cons_of_mem _ e)]

theorem backticks2_id : ∀ (n : Nat) (t : List Char), '"' ∉ t → backticks2 n t = t
  | 0, _, _ => rfl
  | _ + 1, [], _ => rfl
  | n + 1, c :: t, h => by
    rw [backticks2, if_neg fun e => h (by rw [e]; exact List.mem_cons_self ..),
      backticks2_id n t fun e => h (List.mem_cons_of_mem _ e)]

/-- A statement without double quotes stays as it is. -/
theorem preprocess_id {t : List Char} (h : '"' ∉ t) (hm : ¬ mark <:+: t) : preprocess t = t := by
  have h1 : subQuoted hide t.length t = t := subQuoted_id _ _ fun v hv => hide_id fun hq => h (hv.subset hq)
  unfold preprocess
  simp only [h1]
  rw [backticks_id _ _ h, backticks2_id _ _ h]
  exact subQuoted_id _ _ fun v hv => unhide_id _ _ fun hp => hm (hp.trans hv)

/-! ### Double quotes within single quotes -/

/-- A text as `'.*?'` cuts it, when each quote has its partner on the same line: the pieces in quotes, and the
characters between them. -/
inductive Cut : List Char → List (Bool × List Char) → Prop
  | nil : Cut [] []
  | quoted {v r : List Char} {ps : List (Bool × List Char)} : '\'' ∉ v → '\n' ∉ v → Cut r ps →
      Cut ('\'' :: (v ++ '\'' :: r)) ((true, '\'' :: (v ++ ['\''])) :: ps)
  | plain {c : Char} {r : List Char} {ps : List (Bool × List Char)} : c ≠ '\'' → Cut r ps → Cut (c :: r) ((false, [c]) :: ps)

theorem span_quote {v r : List Char} (h : '\'' ∉ v) (hn : '\n' ∉ v) :
    (v ++ '\'' :: r).takeWhile (fun x => x != '\'' && x != '\n') = v ∧
      (v ++ '\'' :: r).dropWhile (fun x => x != '\'' && x != '\n') = '\'' :: r := by
  induction v with
  | nil => simp
  | cons c v ih =>
    have h1 : c ≠ '\'' := fun e => h (by rw [e]; exact List.mem_cons_self ..)
    have h2 : c ≠ '\n' := fun e => hn (by rw [e]; exact List.mem_cons_self ..)
    obtain ⟨i1, i2⟩ := ih (fun e => h (List.mem_cons_of_mem _ e)) fun e => hn (List.mem_cons_of_mem _ e)
    simp [h1, h2, i1, i2]

def pieceMap (f : List Char → List Char) (p : Bool × List Char) : Bool × List Char := if p.1 then (true, f p.2) else p

theorem Cut.sub {t : List Char} {ps : List (Bool × List Char)} (h : Cut t ps) (f : List Char → List Char) :
    ∀ n, t.length ≤ n → subQuoted f n t = ps.flatMap fun p => (pieceMap f p).2 := by
  induction h with
  | nil => intro n _; cases n <;> rfl
  | @quoted v r ps h1 h2 _ ih =>
    intro n hn
    cases n with
    | zero => simp at hn
    | succ n =>
      obtain ⟨e1, e2⟩ := span_quote (r := r) h1 h2
      rw [subQuoted, if_pos rfl, e2]
      simp only [e1]
      rw [ih n (by simp at hn; omega), List.flatMap_cons]
      rfl
  | @plain c r ps hc _ ih =>
    intro n hn
    cases n with
    | zero => simp at hn
    | succ n =>
      rw [subQuoted, if_neg hc, ih n (by simp at hn; omega), List.flatMap_cons]
      rfl

theorem Cut.concat {t : List Char} {ps : List (Bool × List Char)} (h : Cut t ps) : ps.flatMap Prod.snd = t := by
  induction h with
  | nil => rfl
  | quoted _ _ _ ih => rw [List.flatMap_cons, ih]; simp
  | plain _ _ ih => rw [List.flatMap_cons, ih]; rfl

theorem hide_append (a b : List Char) : hide (a ++ b) = hide a ++ hide b := by simp [hide]

theorem hide_mem {c : Char} {v : List Char} (h : c ∈ hide v) : (c ∈ v ∧ c ≠ '"') ∨ c ∈ mark := by
  unfold hide at h
  obtain ⟨d, h1, h2⟩ := List.mem_flatMap.1 h
  split at h2
  · exact .inr h2
  · rename_i hd
    rw [List.mem_singleton] at h2
    subst h2
    exact .inl ⟨h1, hd⟩

/-- The pieces keep their bounds when double quotes in them are hidden. -/
theorem Cut.hidden {t : List Char} {ps : List (Bool × List Char)} (h : Cut t ps) :
    Cut (ps.flatMap fun p => (pieceMap hide p).2) (ps.map (pieceMap hide)) := by
  induction h with
  | nil => exact .nil
  | @quoted v r ps h1 h2 _ ih =>
    have e : hide ('\'' :: (v ++ ['\''])) = '\'' :: (hide v ++ ['\'']) := by
      rw [show '\'' :: (v ++ ['\'']) = ['\''] ++ v ++ ['\''] from rfl, hide_append, hide_append]
      rfl
    rw [List.flatMap_cons, List.map_cons]
    simp only [pieceMap, if_true, e]
    have : '\'' :: (hide v ++ ['\'']) ++ List.flatMap (fun p => (pieceMap hide p).2) ps =
        '\'' :: (hide v ++ '\'' :: List.flatMap (fun p => (pieceMap hide p).2) ps) := by simp
    have g1 : '\'' ∉ hide v := fun hc => by
      rcases hide_mem hc with ⟨hc, _⟩ | hc
      · exact h1 hc
      · exact absurd hc (by decide)
    have g2 : '\n' ∉ hide v := fun hc => by
      rcases hide_mem hc with ⟨hc, _⟩ | hc
      · exact h2 hc
      · exact absurd hc (by decide)
    have := Cut.quoted g1 g2 ih
    simpa [pieceMap] using this
  | @plain c r ps hc _ ih =>
    rw [List.flatMap_cons, List.map_cons]
    exact .plain hc ih

/-- A mark in a text with hidden double quotes that does not begin with a hidden one was there before. -/
theorem prefix_hide : ∀ (m : List Char) (t : List Char), '<' ∉ m → m <+: hide t → m <+: t
  | [], t, _, _ => List.nil_prefix
  | x :: m, [], _, h => by simp [hide] at h
  | x :: m, c :: t, hm, h => by
    have e : hide (c :: t) = (if c = '"' then mark else [c]) ++ hide t := rfl
    rw [e] at h
    by_cases hc : c = '"'
    · rw [if_pos hc] at h
      have : mark = '<' :: "!!__QUOTE__!!>".toList := by decide
      rw [this, List.cons_append, List.cons_prefix_cons] at h
      exact absurd (by rw [h.1]; exact List.mem_cons_self ..) hm
    · rw [if_neg hc, List.singleton_append, List.cons_prefix_cons] at h
      rw [List.cons_prefix_cons]
      exact ⟨h.1, prefix_hide m t (fun e => hm (List.mem_cons_of_mem _ e)) h.2⟩

theorem mark_eq : ∃ tl, mark = '<' :: tl ∧ '<' ∉ tl ∧ mark.length = 15 := ⟨"!!__QUOTE__!!>".toList, by decide, by decide, by decide⟩

theorem unhide_mark {n : Nat} {v : List Char} : unhide (n + 1) (mark ++ v) = '"' :: unhide n v := by
  obtain ⟨tl, e, _, _⟩ := mark_eq
  have hp : mark.isPrefixOf (mark ++ v) = true := List.isPrefixOf_iff_prefix.2 (List.prefix_append _ _)
  have hd : (mark ++ v).drop mark.length = v := List.drop_left
  generalize hk : mark ++ v = k at hp hd ⊢
  cases k with
  | nil => rw [e] at hk; cases hk
  | cons c k => rw [unhide, if_pos hp, hd]

theorem unhide_hide : ∀ (v : List Char) (n : Nat), (hide v).length ≤ n → ¬ mark <:+: v → unhide n (hide v) = v
  | [], n, _, _ => by cases n <;> rfl
  | c :: v, n, hn, hm => by
    obtain ⟨tl, em, hlt, hlen⟩ := mark_eq
    have hm' : ¬ mark <:+: v := fun h => hm (h.trans (List.suffix_cons c v).isInfix)
    have e : hide (c :: v) = (if c = '"' then mark else [c]) ++ hide v := rfl
    rw [e] at hn ⊢
    by_cases hc : c = '"'
    · rw [if_pos hc, List.length_append, hlen] at hn
      rw [if_pos hc]
      cases n with
      | zero => omega
      | succ n => rw [unhide_mark, unhide_hide v n (by omega) hm', hc]
    · rw [if_neg hc, List.singleton_append] at hn
      rw [if_neg hc, List.singleton_append]
      rw [List.length_cons] at hn
      cases n with
      | zero => omega
      | succ n =>
        rw [unhide, if_neg, unhide_hide v n (by omega) hm']
        intro hp
        have hp' := List.isPrefixOf_iff_prefix.1 hp
        rw [em, List.cons_prefix_cons] at hp'
        obtain ⟨s, hs⟩ := prefix_hide _ v hlt hp'.2
        apply hm
        rw [em]
        exact ⟨[], s, by rw [List.nil_append, List.cons_append, hp'.1, hs]⟩

/-- Double quotes within single quotes are left alone. -/
theorem preprocess_cut {t : List Char} {ps : List (Bool × List Char)} (h : Cut t ps)
    (hq : ∀ p ∈ ps, p.1 = false → '"' ∉ p.2) (hm : ¬ mark <:+: t) : preprocess t = t := by
  have h1 := h.sub hide t.length (Nat.le_refl _)
  have hc := h.hidden
  have hn : '"' ∉ ps.flatMap fun p => (pieceMap hide p).2 := by
    intro hmem
    obtain ⟨p, hp, hp2⟩ := List.mem_flatMap.1 hmem
    unfold pieceMap at hp2
    split at hp2
    · rcases hide_mem hp2 with ⟨_, hne⟩ | hk
      · exact hne rfl
      · exact absurd hk (by decide)
    · rename_i hf
      exact hq p hp (by simpa using hf) hp2
  unfold preprocess
  simp only [h1]
  rw [backticks_id _ _ hn, backticks2_id _ _ hn, hc.sub _ _ (Nat.le_refl _)]
  conv => rhs; rw [← h.concat]
  rw [List.flatMap_map]
  have hcat := h.concat
  have hin : ∀ p ∈ ps, p.2 <:+: t := by
    intro p hp
    obtain ⟨a, b, rfl⟩ := List.append_of_mem hp
    rw [List.flatMap_append, List.flatMap_cons] at hcat
    exact ⟨a.flatMap Prod.snd, b.flatMap Prod.snd, by rw [← hcat, List.append_assoc]⟩
  clear hcat h1 hc hn hq h
  induction ps with
  | nil => rfl
  | cons p ps ih =>
    rw [List.flatMap_cons, List.flatMap_cons, ih fun p hp => hin p (List.mem_cons_of_mem _ hp)]
    congr 1
    have hp := hin p (List.mem_cons_self ..)
    unfold pieceMap
    by_cases hb : p.1 = true
    · rw [if_pos hb]
      simp only [if_true]
      exact unhide_hide _ _ (Nat.le_refl _) fun hh => hm (hh.trans hp)
    · rw [if_neg hb, if_neg hb]

/-! ### Names in double quotes -/

/-- A text from pieces; those with `true` stand between two `q`. -/
def quotedBy (q : Char) (ps : List (Bool × List Char)) : List Char := ps.flatMap fun p => if p.1 then q :: (p.2 ++ [q]) else p.2

/-- Names that are not empty and have no quotes and no backticks; the other pieces have no double quotes. -/
def NamePieces (ps : List (Bool × List Char)) : Prop :=
  ∀ p ∈ ps, '"' ∉ p.2 ∧ '\'' ∉ p.2 ∧ (p.1 = true → p.2 ≠ [] ∧ '`' ∉ p.2)

theorem inQuotes_name {x : Char} {v r : List Char} (h1 : '"' ∉ x :: v) (h2 : '`' ∉ x :: v) : inQuotes (x :: (v ++ '"' :: r)) = some (x :: v, r) := by
  have hv : ∀ y ∈ v, (y != '"' && y != '`') = true := by
    intro y hy
    simp only [Bool.and_eq_true, bne_iff_ne]
    exact ⟨fun e => h1 (e ▸ List.mem_cons_of_mem _ hy), fun e => h2 (e ▸ List.mem_cons_of_mem _ hy)⟩
  have hd : (v ++ '"' :: r).dropWhile (fun y => y != '"' && y != '`') = '"' :: r := by
    rw [List.dropWhile_append_of_pos hv, List.dropWhile_cons_of_neg (by decide)]
  have ht : (v ++ '"' :: r).takeWhile (fun y => y != '"' && y != '`') = v := by
    rw [List.takeWhile_append_of_pos hv, List.takeWhile_cons_of_neg (by decide), List.append_nil]
  rw [inQuotes, if_neg fun e => h2 (by rw [e]; exact List.mem_cons_self ..)]
  simp only [hd, ht]

theorem backticks_plain : ∀ (v : List Char) (n : Nat) (t : List Char), '"' ∉ v → backticks (v.length + n) (v ++ t) = v ++ backticks n t
  | [], n, t, _ => by simp
  | c :: v, n, t, h => by
    rw [List.length_cons, Nat.add_right_comm, List.cons_append, backticks, if_neg fun e => h (by rw [e]; exact List.mem_cons_self ..),
      backticks_plain v n t fun e => h (List.mem_cons_of_mem _ e)]
    rfl

theorem backticks_names : ∀ (ps : List (Bool × List Char)) (n : Nat), (quotedBy '"' ps).length ≤ n → NamePieces ps →
    backticks n (quotedBy '"' ps) = quotedBy '`' ps
  | [], n, _, _ => by cases n <;> rfl
  | (false, v) :: r, n, hn, h => by
    have e : ∀ q, quotedBy q ((false, v) :: r) = v ++ quotedBy q r := fun q => rfl
    rw [e, List.length_append] at hn
    obtain ⟨m, rfl⟩ := Nat.exists_eq_add_of_le (Nat.le_trans (Nat.le_add_right _ _) hn)
    rw [e, e, backticks_plain v m _ (h _ (List.mem_cons_self ..)).1, backticks_names r m (by omega) fun p hp => h p (List.mem_cons_of_mem _ hp)]
  | (true, v) :: r, n, hn, h => by
    obtain ⟨h1, _, h2⟩ := h _ (List.mem_cons_self ..)
    obtain ⟨h3, h4⟩ := h2 rfl
    have e : ∀ q, quotedBy q ((true, v) :: r) = q :: (v ++ q :: quotedBy q r) := fun q => by simp [quotedBy]
    rw [e, List.length_cons, List.length_append, List.length_cons] at hn
    cases n with
    | zero => omega
    | succ n =>
      cases v with
      | nil => exact absurd rfl h3
      | cons x v =>
        rw [e, e, backticks, if_pos rfl, List.cons_append, inQuotes_name h1 h4]
        simp only
        rw [backticks_names r n (by simp at hn; omega) fun p hp => h p (List.mem_cons_of_mem _ hp)]

theorem subQuoted_none (f : List Char → List Char) : ∀ (n : Nat) (t : List Char), '\'' ∉ t → subQuoted f n t = t
  | 0, _, _ => rfl
  | _ + 1, [], _ => rfl
  | n + 1, c :: t, h => by
    rw [subQuoted, if_neg fun e => h (by rw [e]; exact List.mem_cons_self ..), subQuoted_none f n t fun e => h (List.mem_cons_of_mem _ e)]

theorem not_mem_quotedBy {q c : Char} {ps : List (Bool × List Char)} (hq : c ≠ q) (h : ∀ p ∈ ps, c ∉ p.2) : c ∉ quotedBy q ps := by
  intro hm
  obtain ⟨p, hp, hc⟩ := List.mem_flatMap.1 hm
  split at hc
  · simp only [List.mem_cons, List.mem_append, List.not_mem_nil, or_false] at hc
    rcases hc with e | e | e
    · exact hq e
    · exact h p hp e
    · exact hq e
  · exact h p hp hc

/-- Names in double quotes get backticks instead. -/
theorem preprocess_names {ps : List (Bool × List Char)} (h : NamePieces ps) : preprocess (quotedBy '"' ps) = quotedBy '`' ps := by
  have h1 : '\'' ∉ quotedBy '"' ps := not_mem_quotedBy (by decide) fun p hp => (h p hp).2.1
  have h2 : '\'' ∉ quotedBy '`' ps := not_mem_quotedBy (by decide) fun p hp => (h p hp).2.1
  have h3 : '"' ∉ quotedBy '`' ps := not_mem_quotedBy (by decide) fun p hp => (h p hp).1
  unfold preprocess
  simp only [subQuoted_none _ _ _ h1]
  rw [backticks_names ps _ (Nat.le_refl _) h, backticks2_id _ _ h3, subQuoted_none _ _ _ h2]

end EulerDB.Rules
