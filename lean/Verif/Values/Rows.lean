/-
C85: the values of an INSERT.
-/
import Verif.Values.Run

namespace EulerDB.Values

open EulerDB.Lex EulerDB.Group EulerDB.Rules

def lpar : Token := ⟨Punctuation, ['(']⟩
def rpar : Token := ⟨Punctuation, [')']⟩
def comma : Token := ⟨Punctuation, [',']⟩

/-- The tokens with commas between them. -/
def sep : List Token → List Token
  | [] => []
  | [t] => [t]
  | t :: r => t :: comma :: sep r

def rowToks (row : List Token) : List Token := lpar :: (sep row ++ [rpar])

def rowsToks : List (List Token) → List Token
  | [] => []
  | [r] => rowToks r
  | r :: rs => rowToks r ++ comma :: rowsToks rs

/-- A token that stands for a value by itself. -/
structure Cell (t : Token) (v : Val) : Prop where
  paren : parenTok t = false
  dot : isDot t = false
  key : isKeywordTok t = false
  type : t.ttype ≠ Punctuation
  reads : readVal t.ttype (unquote t.value) = .ok v

theorem values_skip {t : VTok} {r : List VTok} (h : (t.open' && t.p.lastKeyword == "VALUES" && decide (0 < t.p.level)) = false) :
    valuesFrom (t :: r) = valuesFrom r := by
  rw [valuesFrom, h, Bool.false_and, if_neg (by simp)]

theorem values_next {t : VTok} {r : List VTok} (h : nextPunct r = false) : valuesFrom (t :: r) = valuesFrom r := by
  rw [valuesFrom, h, Bool.and_false, if_neg (by simp)]

theorem values_take {t : VTok} {r : List VTok} {v : Val} (h1 : t.open' = true) (h2 : t.p.lastKeyword = "VALUES") (h3 : 0 < t.p.level)
    (h4 : nextPunct r = true) (h5 : readVal t.ttype t.p.value = .ok v) : valuesFrom (t :: r) = (valuesFrom r).map (v :: ·) := by
  rw [valuesFrom, h1, h2, h4, if_pos (by simp [h3]), h5]
  cases valuesFrom r <;> rfl

theorem values_skip_all : ∀ {l r : List VTok}, (∀ t ∈ l, t.p.lastKeyword ≠ "VALUES") → valuesFrom (l ++ r) = valuesFrom r
  | [], _, _ => rfl
  | t :: l, r, h => by
    rw [List.cons_append, values_skip, values_skip_all fun u hu => h u (List.mem_cons_of_mem _ hu)]
    have := h t (List.mem_cons_self ..)
    simp [this]

theorem key_comma : isKeywordTok comma = false := by decide
theorem key_lpar : isKeywordTok lpar = false := by decide
theorem key_rpar : isKeywordTok rpar = false := by decide

/-- What one token that is no parenthesis and no keyword does. -/
theorem onToken_cell {t : Token} {v : List Char} {pos : Nat} {made : List PTok} {bk bk' : Book} {p : PTok} (hp : parenTok t = false)
    (hk : isKeywordTok t = false) (h : onToken t v pos made bk = .ok (p, bk')) :
    bk' = bk ∧ p.level = bk.level ∧ p.lastKeyword = bk.last ∧ p.value = v := by
  rw [parenTok, Bool.or_eq_false_iff] at hp
  simp only [onToken, hp.1, hp.2, Bool.false_eq_true, if_false, lastKeyword_none hk, Except.ok.injEq, Prod.mk.injEq] at h
  obtain ⟨rfl, rfl⟩ := h
  exact ⟨rfl, rfl, rfl, rfl⟩

theorem onToken_rpar {v : List Char} {pos : Nat} {made : List PTok} {bk bk' : Book} {p : PTok}
    (h : onToken rpar v pos made bk = .ok (p, bk')) :
    bk'.level = bk.level - 1 ∧ bk'.last = bk.last ∧ p.right = true := by
  unfold onToken at h
  dsimp only at h
  rw [if_neg (by decide), if_pos (by decide)] at h
  unfold Book.closing at h
  cases ho : bk.opens with
  | nil => rw [ho] at h; cases h
  | cons kd r =>
    rw [ho] at h
    simp only [lastKeyword_none key_rpar, Except.ok.injEq, Prod.mk.injEq] at h
    obtain ⟨rfl, rfl⟩ := h
    exact ⟨rfl, rfl, rfl⟩

theorem onToken_lpar {v : List Char} {pos : Nat} {made : List PTok} {bk bk' : Book} {p : PTok}
    (h : onToken lpar v pos made bk = .ok (p, bk')) :
    bk'.level = bk.level + 1 ∧ bk'.last = bk.last ∧ p.left = true := by
  unfold onToken at h
  dsimp only at h
  rw [if_pos (by decide)] at h
  simp only [lastKeyword_none key_lpar, Except.ok.injEq, Prod.mk.injEq] at h
  obtain ⟨rfl, rfl⟩ := h
  exact ⟨rfl, rfl, rfl⟩

theorem not_open_left {t : VTok} (h : t.p.left = true) : t.open' = false := by simp [VTok.open', h]
theorem not_open_right {t : VTok} (h : t.p.right = true) : t.open' = false := by simp [VTok.open', h]

theorem map_cons_append {α : Type} (v : α) (vals : List α) (x : Except PyErr (List α)) :
    ((x.map (vals ++ ·)).map (v :: ·)) = x.map ((v :: vals) ++ ·) := by cases x <;> rfl

theorem cell_open {t : Token} {v : Val} (hc : Cell t v) {w : List Char} {pos : Nat} {made : List PTok} {bk bk' : Book} {p : PTok}
    (h : onToken t w pos made bk = .ok (p, bk')) : (⟨p, t.ttype⟩ : VTok).open' = true := by
  obtain ⟨_, _, o1, o2, _⟩ := onToken_last h
  have := hc.paren
  rw [parenTok] at this
  rw [VTok.open', o1, o2, ← Bool.not_or, this]
  rfl

theorem next_cell {u : Token} {row rest : List Token} {pos : Nat} {made : List PTok} {bk bk' : Book} {vs : List VTok}
    (h : run pos made bk (sep (u :: row) ++ rest) = .ok (vs, bk')) (hu : u.ttype ≠ Punctuation) : nextPunct vs = false := by
  obtain ⟨x, hx⟩ : ∃ x, sep (u :: row) ++ rest = u :: x := by
    cases row with
    | nil => exact ⟨_, rfl⟩
    | cons w row => exact ⟨_, rfl⟩
  rw [hx] at h
  obtain ⟨p, bk1, l, _, _, rfl⟩ := run_cons h
  rw [nextPunct, VTok.punct]
  simpa using hu

/-- The cells of a row, up to its parenthesis. -/
theorem run_cells : ∀ (row : List Token) (vals : List Val) (rest : List Token) (pos : Nat) (made : List PTok) (bk bk' : Book)
    (vs : List VTok), List.Forall₂ Cell row vals → bk.last = "VALUES" → Book.Even bk → 0 < bk.level →
    run pos made bk (sep row ++ rpar :: rest) = .ok (vs, bk') →
    ∃ pos' made' bk1 vr, run pos' made' bk1 rest = .ok (vr, bk') ∧ valuesFrom vs = (valuesFrom vr).map (vals ++ ·) ∧
      bk1.last = "VALUES" ∧ Book.Even bk1 ∧ bk1.level = bk.level - 1
  | [], vals, rest, pos, made, bk, bk', vs, hc, hl, he, hp, h => by
    cases hc
    obtain ⟨p, bk1, l, h1, h2, rfl⟩ := run_cons h
    obtain ⟨g1, g2, g3⟩ := onToken_rpar h1
    refine ⟨_, _, bk1, l, h2, ?_, g2.trans hl, (onToken_even he h1).1, g1⟩
    rw [values_skip (by rw [not_open_right g3]; rfl)]
    cases valuesFrom l <;> rfl
  | [t], vals, rest, pos, made, bk, bk', vs, hc, hl, he, hp, h => by
    cases hc with
    | @cons _ v _ vals' hc1 hc2 =>
      cases hc2
      obtain ⟨p, bk1, l, h1, h2, rfl⟩ := run_cons h
      obtain ⟨rfl, g2, g3, g4⟩ := onToken_cell hc1.paren hc1.key h1
      obtain ⟨q, bk2, l2, h3, h4, rfl⟩ := run_cons h2
      obtain ⟨k1, k2, k3⟩ := onToken_rpar h3
      refine ⟨_, _, bk2, l2, h4, ?_, k2.trans hl, (onToken_even he h3).1, k1⟩
      rw [values_take (cell_open hc1 h1) (g3.trans hl) (by rw [g2]; exact hp) rfl (by rw [g4]; exact hc1.reads),
        values_skip (by rw [not_open_right k3]; rfl)]
      rfl
  | t :: u :: row, vals, rest, pos, made, bk, bk', vs, hc, hl, he, hp, h => by
    cases hc with
    | @cons _ v _ vals' hc1 hc2 =>
      have e : sep (t :: u :: row) ++ rpar :: rest = t :: comma :: (sep (u :: row) ++ rpar :: rest) := rfl
      rw [e] at h
      obtain ⟨p, bk1, l, h1, h2, rfl⟩ := run_cons h
      obtain ⟨rfl, g2, g3, g4⟩ := onToken_cell hc1.paren hc1.key h1
      obtain ⟨q, bk2, l2, h3, h4, rfl⟩ := run_cons h2
      obtain ⟨rfl, k2, k3, k4⟩ := onToken_cell (show parenTok comma = false by decide) key_comma h3
      obtain ⟨pos', made', bk3, vr, i1, i2, i3, i4, i5⟩ := run_cells (u :: row) vals' rest _ _ _ _ _ hc2 hl he hp h4
      refine ⟨pos', made', bk3, vr, i1, ?_, i3, i4, i5⟩
      rw [values_take (cell_open hc1 h1) (g3.trans hl) (by rw [g2]; exact hp) rfl (by rw [g4]; exact hc1.reads),
        values_next (next_cell h4 (by cases hc2 with | cons x _ => exact x.type)), i2, map_cons_append]

/-- A row. -/
theorem run_row {row : List Token} {vals : List Val} {rest : List Token} {pos : Nat} {made : List PTok} {bk bk' : Book} {vs : List VTok}
    (hc : List.Forall₂ Cell row vals) (hl : bk.last = "VALUES") (he : Book.Even bk) (hp : bk.level = 0)
    (h : run pos made bk (rowToks row ++ rest) = .ok (vs, bk')) :
    ∃ pos' made' bk1 vr, run pos' made' bk1 rest = .ok (vr, bk') ∧ valuesFrom vs = (valuesFrom vr).map (vals ++ ·) ∧
      bk1.last = "VALUES" ∧ Book.Even bk1 ∧ bk1.level = 0 := by
  rw [rowToks, List.cons_append, List.append_assoc] at h
  obtain ⟨p, bk1, l, h1, h2, rfl⟩ := run_cons h
  obtain ⟨g1, g2, g3⟩ := onToken_lpar h1
  obtain ⟨pos', made', bk2, vr, i1, i2, i3, i4, i5⟩ := run_cells row vals rest _ _ _ _ _ hc (g2.trans hl) (onToken_even he h1).1
    (by omega) h2
  refine ⟨pos', made', bk2, vr, i1, ?_, i3, i4, by omega⟩
  rw [values_skip (by rw [not_open_left g3]; rfl), i2]

/-- All rows. -/
theorem run_rows : ∀ (rows : List (List Token)) (vals : List (List Val)) (rest : List Token) (pos : Nat) (made : List PTok) (bk bk' : Book)
    (vs : List VTok), List.Forall₂ (List.Forall₂ Cell) rows vals → bk.last = "VALUES" → Book.Even bk → bk.level = 0 →
    run pos made bk (rowsToks rows ++ rest) = .ok (vs, bk') →
    ∃ pos' made' bk1 vr, run pos' made' bk1 rest = .ok (vr, bk') ∧ valuesFrom vs = (valuesFrom vr).map (vals.flatten ++ ·) ∧
      bk1.last = "VALUES" ∧ Book.Even bk1 ∧ bk1.level = 0
  | [], vals, rest, pos, made, bk, bk', vs, hc, hl, he, hp, h => by
    cases hc
    refine ⟨_, _, bk, vs, h, ?_, hl, he, hp⟩
    cases valuesFrom vs <;> rfl
  | [r], vals, rest, pos, made, bk, bk', vs, hc, hl, he, hp, h => by
    cases hc with
    | @cons _ v _ vals' hc1 hc2 =>
      cases hc2
      obtain ⟨pos', made', bk1, vr, i1, i2, i3⟩ := run_row hc1 hl he hp h
      exact ⟨pos', made', bk1, vr, i1, by rw [i2]; simp, i3⟩
  | r :: s :: rows, vals, rest, pos, made, bk, bk', vs, hc, hl, he, hp, h => by
    cases hc with
    | @cons _ v _ vals' hc1 hc2 =>
      have e : rowsToks (r :: s :: rows) ++ rest = rowToks r ++ (comma :: (rowsToks (s :: rows) ++ rest)) := by
        rw [rowsToks, List.append_assoc, List.cons_append]
        simp
      rw [e] at h
      obtain ⟨pos1, made1, bk1, vr1, i1, i2, i3, i4, i5⟩ := run_row hc1 hl he hp h
      obtain ⟨q, bk2, l2, h3, h4, rfl⟩ := run_cons i1
      obtain ⟨rfl, k2, k3, k4⟩ := onToken_cell (show parenTok comma = false by decide) key_comma h3
      obtain ⟨pos', made', bk3, vr, j1, j2, j3⟩ := run_rows (s :: rows) vals' rest _ _ _ _ _ hc2 i3 i4 i5 h4
      refine ⟨pos', made', bk3, vr, j1, ?_, j3⟩
      rw [i2, values_skip (by rw [show (⟨q, comma.ttype⟩ : VTok).p.level = 0 from k2.trans i5]; simp), j2]
      cases valuesFrom vr <;> simp [Except.map]

theorem run_outside : ∀ (l : List Token) (pos : Nat) (made : List PTok) (bk bk' : Book) (vs : List VTok), Book.Even bk → bk.level = 0 →
    (∀ t ∈ l, parenTok t = false) → run pos made bk l = .ok (vs, bk') → valuesFrom vs = .ok []
  | [], _, _, _, _, _, _, _, _, h => by cases h; rfl
  | t :: r, pos, made, bk, bk', vs, he, hp, hn, h => by
    obtain ⟨p, bk1, l, h1, h2, rfl⟩ := run_cons h
    have ht := hn t (List.mem_cons_self ..)
    obtain ⟨e1, e2⟩ := onToken_even he h1
    have : bk1.level = 0 := by
      obtain ⟨p', b', h3, h4, _⟩ := onToken_plain ht (unquote t.value) pos made bk
      rw [h1] at h3
      cases h3
      unfold Book.Even at he e1
      rw [e1, h4, ← he, hp]
    rw [values_skip (by rw [show (⟨p, t.ttype⟩ : VTok).p.level = 0 from e2.trans this]; simp)]
    exact run_outside r _ _ _ _ _ e1 this (fun u hu => hn u (List.mem_cons_of_mem _ hu)) h2

end EulerDB.Values
