/-
C78, reading: the frame clause of a window is parsed to the dictionary of its bounds.
-/
import Verif.Window.Model
import Verif.Window.Mysql
import Verif.Sql.Stmt
import Verif.Sql.NumberProps

namespace EulerDB.Window

open EulerDB EulerDB.Sql

/-! ### How a frame clause is written -/

/-- A limit `j` is written at the beginning of `t`, and `u` follows. -/
abbrev Lim := Json → List Char → List Char → Prop

/-- A bound with any limit; `true`: before the current row. -/
inductive PBound where
  | cur
  | dir (before : Bool) (limit : Option Json)

def PBound.result (u : List Char) : PBound → R Range
  | .cur => .ok [("min", .int 0), ("max", .int 0)] u
  | .dir b none => boundCall b (.str "unbounded") u
  | .dir b (some j) => boundCall b j u

/-- The word for a direction. -/
def dirWord (b : Bool) : String := if b then "preceding" else "following"

/-- A bound, in any case, with whitespace and comments where they may be. -/
def SpBound (L : Lim) (t u : List Char) : PBound → Prop
  | .cur => ∃ g k, Gap g ∧ Words ["current", "row"] k ∧ boundary u = true ∧ t = g ++ (k ++ u)
  | .dir b none => ∃ r, Kw "unbounded" t r ∧ Kw (dirWord b) r u
  | .dir b (some j) => ∃ r, L j t r ∧ Kw (dirWord b) r u

/-- Limits that the parser reads, and that are no words of a frame clause. -/
def Known (L : Lim) (limit : List Char → R Json) : Prop :=
  ∀ j t r b u, L j t r → Kw (dirWord b) r u →
    limit t = .ok j r ∧ ∀ w ∈ ["current", "unbounded", "between"], kw w t = none

theorem dirWord_wordy (b : Bool) : Wordy (dirWord b).toList ∧ (dirWord b).toList ≠ [] := by cases b <;> decide

theorem kw_none {w v : String} {t u : List Char} (h : Kw w t u) (hw : Wordy w.toList ∧ w.toList ≠ []) (hv : Wordy v.toList)
    (hne : w.toList ≠ v.toList) : kw v t = none := by
  have := Kw.other h hw.1 hw.2 (no := [v]) (by simpa using ⟨hv, hne⟩)
  simpa [anyKw] using this

theorem direction_reads {b : Bool} {j : Json} {r u : List Char} (h : Kw (dirWord b) r u) : direction j r = boundCall b j u := by
  unfold direction
  cases b with
  | true =>
    have h1 : kw "preceding" r = some u := Kw.read h (by decide) (by decide)
    rw [h1]
  | false =>
    have h1 : kw "preceding" r = none := kw_none h (by decide) (by decide) (by decide)
    have h2 : kw "following" r = some u := Kw.read h (by decide) (by decide)
    rw [h1, h2]

theorem bound_reads {L : Lim} {limit : List Char → R Json} (hL : Known L limit) {b : PBound} {t u : List Char} (h : SpBound L t u b) :
    bound limit t = b.result u ∧ kw "between" t = none := by
  unfold bound
  cases b with
  | cur =>
    obtain ⟨g, k, hg, hk, hu, rfl⟩ := h
    obtain ⟨n, r, h1, h2, h3, h4, h5, -⟩ := hk.first (by decide) (by decide) hu
    have hf : First (g ++ (k ++ u)) n r := by rw [h5]; exact (first_word h3 h2 h4).gap hg
    have hc : kws ["current", "row"] (g ++ (k ++ u)) = some u := by
      rw [kws_tail hf h2, ← h5, (hk.tail _ (by decide) hu ["current", "row"] (by decide) (by simp)).1 (by simp)]
      rfl
    have hb : kw "between" (g ++ (k ++ u)) = none := by
      rw [hf.kw (by decide), if_neg]
      rw [show n.map Char.toLower = "current".toList from h1]; decide
    rw [hc]
    exact ⟨rfl, hb⟩
  | dir b l =>
    cases l with
    | none =>
      obtain ⟨r, h1, h2⟩ := h
      have h0 : kw "current" t = none := kw_none h1 (by decide) (by decide) (by decide)
      have hc : kws ["current", "row"] t = none := by rw [kws, h0]
      rw [hc, Kw.read h1 (by decide) (by decide)]
      exact ⟨direction_reads h2, kw_none h1 (by decide) (by decide) (by decide)⟩
    | some j =>
      obtain ⟨r, h1, h2⟩ := h
      obtain ⟨h3, h4⟩ := hL j t r b u h1 h2
      have hc : kws ["current", "row"] t = none := by rw [kws, h4 "current" (by simp)]
      rw [hc, h4 "unbounded" (by simp), h3]
      exact ⟨direction_reads h2, h4 "between" (by simp)⟩

/-! ### The extent of a frame -/

/-- What follows `ROWS` or `RANGE`: a bound, or two of them. -/
def SpExtent (L : Lim) (t u : List Char) (a : PBound) : Option PBound → Prop
  | none => SpBound L t u a
  | some b => ∃ r1 r2 r3, Kw "between" t r1 ∧ SpBound L r1 r2 a ∧ Kw "and" r2 r3 ∧ SpBound L r3 u b

/-- The dictionary of an extent. -/
def extentResult (a : Range) : Option Range → Range
  | none => a
  | some b => betweenCall a b

theorem extent_one {L : Lim} {limit : List Char → R Json} (hL : Known L limit) {a : PBound} {t u : List Char} (h : SpExtent L t u a none) :
    extent limit t = a.result u := by
  obtain ⟨h1, h2⟩ := bound_reads hL h
  have : between limit t = .fail := by unfold between; rw [h2]
  unfold extent
  rw [this]
  exact h1

theorem extent_two {L : Lim} {limit : List Char → R Json} (hL : Known L limit) {a b : PBound} {t u : List Char} (h : SpExtent L t u a (some b))
    {x y : Range} (ha : ∀ u, a.result u = .ok x u) (hb : ∀ u, b.result u = .ok y u) :
    extent limit t = .ok (betweenCall x y) u := by
  obtain ⟨r1, r2, r3, h1, h2, h3, h4⟩ := h
  have : between limit t = .ok (betweenCall x y) u := by
    unfold between
    rw [Kw.read h1 (by decide) (by decide)]
    dsimp only
    rw [(bound_reads hL h2).1, ha]
    dsimp only
    rw [Kw.read h3 (by decide) (by decide)]
    dsimp only
    rw [(bound_reads hL h4).1, hb]
  unfold extent
  rw [this]

/-! ### The limits -/

/-- The limit of a ROWS frame: digits. -/
def rowLim : Lim := fun j t r => ∃ g ds, Gap g ∧ ds ≠ [] ∧ Digits ds ∧ Sep .lit r ∧ t = g ++ (ds ++ r) ∧ j = .int (natOf 0 ds)

/-- The limit of a RANGE frame: an expression that does not begin with a word of a frame clause. -/
def rangeLim (env : Env) (k : Nat) : Lim := fun j t r =>
  ∃ d x v, Spells env d x v ∧ x.length ≤ k ∧ Sep d r ∧ t = x ++ r ∧ j = scrub v ∧ ∀ w ∈ ["current", "unbounded", "between"], ¬ Opens w t

theorem digits_first {g ds r : List Char} (hg : Gap g) (hne : ds ≠ []) (hd : Digits ds) : ∀ w ∈ ["current", "unbounded", "between"], kw w (g ++ (ds ++ r)) = none := by
  obtain ⟨c, ds, rfl⟩ := List.exists_cons_of_ne_nil hne
  have hB : Begins ["current", "unbounded", "between"] (g ++ (c :: ds ++ r)) :=
    (begins_digit (by decide) (hd c (by simp)) (ds ++ r)).gap hg
  intro w hw
  refine hB.kw hw ?_
  revert hw; revert w; decide

theorem rowLim_known : Known rowLim rowLimit := by
  rintro j t r b u ⟨g, ds, hg, hne, hd, hs, rfl, rfl⟩ hk
  refine ⟨?_, digits_first hg hne hd⟩
  have hsk : skip (g ++ (ds ++ r)) = ds ++ r := by
    rw [hg.skip]
    obtain ⟨c, ds, rfl⟩ := List.exists_cons_of_ne_nil hne
    exact skip_solid (solidChar_of_key (keyChar_digit (hd c (by simp)))) _
  unfold rowLimit
  rw [hsk]
  have h1 := signOf_ne (digits_head (r := r) hne hd (x := '-') (by decide)) (digits_head hne hd (x := '+') (by decide))
  have h2 := digits_read ds r hd hs.digit
  have : intNum (ds ++ r) = some ((false, ds, none), r) := by simp only [intNum, h1, h2, intExp_sep hs, if_neg hne]
  rw [this]
  rfl

theorem rangeLim_known (env : Env) (k : Nat) : Known (rangeLim env k) (exprLimit (expr env (k + 1))) := by
  rintro j t r b u ⟨d, x, v, hx, hl, hs, rfl, rfl, ho⟩ hk
  constructor
  · have hf : Fin d r := by
      obtain ⟨g, w, hg, hw, hb, rfl⟩ := hk
      obtain ⟨e1, e2⟩ := dirWord_wordy b
      rw [← List.append_assoc]
      refine fin_word hg ?_ (wordy_of hw e1) (ne_nil_of hw e2) hb ?_
      · intro c hc
        refine hs c ?_
        cases g with
        | cons x g => exact hc
        | nil =>
          cases w with
          | nil => exact absurd rfl (ne_nil_of hw e2)
          | cons x w => exact hc
      · intro v hv
        refine not_word hw ?_
        revert hv; revert v; cases b <;> decide
    unfold exprLimit
    rw [hx.read hf hl]
  · intro w hw
    have := (kw_opens (w := w) (by revert hw; revert w; decide) (by revert hw; revert w; decide) (x ++ r)).not.2 (ho w hw)
    simpa using this

end EulerDB.Window
