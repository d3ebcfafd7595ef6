/-
C78: the frame of a window function that is sent to the backend is the frame that was asked for.  It is so of a ROWS frame
exactly when it does not start at the current row (unless it ends there) and is not the whole partition of an ordered window.
A RANGE frame is sent as a ROWS frame, and a named window as an empty one.
-/
import Verif.Window.Read
import Verif.Whole.Lex
import Mathlib.Order.Monotone.Defs

namespace EulerDB.Window

open EulerDB EulerDB.Sql EulerDB.Whole

/-! ### Reading -/

/-- A bound of a frame, as it is written. -/
def Bound.p : Bound → PBound
  | .cur => .cur
  | .before n => .dir true (n.map fun n => .int n)
  | .after n => .dir false (n.map fun n => .int n)

/-- The dictionary of a bound. -/
def Bound.range : Bound → Range
  | .cur => [("min", .int 0), ("max", .int 0)]
  | .before none => [("max", .int 0)]
  | .before (some n) => [("min", .int (-n)), ("max", .int 0)]
  | .after none => [("min", .int 0)]
  | .after (some n) => [("min", .int 0), ("max", .int n)]

def Measure.word : Measure → String
  | .rows => "rows"
  | .range => "range"

def Measure.lim (env : Env) (k : Nat) : Measure → Lim
  | .rows => rowLim
  | .range => rangeLim env k

/-- A frame clause is written at the beginning of `t`, and `u` follows; the numbers of a RANGE frame are expressions shorter than `k`. -/
def SpFrame (env : Env) (k : Nat) (f : Frame) (t u : List Char) : Prop :=
  ∃ r, Kw f.unit.word t r ∧ SpExtent (f.unit.lim env k) r u f.start.p (f.stop.map Bound.p)

/-- The rows before or after the current one; `none`: without end. -/
def Bound.offset : Bound → Option Int
  | .cur => some 0
  | .before n => n.map fun n => -(n : Int)
  | .after n => n.map fun n => (n : Int)

/-- The start that a frame is parsed to: `BETWEEN n FOLLOWING AND 0 FOLLOWING` is the current row. -/
def Frame.lo (f : Frame) : Option Int :=
  if f.last.offset = some 0 ∧ 0 < f.start.offset.getD 0 then some 0 else f.start.offset

/-- The dictionary of a frame. -/
def Frame.range (f : Frame) : Range := entry "min" (f.lo.map .int) ++ entry "max" (f.last.offset.map .int)

theorem bound_result (b : Bound) (u : List Char) : b.p.result u = .ok b.range u := by
  rcases b with _ | n | n
  · rfl
  · cases n <;> rfl
  · cases n <;> rfl

theorem extent_range (f : Frame) (h : f.legal = true) : extentResult f.start.range (f.stop.map Bound.range) = f.range := by
  obtain ⟨m, a, b⟩ := f
  rcases b with _ | b
  · rcases a with _ | (_ | n) | n <;> simp [Frame.legal, Bound.rank] at h <;>
      simp [extentResult, Bound.range, Frame.range, Frame.lo, Bound.offset, Frame.last, entry]
    rw [if_neg (by omega)]; rfl
  · rcases a with _ | (_ | n) | (_ | n) <;> rcases b with _ | (_ | k) | (_ | k) <;> simp [Frame.legal, Bound.rank] at h <;>
      simp [extentResult, Bound.range, betweenCall, Frame.range, Frame.lo, Bound.offset, Frame.last, entry, Dict.get?, isZero]
    · rintro rfl; rfl
    · rintro rfl; rfl
    · rw [if_neg (by omega)]; rfl
    · have h0 : ¬ ((n : Int) < 0) := by omega
      simp [h0]
    · have h0 : ¬ ((n : Int) < 0) := by omega
      simp only [h0, and_false, if_false]
      by_cases hk : k = 0
      · subst hk; simp
      · by_cases hn : n = 0
        · subst hn; simp [hk]
        · simp [hk, hn]
    · by_cases hk : k = 0
      · subst hk
        by_cases hn : n = 0
        · subst hn; simp
        · have : 0 < n := by omega
          simp [this]
      · simp [hk]

/-- A frame clause in the right order is parsed to the dictionary of its offsets. -/
theorem C78_read_partial (env : Env) (k : Nat) {f : Frame} (hf : f.legal = true) {t u : List Char} (h : SpFrame env k f t u) :
    rowClause (expr env (k + 1)) t = .ok f.range u := by
  rw [← extent_range f hf]
  obtain ⟨m, a, b⟩ := f
  obtain ⟨r, h1, h2⟩ := h
  dsimp only at h1 h2 ⊢
  have he : ∀ {L : Lim} {limit : List Char → R Json}, Known L limit → SpExtent L r u a.p (b.map Bound.p) →
      extent limit r = .ok (extentResult a.range (b.map Bound.range)) u := by
    intro L limit hL h2
    cases b with
    | none => rw [extent_one hL h2, bound_result]; rfl
    | some b => rw [extent_two hL h2 (bound_result a) (bound_result b)]; rfl
  unfold rowClause
  cases m with
  | rows =>
    have hk : kw "rows" t = some r := Kw.read h1 (by decide) (by decide)
    rw [hk]
    dsimp only
    rw [he rowLim_known h2]
  | range =>
    have hk : kw "rows" t = none := kw_none h1 (by decide) (by decide) (by decide)
    have hk2 : kw "range" t = some r := Kw.read h1 (by decide) (by decide)
    rw [hk, hk2]
    dsimp only
    rw [he (rangeLim_known env k) h2]

/-! ### Writing -/

/-- The bound that is written for an offset. -/
def dirOf (z : Int) : Bound := if z < 0 then .before (some z.natAbs) else .after (some z.natAbs)

/-- What the backend reads of what is written for two offsets. -/
def heard (lo hi : Option Int) : Option (Option Frame) :=
  match lo, hi with
  | none, none => some none
  | none, some b => some (some (if b = 0 then ⟨.rows, .before none, none⟩ else ⟨.rows, .before none, some (dirOf b)⟩))
  | some a, hi =>
    if a = 0 then
      match hi with
      | none => none
      | some b => if b = 0 then some (some ⟨.rows, .cur, none⟩) else if b < 0 then some (some ⟨.rows, dirOf b, none⟩) else none
    else
      match hi with
      | none => some (some ⟨.rows, dirOf a, some (.after none)⟩)
      | some b =>
        if b = 0 then if a < 0 then some (some ⟨.rows, dirOf a, none⟩) else none
        else if 0 < a ∧ b < 0 then none else some (some ⟨.rows, dirOf a, some (dirOf b)⟩)

theorem cut_name (w : List Char) (h : Name w) : Cut w [.word w] := cut_word h

instance (w : List Char) : Decidable (Name w) := by unfold Name; infer_instance

/-- Words that the formatter writes between blanks. -/
inductive Toks : List (List Char) → List MTok → Prop
  | one {w : List Char} {ts : List MTok} : Cut w ts → Toks [w] ts
  | cons {w : List Char} {ws : List (List Char)} {ts us : List MTok} : Cut w ts → Toks ws us → Toks (w :: ws) (ts ++ us)

theorem Toks.cut : ∀ {ws : List (List Char)} {ts : List MTok}, Toks ws ts → Cut (joined ws) ts
  | _, _, .one h => h
  | _, _, .cons h (.one h') => by simpa [joined] using h.blank h'
  | _, _, .cons h (.cons h1 h2) => by
    have := (Toks.cons h1 h2).cut
    simpa [joined] using h.blank this

theorem toks_read {ws : List (List Char)} {ts : List MTok} (h : Toks ws ts) : readFrame (joined ws) = pFrame ts := by
  unfold readFrame
  rw [h.cut.done.full]

/-- The tokens of a direction. -/
def dirToks (z : Int) : List MTok := [.num z.natAbs, .word (if z < 0 then "PRECEDING".toList else "FOLLOWING".toList)]

theorem wordy_int {z : Int} (h : z ≠ 0) : wordy (.int z) = .ok [Text.natStr z.natAbs, if z < 0 then "PRECEDING".toList else "FOLLOWING".toList] := by
  unfold wordy
  by_cases h1 : z < 0
  · simp [h1]
  · have : 0 < z := by omega
    simp [h1, this]

theorem toks_append : ∀ {ws vs : List (List Char)} {ts us : List MTok}, Toks ws ts → Toks vs us → Toks (ws ++ vs) (ts ++ us)
  | _, _, _, _, .one h, h' => .cons h h'
  | _, _, _, _, .cons h h1, h' => by
    rw [List.append_assoc]
    exact .cons h (toks_append h1 h')

theorem toks_dir (z : Int) : Toks [Text.natStr z.natAbs, if z < 0 then "PRECEDING".toList else "FOLLOWING".toList] (dirToks z) := by
  refine .cons (cut_nat _) (ts := [_]) (.one ?_)
  split
  · exact cut_word (by decide)
  · exact cut_word (by decide)

theorem toks_two (a b : List Char) (ha : Name a) (hb : Name b) : Toks [a ++ ' ' :: b] [.word a, .word b] :=
  .one (by simpa using (cut_word ha).blank (cut_word hb))

/-- What the dictionary of two offsets holds. -/
theorem get_min (lo hi : Option Int) : Dict.get? (entry "min" (lo.map Json.int) ++ entry "max" (hi.map .int)) "min" = lo.map .int := by
  cases lo <;> cases hi <;> rfl

theorem get_max (lo hi : Option Int) : Dict.get? (entry "min" (lo.map Json.int) ++ entry "max" (hi.map .int)) "max" = hi.map .int := by
  cases lo <;> cases hi <;> rfl

theorem isZero_int (z : Int) : isZero (.int z) = decide (z = 0) := by
  simp only [isZero]; exact Bool.beq_eq_decide_eq z 0

theorem rows_word : Toks ["ROWS".toList] [.word "ROWS".toList] := .one (cut_word (by decide))
theorem between_word : Toks ["BETWEEN".toList] [.word "BETWEEN".toList] := .one (cut_word (by decide))
theorem and_word : Toks ["AND".toList] [.word "AND".toList] := .one (cut_word (by decide))
theorem preceding_words : Toks ["UNBOUNDED PRECEDING".toList] [.word "UNBOUNDED".toList, .word "PRECEDING".toList] :=
  toks_two "UNBOUNDED".toList "PRECEDING".toList (by decide) (by decide)
theorem following_words : Toks ["UNBOUNDED FOLLOWING".toList] [.word "UNBOUNDED".toList, .word "FOLLOWING".toList] :=
  toks_two "UNBOUNDED".toList "FOLLOWING".toList (by decide) (by decide)
theorem current_words : Toks ["CURRENT ROW".toList] [.word "CURRENT".toList, .word "ROW".toList] :=
  toks_two "CURRENT".toList "ROW".toList (by decide) (by decide)

theorem pBound_dir (z : Int) (r : List MTok) : pBound (dirToks z ++ r) = some (dirOf z, r) := by
  unfold dirToks dirOf
  split <;> rfl

theorem pBound_dir_nil (z : Int) : pBound (dirToks z) = some (dirOf z, []) := by
  have := pBound_dir z []
  rwa [List.append_nil] at this

theorem pExtent_one (m : Measure) (z : Int) : pExtent m (dirToks z) = some ⟨m, dirOf z, none⟩ := by
  unfold pExtent
  rw [show pWord "BETWEEN" (dirToks z) = none from rfl]
  dsimp only
  rw [pBound_dir_nil]

theorem pExtent_two (m : Measure) {ts us : List MTok} {a b : Bound} (ha : pBound (ts ++ (.word "AND".toList :: us)) = some (a, .word "AND".toList :: us))
    (hb : pBound us = some (b, [])) : pExtent m (.word "BETWEEN".toList :: (ts ++ (.word "AND".toList :: us))) = some ⟨m, a, some b⟩ := by
  unfold pExtent
  rw [show pWord "BETWEEN" (.word "BETWEEN".toList :: (ts ++ (.word "AND".toList :: us))) = some (ts ++ (.word "AND".toList :: us)) from rfl]
  dsimp only
  rw [ha]
  dsimp only
  rw [show pWord "AND" (.word "AND".toList :: us) = some us from rfl]
  dsimp only
  rw [hb]

theorem pFrame_rows (ts : List MTok) : pFrame (.word "ROWS".toList :: ts) = (pExtent .rows ts).bind fun f => if f.legal then some (some f) else none := by
  unfold pFrame
  rw [if_neg (by simp), show pWord "ROWS" (.word "ROWS".toList :: ts) = some ts from rfl]
  dsimp only
  cases pExtent .rows ts <;> rfl

/-- What is written for two offsets, and what the backend reads. -/
theorem written (lo hi : Option Int) : ∃ w, rangeWords (entry "min" (lo.map .int) ++ entry "max" (hi.map .int)) = .ok w ∧ readFrame (joined w) = heard lo hi := by
  unfold rangeWords
  rw [get_min, get_max]
  rcases lo with _ | a
  · rcases hi with _ | b
    · exact ⟨[], rfl, rfl⟩
    · dsimp only [Option.map]
      rw [isZero_int]
      by_cases hb : b = 0
      · subst hb
        exact ⟨_, rfl, toks_read (toks_append rows_word preceding_words)⟩
      · simp only [decide_eq_true_eq, if_neg hb]
        rw [wordy_int hb]
        refine ⟨_, rfl, (toks_read (toks_append (toks_append rows_word (toks_append between_word (toks_append preceding_words and_word))) (toks_dir b))).trans ?_⟩
        have := pExtent_two .rows (ts := [.word "UNBOUNDED".toList, .word "PRECEDING".toList]) (us := dirToks b) (a := .before none) rfl (pBound_dir_nil b)
        refine (pFrame_rows _).trans ?_
        refine (congrArg (Option.bind · _) this).trans ?_
        simp [heard, hb, Frame.legal, Bound.rank, dirOf]
        split <;> simp
  · dsimp only [Option.map]
    rw [isZero_int]
    by_cases ha : a = 0
    · subst ha
      simp only [decide_eq_true_eq, if_pos]
      rcases hi with _ | b
      · exact ⟨_, rfl, toks_read (toks_append rows_word following_words)⟩
      · dsimp only [Option.map]
        rw [isZero_int]
        by_cases hb : b = 0
        · subst hb
          exact ⟨_, rfl, toks_read (toks_append rows_word current_words)⟩
        · simp only [decide_eq_true_eq, if_neg hb]
          rw [wordy_int hb]
          refine ⟨_, rfl, (toks_read (toks_append rows_word (toks_dir b))).trans ?_⟩
          refine (pFrame_rows (dirToks b)).trans ?_
          rw [pExtent_one]
          by_cases h0 : b < 0 <;> simp [heard, hb, Frame.legal, Bound.rank, dirOf, h0]
    · simp only [decide_eq_true_eq, if_neg ha]
      rcases hi with _ | b
      · dsimp only [Option.map]
        rw [wordy_int ha]
        refine ⟨_, rfl, (toks_read (toks_append (toks_append rows_word (toks_append between_word (toks_append (toks_dir a) and_word))) following_words)).trans ?_⟩
        have := pExtent_two .rows (ts := dirToks a) (us := [.word "UNBOUNDED".toList, .word "FOLLOWING".toList]) (b := .after none) (pBound_dir a _) rfl
        refine (congrArg pFrame (by simp)).trans ((pFrame_rows _).trans ((congrArg (Option.bind · _) this).trans ?_))
        by_cases h0 : a < 0 <;> simp [heard, ha, Frame.legal, Bound.rank, dirOf, h0]
      · dsimp only [Option.map]
        rw [isZero_int]
        by_cases hb : b = 0
        · subst hb
          simp only [decide_eq_true_eq, if_pos]
          rw [wordy_int ha]
          refine ⟨_, rfl, (toks_read (toks_append rows_word (toks_dir a))).trans ?_⟩
          refine (pFrame_rows (dirToks a)).trans ?_
          rw [pExtent_one]
          by_cases h0 : a < 0 <;> simp [heard, ha, Frame.legal, Bound.rank, dirOf, h0]
        · simp only [decide_eq_true_eq, if_neg hb]
          rw [wordy_int ha, wordy_int hb]
          refine ⟨_, rfl, (toks_read (toks_append (toks_append (toks_append (toks_append rows_word between_word) (toks_dir a)) and_word) (toks_dir b))).trans ?_⟩
          have := pExtent_two .rows (ts := dirToks a) (us := dirToks b) (pBound_dir a _) (pBound_dir_nil b)
          refine (congrArg pFrame (by simp)).trans ((pFrame_rows _).trans ((congrArg (Option.bind · _) this).trans ?_))
          by_cases h0 : a < 0 <;> by_cases h1 : b < 0 <;> simp [heard, ha, hb, Frame.legal, Bound.rank, dirOf, h0, h1]
          all_goals omega

/-! ### What a frame sees -/

/-- A ROWS frame is told by its offsets. -/
theorem sees_rows {f : Frame} (hf : f.legal = true) (hr : f.unit = .rows) (key : Nat → Int) (i j : Nat) :
    f.Sees key i j ↔ (∀ a, f.start.offset = some a → (i : Int) + a ≤ j) ∧ ∀ b, f.last.offset = some b → (j : Int) ≤ i + b := by
  obtain ⟨m, a, b⟩ := f
  obtain rfl : m = .rows := hr
  unfold Frame.Sees Frame.place
  dsimp only
  have h1 : a ≠ .after none := by
    rintro rfl
    cases b <;> simp [Frame.legal, Bound.rank] at hf
  have h2 : (Frame.last ⟨.rows, a, b⟩) ≠ .before none := by
    intro h
    cases b with
    | none => simp [Frame.last] at h
    | some b => simp only [Frame.last, Option.getD_some] at h; subst h; simp [Frame.legal] at hf
  generalize Frame.last ⟨.rows, a, b⟩ = b at h2
  refine and_congr ?_ ?_
  · rcases a with _ | (_ | n) | (_ | n) <;> simp [Bound.from, Bound.offset] at h1 ⊢
  · rcases b with _ | (_ | n) | (_ | n) <;> simp [Bound.upTo, Bound.offset] at h2 ⊢
    omega

/-- The frame that the backend reads of the text `t` is the frame `f`, whatever the sorting keys. -/
def Kept (ordered : Bool) (f : Frame) (t : List Char) : Prop :=
  ∃ o, readFrame t = some o ∧ ∀ key : Nat → Int, Monotone key → ∀ i j, (asked ordered o).Sees key i j ↔ f.Sees key i j

/-- The frames that survive. -/
def Frame.survives (ordered : Bool) (f : Frame) : Prop :=
  ¬(f.start.offset = some 0 ∧ f.last.offset ≠ some 0) ∧ ¬(0 < f.start.offset.getD 0 ∧ f.last.offset = some 0) ∧
    ¬(ordered = true ∧ f.start.offset = none ∧ f.last.offset = none)

theorem offset_dirOf (z : Int) : (dirOf z).offset = some z := by
  unfold dirOf
  split
  · exact congrArg some (show -(z.natAbs : Int) = z by omega)
  · exact congrArg some (show (z.natAbs : Int) = z by omega)

/-- A frame that ends before the current row does not start after it. -/
theorem legal_order {f : Frame} (hf : f.legal = true) {x y : Int} (hx : f.start.offset = some x) (hy : f.last.offset = some y) (h : 0 < x) : ¬ y < 0 := by
  obtain ⟨m, a, b⟩ := f
  dsimp only at hx
  intro h2
  rcases a with _ | (_ | n) | (_ | n) <;> simp [Bound.offset] at hx <;> try omega
  rcases b with _ | _ | (_ | k) | (_ | k) <;> simp [Frame.last, Bound.offset] at hy <;> try omega
  simp [Frame.legal, Bound.rank] at hf

/-- Two frames with the same offsets. -/
theorem kept_of {ordered : Bool} {f g : Frame} {t : List Char} (hf : f.legal = true) (hr : f.unit = .rows) (ht : readFrame t = some (some g))
    (hg : g.legal = true) (hgr : g.unit = .rows) (h1 : g.start.offset = f.start.offset) (h2 : g.last.offset = f.last.offset) : Kept ordered f t := by
  refine ⟨_, ht, fun key _ i j => ?_⟩
  show g.Sees key i j ↔ _
  rw [sees_rows hf hr, sees_rows hg hgr, h1, h2]

/-- A frame that sees a row which the other does not see. -/
theorem not_kept_of {ordered : Bool} {f g : Frame} {t : List Char} (hf : f.legal = true) (hr : f.unit = .rows) (ht : readFrame t = some (some g))
    (hg : g.legal = true) (hgr : g.unit = .rows) (h1 : (∀ a, g.start.offset = some a → a ≤ 0) ∧ ∀ b, g.last.offset = some b → 0 ≤ b)
    (h2 : ¬((∀ a, f.start.offset = some a → a ≤ 0) ∧ ∀ b, f.last.offset = some b → 0 ≤ b)) : ¬ Kept ordered f t := by
  rintro ⟨o, ho, h⟩
  rw [ht] at ho
  obtain rfl : some g = o := by simpa using ho
  have := h (fun i => i) (fun _ _ h => Int.ofNat_le.2 h) 0 0
  rw [show asked ordered (some g) = g from rfl, sees_rows hf hr, sees_rows hg hgr] at this
  exact h2 (by simpa using this.1 (by simpa using h1))

/-- **C78**, exactly: of the ROWS frames those survive the rewriting that do not start at the current row and end elsewhere, are not
`BETWEEN n FOLLOWING AND 0 FOLLOWING`, and are not the whole partition of an ordered window. -/
theorem C78_rows_partial (ordered : Bool) {f : Frame} (hf : f.legal = true) (hr : f.unit = .rows) :
    ∃ w, rangeWords f.range = .ok w ∧ (Kept ordered f (joined w) ↔ f.survives ordered) := by
  obtain ⟨w, hw, ht⟩ := written f.lo f.last.offset
  refine ⟨w, hw, ?_⟩
  have hlo : f.lo = if f.last.offset = some 0 ∧ 0 < f.start.offset.getD 0 then some 0 else f.start.offset := rfl
  unfold Frame.survives
  rw [hlo] at ht
  cases ha : f.start.offset with
  | none =>
    cases hb : f.last.offset with
    | none =>
      rw [ha, hb] at ht
      simp only [reduceCtorEq, false_and, if_false, heard] at ht
      cases ordered with
      | false =>
        refine ⟨fun _ => by simp, fun _ => ⟨_, ht, fun key _ i j => ?_⟩⟩
        rw [sees_rows hf hr, ha, hb]
        simp [asked, defaultFrame, Frame.Sees, Bound.from, Bound.upTo, Frame.last]
      | true =>
        refine ⟨fun ⟨o, ho, h⟩ => ?_, fun h => absurd h (by simp)⟩
        rw [ht] at ho
        obtain rfl : none = o := by simpa using ho
        have := h (fun i => i) (fun _ _ h => Int.ofNat_le.2 h) 0 1
        rw [sees_rows hf hr, ha, hb] at this
        simp [asked, defaultFrame, Frame.Sees, Bound.from, Bound.upTo, Frame.last, Frame.place] at this
    | some y =>
      rw [ha, hb] at ht
      simp only [Option.getD_none, lt_irrefl, and_false, if_false, heard] at ht
      refine ⟨fun _ => by simp, fun _ => ?_⟩
      split at ht
      · exact kept_of hf hr ht (by decide) rfl (by rw [ha]; rfl) (by rw [hb]; simp_all [Frame.last, Bound.offset])
      · refine kept_of hf hr ht ?_ rfl (by rw [ha]; rfl) (by rw [hb]; simpa [Frame.last] using offset_dirOf y)
        unfold dirOf; split <;> rfl
  | some x =>
    cases hb : f.last.offset with
    | none =>
      rw [ha, hb] at ht
      simp only [reduceCtorEq, false_and, if_false, heard] at ht
      by_cases hx : x = 0
      · rw [if_pos hx] at ht
        exact iff_of_false (fun ⟨o, ho, _⟩ => by rw [ht] at ho; cases ho) (by simp [hx])
      · rw [if_neg hx] at ht
        refine ⟨fun _ => by simp [hx], fun _ => kept_of hf hr ht ?_ rfl (by rw [ha]; exact offset_dirOf x) (by rw [hb]; rfl)⟩
        unfold dirOf; split <;> rfl
    | some y =>
      have ho := legal_order hf ha hb
      rw [ha, hb] at ht
      simp only [Option.some.injEq, Option.getD_some] at ht ⊢
      by_cases hy : y = 0
      · subst hy
        by_cases hx : 0 < x
        · rw [if_pos ⟨rfl, hx⟩] at ht
          refine iff_of_false ?_ (by simp [hx])
          refine not_kept_of hf hr (g := ⟨.rows, .cur, none⟩) ht (by decide) rfl (by simp [Bound.offset, Frame.last]) ?_
          rw [ha, hb]; simp; omega
        · rw [if_neg (by simp [hx])] at ht
          refine ⟨fun _ => by simp [hx], fun _ => ?_⟩
          by_cases hx0 : x = 0
          · subst hx0
            exact kept_of hf hr (g := ⟨.rows, .cur, none⟩) ht (by decide) rfl (by rw [ha]; rfl) (by rw [hb]; rfl)
          · have hlt : x < 0 := by omega
            simp only [heard, hx0, if_false, if_true, hlt] at ht
            refine kept_of hf hr ht ?_ rfl (by rw [ha]; exact offset_dirOf x) (by rw [hb]; rfl)
            unfold dirOf; rw [if_pos hlt]; rfl
      · rw [if_neg (by simp [hy])] at ht
        by_cases hx : x = 0
        · subst hx
          refine iff_of_false ?_ (by simp [hy])
          by_cases hlt : y < 0
          · simp only [heard, hy, if_false, if_true, hlt] at ht
            refine not_kept_of hf hr ht ?_ rfl ?_ ?_
            · unfold dirOf; rw [if_pos hlt]; rfl
            · rw [offset_dirOf]; simp [Frame.last, Bound.offset]; omega
            · rw [ha, hb]; simp; omega
          · simp only [heard, hy, if_false, if_true, hlt] at ht
            rintro ⟨o, ho, _⟩
            rw [ht] at ho; cases ho
        · have hn : ¬ (0 < x ∧ y < 0) := fun h => ho h.1 h.2
          simp only [heard, hx, hy, if_false, hn] at ht
          refine ⟨fun _ => by simp [hx, hy], fun _ => kept_of hf hr ht ?_ rfl (by rw [ha]; exact offset_dirOf x) (by rw [hb]; exact offset_dirOf y)⟩
          unfold dirOf
          by_cases h0 : x < 0 <;> by_cases h1 : y < 0 <;> simp [Frame.legal, Bound.rank, h0, h1]
          exact hn ⟨by omega, h1⟩

/-- From the text of the client to the text for the backend. -/
theorem C78_frame_partial (env : Env) (k : Nat) (ordered : Bool) {f : Frame} (hf : f.legal = true) (hr : f.unit = .rows) {t u : List Char}
    (h : SpFrame env k f t u) :
    ∃ d w, rowClause (expr env (k + 1)) t = .ok d u ∧ rangeWords d = .ok w ∧ (Kept ordered f (joined w) ↔ f.survives ordered) := by
  obtain ⟨w, hw, hk⟩ := C78_rows_partial ordered hf hr
  exact ⟨_, w, C78_read_partial env k hf h, hw, hk⟩

/-- The frame in a window: what stands before it is what the other clauses are written as. -/
theorem C78_over_partial (C : Clauses) {d : List (String × Json)} {r : Range} {p o w : List (List Char)}
    (hp : optWords ((Dict.get? d "partitionby").map fun j => (C.partition j).map fun t => ["PARTITION BY".toList, t]) = .ok p)
    (ho : optWords ((Dict.get? d "orderby").map fun _ => (C.order d).map fun t => [t]) = .ok o)
    (hr : Dict.get? d "range" = some (.dict r)) (hw : rangeWords r = .ok w) :
    overText C (.dict d) = .ok ("OVER (".toList ++ joined (p ++ o ++ w) ++ [')']) := by
  rw [overText, hp, ho, hr]
  dsimp only [Option.map, optWords]
  rw [hw]
  rfl

/-- The frame that starts at the current row and ends later is no frame to the backend: `ROWS UNBOUNDED FOLLOWING`, `ROWS n FOLLOWING`. -/
theorem C78_fails_onward (env : Env) (k : Nat) (n : Option Nat) (hn : n ≠ some 0) {t u : List Char}
    (h : SpFrame env k ⟨.rows, .cur, some (.after n)⟩ t u) :
    ∃ d w, rowClause (expr env (k + 1)) t = .ok d u ∧ rangeWords d = .ok w ∧ readFrame (joined w) = none := by
  have hl : Frame.legal ⟨.rows, .cur, some (.after n)⟩ = true := by cases n <;> rfl
  obtain ⟨w, hw, ht⟩ := written (Frame.lo ⟨.rows, .cur, some (.after n)⟩) (Bound.offset (.after n))
  refine ⟨_, w, C78_read_partial env k hl h, hw, ht.trans ?_⟩
  rcases n with _ | n
  · rfl
  · have : n ≠ 0 := fun h => hn (by rw [h])
    simp [heard, Frame.lo, Frame.last, Bound.offset, this]

/-- The whole partition, asked for in an ordered window, becomes the default frame, which ends at the current row. -/
theorem C78_fails_whole (env : Env) (k : Nat) {t u : List Char} (h : SpFrame env k ⟨.rows, .before none, some (.after none)⟩ t u) :
    ∃ d, rowClause (expr env (k + 1)) t = .ok d u ∧ rangeWords d = .ok [] ∧ ¬ Kept true ⟨.rows, .before none, some (.after none)⟩ [] := by
  obtain ⟨w, hw, hk⟩ := C78_rows_partial true (f := ⟨.rows, .before none, some (.after none)⟩) rfl rfl
  obtain rfl : [] = w := by simpa using (show Except.ok (ε := PyErr) [] = .ok w from hw)
  exact ⟨_, C78_read_partial env k rfl h, hw, fun hx => (hk.1 hx).2.2 ⟨rfl, rfl, rfl⟩⟩

/-- `BETWEEN 0 PRECEDING AND n PRECEDING`, which sees no row, becomes `ROWS n PRECEDING`, which sees some. -/
theorem C78_fails_empty (env : Env) (k n : Nat) (hn : 0 < n) {t u : List Char} (h : SpFrame env k ⟨.rows, .before (some 0), some (.before (some n))⟩ t u) :
    ∃ d w, rowClause (expr env (k + 1)) t = .ok d u ∧ rangeWords d = .ok w ∧ readFrame (joined w) = some (some ⟨.rows, .before (some n), none⟩) ∧
      ¬ Kept true ⟨.rows, .before (some 0), some (.before (some n))⟩ (joined w) := by
  have hl : Frame.legal ⟨.rows, .before (some 0), some (.before (some n))⟩ = true := rfl
  obtain ⟨w, hw, ht⟩ := written (Frame.lo ⟨.rows, .before (some 0), some (.before (some n))⟩) (Bound.offset (.before (some n)))
  obtain ⟨w', hw', hk⟩ := C78_rows_partial true hl rfl
  obtain rfl : w = w' := by rw [show rangeWords (Frame.range _) = _ from hw] at hw'; simpa using hw'
  have h0 : n ≠ 0 := by omega
  refine ⟨_, w, C78_read_partial env k hl h, hw, ht.trans ?_, fun hx => (hk.1 hx).1 ⟨rfl, ?_⟩⟩
  · simp [heard, Frame.lo, Frame.last, Bound.offset, h0, dirOf, hn]
  · simp [Frame.last, Bound.offset, h0]

/-- A RANGE frame is parsed to what the ROWS frame with the same numbers is parsed to, so that it is sent as that frame; and the two
see different rows, unless they see none or all. -/
theorem C78_fails_range (env : Env) (k : Nat) {a : Bound} {b : Option Bound} (hf : Frame.legal ⟨.range, a, b⟩ = true)
    {t u t' u' : List Char} (h : SpFrame env k ⟨.range, a, b⟩ t u) (h' : SpFrame env k ⟨.rows, a, b⟩ t' u') :
    ∃ d, rowClause (expr env (k + 1)) t = .ok d u ∧ rowClause (expr env (k + 1)) t' = .ok d u' :=
  ⟨_, C78_read_partial env k hf h, C78_read_partial env k (f := ⟨.rows, a, b⟩) hf h'⟩

theorem C78_fails_peers {a : Bound} {b : Option Bound} (hf : Frame.legal ⟨.rows, a, b⟩ = true)
    (hall : ¬(a.offset = none ∧ (b.getD .cur).offset = none))
    (hsome : ∀ x y, a.offset = some x → (b.getD .cur).offset = some y → x ≤ y) :
    ∃ key : Nat → Int, Monotone key ∧ ∃ i j, ¬(Frame.Sees ⟨.rows, a, b⟩ key i j ↔ Frame.Sees ⟨.range, a, b⟩ key i j) := by
  refine ⟨fun _ => 0, fun _ _ _ => le_refl _, ?_⟩
  have hrange : ∀ i j, Frame.Sees ⟨.range, a, b⟩ (fun _ => 0) i j ↔ (∀ x, a.offset = some x → x ≤ 0) ∧ ∀ y, (b.getD .cur).offset = some y → 0 ≤ y := by
    intro i j
    have h1 : a ≠ .after none := by
      rintro rfl
      cases b <;> simp [Frame.legal, Bound.rank] at hf
    have h2 : b.getD .cur ≠ .before none := by
      intro h
      cases b with
      | none => simp at h
      | some b => simp only [Option.getD_some] at h; subst h; simp [Frame.legal] at hf
    unfold Frame.Sees Frame.place Frame.last
    dsimp only
    generalize b.getD .cur = b at h2
    refine and_congr ?_ ?_
    · rcases a with _ | (_ | n) | (_ | n) <;> simp [Bound.from, Bound.offset] at h1 ⊢
    · rcases b with _ | (_ | n) | (_ | n) <;> simp [Bound.upTo, Bound.offset] at h2 ⊢
  have hrows := fun i j => sees_rows hf rfl (fun _ => 0) i j
  simp only [hrange, hrows]
  rw [show Frame.last ⟨.rows, a, b⟩ = b.getD .cur from rfl]
  generalize (b.getD .cur).offset = y at hall hsome
  generalize a.offset = x at hall hsome
  rcases x with _ | x
  · rcases y with _ | y
    · exact absurd ⟨rfl, rfl⟩ hall
    · by_cases hy : y < 0
      · exact ⟨(-y).toNat, 0, by simp; omega⟩
      · exact ⟨0, y.toNat + 1, by simp; omega⟩
  · by_cases hx : 0 < x
    · refine ⟨0, x.toNat, ?_⟩
      rcases y with _ | y
      · simp; omega
      · have := hsome x y rfl rfl
        simp; omega
    · rcases y with _ | y
      · exact ⟨(-x).toNat + 1, 0, by simp; omega⟩
      · have := hsome x y rfl rfl
        by_cases hy : y < 0
        · exact ⟨(-y).toNat, 0, by simp; omega⟩
        · exact ⟨(-x).toNat + 1, 0, by simp; omega⟩

/-- A named window is sent as a window without clauses. -/
theorem C78_fails_named (C : Clauses) (w : String) : overText C (.str w) = .ok "OVER ()".toList ∨ overText C (.str w) = .error .typeError := by
  rw [overText]
  split
  · exact .inr rfl
  · exact .inl rfl

/-- An expression after the current row is parsed to what the same expression before it is parsed to. -/
theorem C78_fails_expression (d : List (String × Json)) (r : List Char) : boundCall false (.dict d) r = boundCall true (.dict d) r := rfl

/-- A frame that survives, with blanks and a comment. -/
example (env : Env) : SpFrame env 0 ⟨.rows, .before (some 2), some .cur⟩ " rows BETWEEN 2 Preceding AND/* */current  ROW)".toList [')'] := by
  have hb : Gap [' '] := .white (by decide) .nil
  refine ⟨" BETWEEN 2 Preceding AND/* */current  ROW)".toList, ⟨[' '], "rows".toList, hb, by decide, by decide, rfl⟩, ?_⟩
  refine ⟨" 2 Preceding AND/* */current  ROW)".toList, " AND/* */current  ROW)".toList, "/* */current  ROW)".toList, ?_, ?_, ?_, ?_⟩
  · exact ⟨[' '], "BETWEEN".toList, hb, by decide, by decide, rfl⟩
  · refine ⟨" Preceding AND/* */current  ROW)".toList, ⟨[' '], ['2'], hb, by decide, (by unfold Digits; decide), ?_, rfl, rfl⟩,
      ⟨[' '], "Preceding".toList, hb, by decide, by decide, rfl⟩⟩
    intro c hc
    obtain rfl : ' ' = c := by simpa using hc
    decide
  · exact ⟨[' '], "AND".toList, hb, by decide, by decide, rfl⟩
  · exact ⟨"/* */".toList, "current  ROW".toList, .block (b := [' ']) (by decide) .nil,
      .cons (t := "current".toList) (g := [' ', ' ']) (u := "ROW".toList) (by decide) (by decide) (by decide) (.one (by decide)), by decide, rfl⟩

example : Frame.survives true ⟨.rows, .before (some 2), some .cur⟩ := by
  simp [Frame.survives, Frame.last, Bound.offset]

end EulerDB.Window
