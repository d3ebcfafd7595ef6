/-
What `make_tree` loses.  The loop may end with more than one element left, and the
function then returns the first of them (infix.py 363): the others are dropped without
an error.
-/
import Verif.Parse.Level
import Mathlib.Data.List.Chain

namespace EulerDB.Parse

/-! ### The symbols of a tree -/

/-- The operands and operators a tree was built from, in the order of the text. -/
def T.syms : T → List Item
  | .atom s => [.val (.atom s)]
  | .bin o l r => l.syms ++ .bin o :: r.syms
  | .un p e => .pre p :: e.syms
  | .btw n a b c => a.syms ++ .btw n :: (b.syms ++ .bin .and :: c.syms)
  | .bopTok o => [.bin o]
  | .preTok p => [.pre p]
  | .btwTok n => [.btw n]

def syms (t : List Item) : List Item := t.flatMap fun i => i.tree.syms

theorem T.syms_ne : ∀ e : T, e.syms ≠ []
  | .atom _ => by simp [T.syms]
  | .bin _ _ _ => by simp [T.syms]
  | .un _ _ => by simp [T.syms]
  | .btw _ _ _ _ => by simp [T.syms]
  | .bopTok _ => by simp [T.syms]
  | .preTok _ => by simp [T.syms]
  | .btwTok _ => by simp [T.syms]

@[simp] theorem syms_nil : syms [] = [] := rfl
@[simp] theorem syms_cons (i : Item) (t : List Item) : syms (i :: t) = i.tree.syms ++ syms t := by
  simp [syms]
@[simp] theorem syms_append (t u : List Item) : syms (t ++ u) = syms t ++ syms u := by
  simp [syms]

/-! ### What a round does -/

theorem redBin_parts {os : List Bop} : ∀ {t t' : List Item}, redBin os t = some t' →
    ∃ a x o y b, o ∈ os ∧ t = a ++ x :: .bin o :: y :: b ∧
      t' = a ++ .val (.bin o x.tree y.tree) :: b
  | [], _, h => by simp [redBin] at h
  | [_], _, h => by simp [redBin] at h
  | [_, _], _, h => by simp [redBin] at h
  | x :: k :: y :: r, t', h => by
    rcases hit_or_skip os k with ⟨o, ho, rfl⟩ | hs
    · simp only [redBin, ho, if_true, Option.some.injEq] at h
      exact ⟨[], x, o, y, r, ho, rfl, h.symm⟩
    · rw [redBin_skip _ hs] at h
      cases hr : redBin os (k :: y :: r) with
      | none => simp [hr] at h
      | some w =>
        simp only [hr, Option.map_some, Option.some.injEq] at h
        obtain ⟨a, x', o, y', b, ho, he, hw⟩ := redBin_parts hr
        exact ⟨x :: a, x', o, y', b, ho, by rw [he]; rfl, by rw [← h, hw]; rfl⟩

theorem redPre_parts {p : Pre} : ∀ {t t' : List Item}, redPre p t = some t' →
    ∃ a y b, redPre p (y :: b) = none ∧ t = a ++ .pre p :: y :: b ∧
      t' = a ++ .val (.un p y.tree) :: b
  | [], _, h => by simp [redPre] at h
  | [_], _, h => by simp [redPre] at h
  | x :: y :: r, t', h => by
    simp only [redPre] at h
    split at h
    · rename_i r' hr
      injection h with h
      obtain ⟨a, y', b, hn, he, hw⟩ := redPre_parts hr
      exact ⟨x :: a, y', b, hn, by rw [he]; rfl, by rw [← h, hw]; rfl⟩
    · rename_i hr
      split at h
      · rename_i hx
        injection h with h
        exact ⟨[], y, r, hr, by rw [hx]; rfl, h.symm⟩
      · cases h

theorem redBtw_parts {n : Bool} : ∀ {t t' : List Item}, redBtw n t = some t' →
    ∃ a x y z b, t = a ++ x :: .btw n :: y :: .bin .and :: z :: b ∧
      t' = a ++ .val (.btw n x.tree y.tree z.tree) :: b
  | [], _, h => by simp [redBtw] at h
  | [_], _, h => by simp [redBtw] at h
  | [_, _], _, h => by simp [redBtw] at h
  | [_, _, _], _, h => by simp [redBtw] at h
  | [_, _, _, _], _, h => by simp [redBtw] at h
  | x :: k :: y :: a :: z :: r, t', h => by
    simp only [redBtw] at h
    split at h
    · rename_i hc
      injection h with h
      obtain ⟨rfl, rfl⟩ := hc
      exact ⟨[], x, y, z, r, rfl, h.symm⟩
    · cases hr : redBtw n (k :: y :: a :: z :: r) with
      | none => simp [hr] at h
      | some w =>
        simp only [hr, Option.map_some, Option.some.injEq] at h
        obtain ⟨a', x', y', z', b, he, hw⟩ := redBtw_parts hr
        exact ⟨x :: a', x', y', z', b, by rw [he]; rfl, by rw [← h, hw]; rfl⟩

/-- A round keeps the symbols. -/
theorem red_syms {l : Lev} {t t' : List Item} (h : red l t = some t') : syms t' = syms t := by
  cases l with
  | bin os =>
    obtain ⟨a, x, o, y, b, -, rfl, rfl⟩ := redBin_parts h
    simp [Item.tree, T.syms]
  | pre p =>
    obtain ⟨a, y, b, -, rfl, rfl⟩ := redPre_parts h
    simp [Item.tree, T.syms]
  | btw n =>
    obtain ⟨a, x, y, z, b, rfl, rfl⟩ := redBtw_parts h
    simp [Item.tree, T.syms]

theorem reach_syms {t u : List Item} (h : Reach t u) : syms u = syms t := by
  induction h with
  | refl => rfl
  | head hs _ ih =>
    obtain ⟨l, -, hr⟩ := step_red hs
    rw [ih, red_syms hr]

/-- Nothing is invented: the symbols of what is returned, followed by those of what is
left over, are the symbols of the text. -/
theorem makeTree_syms {t : List Item} {e : T} (h : makeTree t = some e) :
    syms t = e.syms ++ syms (iter t.length t).tail := by
  have hs := reach_syms (reach_iter t.length t)
  unfold makeTree at h
  cases hu : iter t.length t with
  | nil => simp [hu] at h
  | cons i rest =>
    simp only [hu, List.head?_cons, Option.map_some, Option.some.injEq] at h
    rw [hu, syms_cons, h] at hs
    exact hs.symm

/-! ### Well-formed runs (infix.py 371-372) -/

/-- Reading a run: `false` before an operand, `true` after one.  `modified` is any number
of prefix operators and an operand; a run is `modified` with infix operators between. -/
def st : Bool → List Item → Option Bool
  | s, [] => some s
  | false, .pre _ :: r => st false r
  | false, .val _ :: r => st true r
  | true, .bin _ :: r => st false r
  | true, .btw _ :: r => st false r
  | _, _ => none

/-- `modified + ZeroOrMore(ops + modified)`. -/
def Good (t : List Item) : Prop := st false t = some true

theorem st_append : ∀ (s : Bool) (t u : List Item),
    st s (t ++ u) = (st s t).bind fun s' => st s' u
  | s, [], u => by cases s <;> simp [st]
  | false, .pre p :: r, u => by simp [st, st_append false r u]
  | false, .val p :: r, u => by simp [st, st_append true r u]
  | true, .bin p :: r, u => by simp [st, st_append false r u]
  | true, .btw p :: r, u => by simp [st, st_append false r u]
  | false, .bin p :: r, u => by simp [st]
  | false, .btw p :: r, u => by simp [st]
  | true, .val p :: r, u => by simp [st]
  | true, .pre p :: r, u => by simp [st]

/-- No `BETWEEN`. -/
def NoBtw (t : List Item) : Prop := ∀ n, Item.btw n ∉ t

/-- A prefix operator may follow an operator only if its entry in the table comes
earlier, or is the same in the case of another prefix operator. -/
def okPair : Item → Item → Prop
  | .bin o, .pre p => ix (.pre p) < ix (.bin o)
  | .pre q, .pre p => ix (.pre p) ≤ ix (.pre q)
  | _, _ => True

instance (x y : Item) : Decidable (okPair x y) := by
  unfold okPair; split <;> infer_instance

/-- All prefix operators are reduced before the operator in front of them. -/
def Safe (t : List Item) : Prop := t.IsChain okPair

/-- No operand is followed by the start of another one. -/
def sep (x y : Item) : Prop := (∃ v, x = .val v) → ¬ Start y

def Joined (t : List Item) : Prop := t.IsChain sep

/-! #### Windows -/

theorem last_val_absurd {a : List Item} {v w : T} {b : List Item}
    (h : (a ++ .val w :: b).IsChain sep) : .val v ∉ a.getLast? := by
  intro hv
  exact (List.isChain_append.mp h).2.2 _ hv _ (by simp) ⟨v, rfl⟩ (start_val w)

/-- Replacing a window by an operand does not separate two operands. -/
theorem joined_window {a w b : List Item} {v : T} (hw : w.IsChain sep)
    (h : (a ++ .val v :: b).IsChain sep) : (a ++ (w ++ b)).IsChain sep := by
  have h' := List.isChain_append.mp h
  refine List.isChain_append.mpr ⟨h'.1, ?_, ?_⟩
  · refine List.isChain_append.mpr ⟨hw, ?_, ?_⟩
    · exact (List.isChain_cons.mp h'.2.1).2
    · intro x _ y hy _
      exact (List.isChain_cons.mp h'.2.1).1 y hy ⟨v, rfl⟩
  · intro x hx y _ ⟨u, hu⟩
    subst hu
    exact absurd hx (last_val_absurd h)

theorem red_joined {l : Lev} {t t' : List Item} (h : red l t = some t') (hj : Joined t') :
    Joined t := by
  cases l with
  | bin os =>
    obtain ⟨a, x, o, y, b, -, rfl, rfl⟩ := redBin_parts h
    refine joined_window (w := [x, .bin o, y]) ?_ hj
    simp [sep, Start]
  | pre p =>
    obtain ⟨a, y, b, -, rfl, rfl⟩ := redPre_parts h
    refine joined_window (w := [.pre p, y]) ?_ hj
    simp [sep]
  | btw n =>
    obtain ⟨a, x, y, z, b, rfl, rfl⟩ := redBtw_parts h
    refine joined_window (w := [x, .btw n, y, .bin .and, z]) ?_ hj
    simp [sep, Start]

theorem reach_joined {t u : List Item} (h : Reach t u) (hj : Joined u) : Joined t := by
  induction h with
  | refl => exact hj
  | head hs _ ih =>
    obtain ⟨l, -, hr⟩ := step_red hs
    exact red_joined hr (ih hj)

/-! #### In a well-formed run an entry applies exactly if its operator occurs -/

theorem good_bin_mem {os : List Bop} : ∀ {t : List Item} (s : Bool), st s t = some true →
    (s = true → ∃ v, True ∧ redBin os (.val v :: t) = none) →
    (s = false → redBin os t = none) → ∀ o ∈ os, Item.bin o ∉ t := by
  intro t
  induction t with
  | nil => intro s _ _ _ o _ h; cases h
  | cons x r ih =>
    intro s hst h1 h2 o ho hm
    cases s with
    | false =>
      have h2 := h2 rfl
      cases x with
      | bin _ => simp [st] at hst
      | btw _ => simp [st] at hst
      | pre p =>
        simp only [st] at hst
        refine ih false hst (by simp) (fun _ => ?_) o ho (by simpa using hm)
        cases r with
        | nil => rfl
        | cons y r =>
          cases y with
          | bin _ => simp [st] at hst
          | btw _ => simp [st] at hst
          | val v => rw [redBin_skip _ (by simp)] at h2; simpa using h2
          | pre v => rw [redBin_skip _ (by simp)] at h2; simpa using h2
      | val v =>
        simp only [st] at hst
        exact ih true hst (fun _ => ⟨v, trivial, h2⟩) (by simp) o ho (by simpa using hm)
    | true =>
      obtain ⟨v, -, h1⟩ := h1 rfl
      have key : ∀ y r', r = y :: r' → Start y → x ≠ .bin o → (∀ o ∈ os, x ≠ .bin o) →
          st false r = some true → False := by
        intro y r' hr hy hx hx' hst'
        subst hr
        refine ih false hst' (by simp) (fun _ => ?_) o ho ?_
        · rw [redBin_skip _ hx', redBin_skip _ (fun o _ => hy.1 o)] at h1
          simpa using h1
        · rcases List.mem_cons.mp hm with h | h
          · exact absurd h.symm hx
          · exact h
      cases r with
      | nil =>
        cases x <;> simp [st] at hst
      | cons y r' =>
        have hy : ∀ s', st false (y :: r') = some s' → Start y := by
          intro s' h
          cases y with
          | bin _ => simp [st] at h
          | btw _ => simp [st] at h
          | val v => exact start_val v
          | pre v => exact start_pre v
        cases x with
        | val _ => simp [st] at hst
        | pre _ => simp [st] at hst
        | bin o' =>
          simp only [st] at hst
          by_cases ho' : o' ∈ os
          · simp [redBin, ho'] at h1
          · exact key y r' rfl (hy _ hst) (by rintro h; injection h with h; subst h; exact ho' ho)
              (by rintro o'' h'' h; injection h with h; subst h; exact ho' h'') hst
        | btw n =>
          simp only [st] at hst
          exact key y r' rfl (hy _ hst) (by simp) (by simp) hst

theorem good_pre_mem {p : Pre} : ∀ {t : List Item} (s : Bool), st s t = some true →
    redPre p t = none → Item.pre p ∉ t := by
  intro t
  induction t with
  | nil => intro s _ _ h; cases h
  | cons x r ih =>
    intro s hst h hm
    cases r with
    | nil =>
      have : x = .pre p := by simpa using (List.mem_singleton.mp hm).symm
      subst this
      cases s <;> simp [st] at hst
    | cons y r =>
      simp only [redPre] at h
      split at h
      · cases h
      · rename_i hr
        split at h
        · cases h
        · rename_i hx
          have hm' : Item.pre p ∈ y :: r := by
            rcases List.mem_cons.mp hm with h | h
            · exact absurd h.symm hx
            · exact h
          cases s <;> cases x <;> simp only [st] at hst <;>
            first
            | exact ih _ hst hr hm'
            | cases hst

theorem ix_has {i : Item} {k : Nat} (h : ix i < k) (hk : k ≤ 27) :
    ∃ l, table[ix i]? = some l ∧ l.has i = true := by
  have hl : table.findIdx (·.has i) < table.length := by
    change ix i < 27; omega
  exact ⟨_, List.getElem?_eq_getElem hl, List.findIdx_getElem (w := hl)⟩

/-- A round in a well-formed run uses the entry of the earliest operator. -/
theorem step_min {t t' : List Item} (hg : Good t) (hb : NoBtw t) (h : step t = some t') :
    ∃ k l, table[k]? = some l ∧ red l t = some t' ∧ From k t := by
  obtain ⟨l₁, l, l₂, he, hr, hn⟩ := List.findSome?_eq_some_iff.mp h
  have hk : l₁.length < 27 := by
    have : table.length = 27 := rfl
    rw [he] at this
    simp at this
    omega
  refine ⟨l₁.length, l, by rw [he]; simp, hr, fun i hi => ?_⟩
  by_contra hc
  obtain ⟨l', hl', hh⟩ := ix_has (i := i) (k := l₁.length) (by omega) (by omega)
  have hmem : l' ∈ l₁ := by
    rw [he, List.getElem?_append_left (by omega)] at hl'
    exact List.mem_of_getElem? hl'
  have hnone := hn l' hmem
  cases l' with
  | bin os =>
    cases i with
    | bin o =>
      exact good_bin_mem false hg (by simp) (fun _ => hnone) o (by simpa [Lev.has] using hh) hi
    | val _ => simp [Lev.has] at hh
    | pre _ => simp [Lev.has] at hh
    | btw _ => simp [Lev.has] at hh
  | pre p =>
    cases i with
    | pre q =>
      have : p = q := by simpa [Lev.has] using hh
      subst this
      exact good_pre_mem false hg hnone hi
    | val _ => simp [Lev.has] at hh
    | bin _ => simp [Lev.has] at hh
    | btw _ => simp [Lev.has] at hh
  | btw n =>
    cases i with
    | btw m => exact hb m hi
    | val _ => simp [Lev.has] at hh
    | bin _ => simp [Lev.has] at hh
    | pre _ => simp [Lev.has] at hh

theorem good_bin_window {a b : List Item} {x y : Item} {o : Bop}
    (h : Good (a ++ x :: .bin o :: y :: b)) :
    (∃ v, x = .val v) ∧ st false a = some false ∧ st false (y :: b) = some true := by
  unfold Good at h
  rw [st_append] at h
  cases hs : st false a with
  | none => simp [hs] at h
  | some s =>
    simp only [hs, Option.bind_some] at h
    cases s <;> cases x <;> simp [st] at h
    exact ⟨⟨_, rfl⟩, rfl, h⟩

theorem good_pre_window {a b : List Item} {y : Item} {p : Pre}
    (h : Good (a ++ .pre p :: y :: b)) :
    st false a = some false ∧ st false (y :: b) = some true := by
  unfold Good at h
  rw [st_append] at h
  cases hs : st false a with
  | none => simp [hs] at h
  | some s =>
    simp only [hs, Option.bind_some] at h
    cases s <;> simp [st] at h
    exact ⟨rfl, h⟩

theorem good_glue {a b : List Item} {v w : T} (ha : st false a = some false)
    (hb : st false (.val w :: b) = some true) : Good (a ++ .val v :: b) := by
  unfold Good
  rw [st_append, ha]
  simpa [st] using hb

theorem nobtw_red {l : Lev} {t t' : List Item} (h : red l t = some t') (hb : NoBtw t) :
    NoBtw t' := by
  have := red_from (P := fun i => ∀ n, i ≠ .btw n) (by simp) h
    (fun i hi n hn => hb n (hn ▸ hi))
  exact fun n hn => this _ hn n rfl

theorem start_cases {y : Item} {b : List Item} (h : st false (y :: b) = some true) :
    (∃ v, y = .val v) ∨ ∃ p, y = .pre p := by
  cases y <;> simp [st] at h
  · exact .inl ⟨_, rfl⟩
  · exact .inr ⟨_, rfl⟩

theorem safe_glue {a w b : List Item} (u : T)
    (h : Safe (a ++ (w ++ b))) : Safe (a ++ .val u :: b) := by
  have h1 := List.isChain_append.mp h
  have h2 := List.isChain_append.mp h1.2.1
  refine List.isChain_append.mpr ⟨h1.1, List.isChain_cons.mpr ⟨?_, h2.2.1⟩, ?_⟩
  · intro y _; simp [okPair]
  · intro x _ y hy
    simp only [List.head?_cons, Option.mem_some_iff] at hy
    subst hy
    cases x <;> simp [okPair]

theorem safe_unglue {a b : List Item} {x : Item} {w : List Item} {u v : T}
    (hw : (x :: w).getLast? = some (.val v)) (hc : (x :: w).IsChain okPair)
    (hx : ∀ i ∈ a.getLast?, okPair i x) (h : Safe (a ++ .val u :: b)) :
    Safe (a ++ ((x :: w) ++ b)) := by
  have h1 := List.isChain_append.mp h
  have h2 := List.isChain_cons.mp h1.2.1
  refine List.isChain_append.mpr ⟨h1.1, List.isChain_append.mpr ⟨hc, h2.2, ?_⟩, ?_⟩
  · intro z hz y _
    rw [hw] at hz
    simp only [Option.mem_some_iff] at hz
    subst hz
    simp [okPair]
  · intro i hi y hy
    simp only [List.cons_append, List.head?_cons, Option.mem_some_iff] at hy
    subst hy
    exact hx i hi

theorem safe_pair {a b : List Item} {x y : Item} (h : Safe (a ++ x :: y :: b)) : okPair x y :=
  (List.isChain_append_cons_cons.mp h).2.1

theorem ix_inj_pre {p q : Pre} (h : ix (.pre p) = ix (.pre q)) : p = q := by
  revert h; cases p <;> cases q <;> decide

theorem good_step {t t' : List Item} (hg : Good t) (hb : NoBtw t) (hs : Safe t)
    (h : step t = some t') : Good t' ∧ NoBtw t' ∧ Safe t' := by
  obtain ⟨k, l, hl, hr, hf⟩ := step_min hg hb h
  refine ⟨?_, nobtw_red hr hb, ?_⟩ <;> cases l with
  | bin os =>
    obtain ⟨a, x, o, y, b, ho, rfl, rfl⟩ := redBin_parts hr
    obtain ⟨⟨v, rfl⟩, ha, hy⟩ := good_bin_window hg
    rcases start_cases hy with ⟨w, rfl⟩ | ⟨p, rfl⟩
    · first
      | exact good_glue ha hy
      | exact safe_glue (w := [.val v, .bin o, .val w]) _ hs
    · exfalso
      have h1 : ix (.pre p) < ix (.bin o) :=
        safe_pair (a := a ++ [.val v]) (x := .bin o) (y := .pre p) (b := b) (by simpa using hs)
      have h2 := has_ix hl (i := .bin o) (by simp [Lev.has, ho])
      have h3 := hf (.pre p) (by simp)
      omega
  | pre p =>
    obtain ⟨a, y, b, hn, rfl, rfl⟩ := redPre_parts hr
    obtain ⟨ha, hy⟩ := good_pre_window hg
    rcases start_cases hy with ⟨w, rfl⟩ | ⟨q, rfl⟩
    · first
      | exact good_glue ha hy
      | exact safe_glue (w := [.pre p, .val w]) _ hs
    · exfalso
      have h1 : ix (.pre q) ≤ ix (.pre p) :=
        safe_pair (x := .pre p) (y := .pre q) hs
      have h2 := has_ix hl (i := .pre p) (by simp [Lev.has])
      have h3 := hf (.pre q) (by simp)
      have := ix_inj_pre (p := q) (q := p) (by omega)
      subst this
      exact good_pre_mem false hy hn (by simp)
  | btw n =>
    obtain ⟨a, x, y, z, b, rfl, rfl⟩ := redBtw_parts hr
    exact absurd (by simp) (hb n)

theorem unsafe_step {t t' : List Item} (hg : Good t) (hb : NoBtw t) (hs : ¬ Safe t)
    (h : step t = some t') : (Good t' ∧ NoBtw t' ∧ ¬ Safe t') ∨ ¬ Joined t' := by
  obtain ⟨k, l, hl, hr, hf⟩ := step_min hg hb h
  have hb' := nobtw_red hr hb
  have bad : ∀ (a b : List Item) (u : T) (p : Pre), st false (.pre p :: b) = some true →
      ¬ Joined (a ++ .val u :: b) := by
    intro a b u p hp hj
    cases b with
    | nil => simp [st] at hp
    | cons z b =>
      have : Start z := by
        rcases start_cases (y := z) (b := b) (by simpa [st] using hp) with ⟨v, rfl⟩ | ⟨q, rfl⟩
        · exact start_val v
        · exact start_pre q
      exact (List.isChain_append_cons_cons.mp hj).2.1 ⟨u, rfl⟩ this
  cases l with
  | bin os =>
    obtain ⟨a, x, o, y, b, ho, rfl, rfl⟩ := redBin_parts hr
    obtain ⟨⟨v, rfl⟩, ha, hy⟩ := good_bin_window hg
    rcases start_cases hy with ⟨w, rfl⟩ | ⟨p, rfl⟩
    · refine .inl ⟨good_glue ha hy, hb', fun hs' => hs ?_⟩
      refine safe_unglue (w := [.bin o, .val w]) rfl (by simp [okPair]) ?_ hs'
      intro i _; cases i <;> simp [okPair]
    · exact .inr (bad _ _ _ p hy)
  | pre p =>
    obtain ⟨a, y, b, hn, rfl, rfl⟩ := redPre_parts hr
    obtain ⟨ha, hy⟩ := good_pre_window hg
    rcases start_cases hy with ⟨w, rfl⟩ | ⟨q, rfl⟩
    · refine .inl ⟨good_glue ha hy, hb', fun hs' => hs ?_⟩
      refine safe_unglue (w := [.val w]) rfl (by simp [okPair]) ?_ hs'
      intro i hi
      have hk := has_ix hl (i := .pre p) (by simp [Lev.has])
      have him : i ∈ a := List.mem_of_mem_getLast? hi
      have hi' := hf i (by simp [him])
      cases i with
      | pre q => simp only [okPair]; omega
      | bin o =>
        simp only [okPair]
        have : ix (.bin o) ≠ ix (.pre p) := by cases o <;> cases p <;> decide
        omega
      | val _ => simp [okPair]
      | btw _ => simp [okPair]
    · exact .inr (bad _ _ _ q hy)
  | btw n =>
    obtain ⟨a, x, y, z, b, rfl, rfl⟩ := redBtw_parts hr
    exact absurd (by simp) (hb n)

/-- A well-formed run of more than one element can be reduced. -/
theorem good_progress {t : List Item} (hg : Good t) (hb : NoBtw t) (h : step t = none) :
    ∃ v, t = [.val v] := by
  have hnone : ∀ l ∈ table, red l t = none := by
    intro l hl
    have := List.findSome?_eq_none_iff.mp h
    exact this l hl
  have hpre : ∀ p, Item.pre p ∉ t := by
    intro p
    refine good_pre_mem false hg (hnone (.pre p) ?_)
    cases p <;> decide
  have hbin : ∀ o, Item.bin o ∉ t := by
    intro o
    obtain ⟨l, hl, hh⟩ := ix_has (i := .bin o) (k := 27) (ix_lt_bin o) (by omega)
    have hm := List.mem_of_getElem? hl
    cases l with
    | bin os =>
      exact good_bin_mem false hg (by simp) (fun _ => hnone (.bin os) hm) o
        (by simpa [Lev.has] using hh)
    | pre p => simp [Lev.has] at hh
    | btw n => simp [Lev.has] at hh
  match t, hg with
  | [], hg => simp [Good, st] at hg
  | .val v :: [], _ => exact ⟨v, rfl⟩
  | .val v :: .bin o :: r, _ => exact absurd (by simp) (hbin o)
  | .val v :: .btw n :: r, _ => exact absurd (by simp) (hb n)
  | .val v :: .val w :: r, hg => simp [Good, st] at hg
  | .val v :: .pre p :: r, hg => simp [Good, st] at hg
  | .pre p :: r, _ => exact absurd (by simp) (hpre p)
  | .bin o :: r, hg => simp [Good, st] at hg
  | .btw o :: r, hg => simp [Good, st] at hg

theorem safe_reach {t u : List Item} (h : Reach t u) :
    Good t → NoBtw t → Safe t → Good u ∧ NoBtw u ∧ Safe u := by
  induction h with
  | refl => exact fun a b c => ⟨a, b, c⟩
  | head hs _ ih =>
    intro a b c
    obtain ⟨a', b', c'⟩ := good_step a b c hs
    exact ih a' b' c'

theorem unsafe_reach {t u : List Item} (h : Reach t u) :
    Good t → NoBtw t → ¬ Safe t → (Good u ∧ NoBtw u ∧ ¬ Safe u) ∨ ¬ Joined u := by
  induction h with
  | refl => exact fun a b c => .inl ⟨a, b, c⟩
  | head hs hr ih =>
    intro a b c
    rcases unsafe_step a b c hs with ⟨a', b', c'⟩ | hj
    · exact ih a' b' c'
    · exact .inr fun hu => hj (reach_joined hr hu)

/-- The loop ends with one element exactly if every prefix operator is reduced before
the operator in front of it. -/
theorem single_iff {t : List Item} (hg : Good t) (hb : NoBtw t) :
    (∃ v, iter t.length t = [.val v]) ↔ Safe t := by
  constructor
  · rintro ⟨v, hv⟩
    by_contra hs
    have hr := reach_iter t.length t
    rw [hv] at hr
    rcases unsafe_reach hr hg hb hs with ⟨-, -, h⟩ | h
    · exact h (List.IsChain.singleton _)
    · exact h (List.IsChain.singleton _)
  · intro hs
    obtain ⟨hg', hb', -⟩ := safe_reach (reach_iter t.length t) hg hb hs
    exact good_progress hg' hb' (iter_stuck _ _ (Nat.le_refl _))

end EulerDB.Parse
