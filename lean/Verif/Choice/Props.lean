/-
**C89: choosing by the table of first characters gives the alternative that trying them one after the other gives.**
-/
import Verif.Choice.Lookup

namespace EulerDB.Choice

open EulerDB

variable {E R : Type}

/-- **Order is kept**: a key that one parser has and a later one has too, is also a key of every parser between the two that shares the line of
the table. -/
def Ordered (keys : E → List Key) (exprs : List E) : Prop :=
  ∀ c a b, List.Sublist [c, a, b] exprs → ∀ m k k', (∃ o ∈ exprs, m ∈ keys o) → k ∈ keys c → k ∈ keys b → k' ∈ keys a → m <+: k → m <+: k' →
    k ∈ keys a

theorem Ordered.sublist {keys : E → List Key} {l exprs : List E} (h : Ordered keys exprs) (hs : List.Sublist l exprs) : Ordered keys l := by
  intro c a b hl m k k' ⟨o, ho, hm⟩
  exact h c a b (hl.trans hs) m k k' ⟨o, hs.subset ho, hm⟩

/-- What the table needs to know about the parsers: their keys are different, not empty, and of characters whose cases go together; and a parser
succeeds only where one of its keys stands. -/
structure Keyed (cs : Casing) (keys : E → List Key) (run : E → Option R) (t : List Char) (o : E) : Prop where
  nodup : (keys o).Nodup
  fit : ∀ k ∈ keys o, k ≠ [] ∧ Fit cs k
  sound : keys o ≠ [] → run o ≠ none → ∃ k ∈ keys o, matches' (pattern cs k) t = true

theorem first_append (run : E → Option R) (a b : List E) : first run (a ++ b) = (first run a).or (first run b) := by
  unfold first
  rw [List.findSome?_append]

theorem first_none {run : E → Option R} {l : List E} (h : ∀ o ∈ l, run o = none) : first run l = none := by
  unfold first
  rw [List.findSome?_eq_none_iff]
  exact h

theorem first_flatMap {α : Type} {run : E → Option R} {r : R} {l : List α} {g : α → List E} (h : ∀ x ∈ l, first run (g x) = none ∨ first run (g x) = some r)
    (h' : ∃ x ∈ l, first run (g x) = some r) : first run (l.flatMap g) = some r := by
  induction l with
  | nil => simp at h'
  | cons x l ih =>
    rw [List.flatMap_cons, first_append]
    rcases h x (by simp) with e | e
    · rw [e, Option.none_or]
      apply ih fun y hy => h y (by simp [hy])
      obtain ⟨y, hy, ey⟩ := h'
      rcases List.mem_cons.1 hy with rfl | hy
      · rw [e] at ey; cases ey
      · exact ⟨y, hy, ey⟩
    · rw [e, Option.some_or]

section

variable {cs : Casing} {keys : E → List Key} {run : E → Option R} {t : List Char} {exprs : List E}

theorem items_ne (hk : ∀ o ∈ exprs, Keyed cs keys run t o) : ∀ x ∈ itemsOf (exprs.map (expectingOf keys)), x.2 ≠ [] := by
  intro x hx
  rw [itemsOf_eq] at hx
  obtain ⟨k, hm, rfl⟩ := List.mem_map.1 hx
  obtain ⟨o, ho, hko⟩ := (mem_linesOf keys).1 hm
  simp only
  rw [valueOf_lines keys fun o ho => (hk o ho).nodup]
  exact List.ne_nil_of_mem (List.mem_filter.2 ⟨ho, by simpa using hko⟩)

theorem items_fit (hk : ∀ o ∈ exprs, Keyed cs keys run t o) : ∀ x ∈ itemsOf (exprs.map (expectingOf keys)), x.1 ≠ [] ∧ Fit cs x.1 := by
  intro x hx
  rw [itemsOf_eq] at hx
  obtain ⟨k, hm, rfl⟩ := List.mem_map.1 hx
  obtain ⟨o, ho, hko⟩ := (mem_linesOf keys).1 hm
  exact (hk o ho).fit k hko

theorem mem_items {o : E} {k : Key} (hn : ∀ o ∈ exprs, (keys o).Nodup) (ho : o ∈ exprs) (hk : k ∈ keys o) :
    ∃ x ∈ itemsOf (exprs.map (expectingOf keys)), x.1 = k ∧ o ∈ x.2 := by
  rw [itemsOf_eq]
  refine ⟨_, List.mem_map.2 ⟨k, (mem_linesOf keys).2 ⟨o, ho, hk⟩, rfl⟩, rfl, ?_⟩
  simp only
  rw [valueOf_lines keys hn]
  exact List.mem_filter.2 ⟨ho, by simpa using hk⟩

theorem taken_items (hn : ∀ o ∈ exprs, (keys o).Nodup) (m : Key) :
    taken (itemsOf (exprs.map (expectingOf keys))) m =
      (order (linesOf keys exprs)).flatMap fun k => if m <+: k then exprs.filter fun o => decide (k ∈ keys o) else [] := by
  rw [itemsOf_eq]
  unfold taken
  rw [List.flatMap_map]
  apply List.flatMap_congr
  intro k _
  simp only [valueOf_lines keys hn, isPrefix_iff]

theorem mem_taken (hn : ∀ o ∈ exprs, (keys o).Nodup) {m : Key} {o : E} :
    o ∈ taken (itemsOf (exprs.map (expectingOf keys))) m ↔ o ∈ exprs ∧ ∃ k ∈ keys o, m <+: k := by
  rw [taken_items hn, List.mem_flatMap]
  constructor
  · rintro ⟨k, _, h⟩
    by_cases hp : m <+: k
    · rw [if_pos hp, List.mem_filter] at h
      exact ⟨h.1, k, by simpa using h.2, hp⟩
    · rw [if_neg hp] at h
      cases h
  · rintro ⟨ho, k, hk, hp⟩
    refine ⟨k, (mem_linesOf keys).2 ⟨o, ho, hk⟩, ?_⟩
    rw [if_pos hp, List.mem_filter]
    exact ⟨ho, by simpa using hk⟩

/-- What the line found holds: all the parsers that succeed here. -/
theorem shortList_all (hk : ∀ o ∈ exprs, Keyed cs keys run t o) (hx : ∀ o ∈ exprs, keys o ≠ []) {f : List (Key × List E)}
    (h : table (exprs.map (expectingOf keys)) = .ok f) :
    ∃ es, shortList cs f t = .ok es ∧ (∀ o ∈ es, o ∈ exprs) ∧ (∀ o ∈ exprs, run o ≠ none → o ∈ es) ∧
      (es = [] ∨ ∃ m, (∃ o ∈ exprs, m ∈ keys o) ∧ es = taken (itemsOf (exprs.map (expectingOf keys))) m) := by
  have hn : ∀ o ∈ exprs, (keys o).Nodup := fun o ho => (hk o ho).nodup
  obtain ⟨es, e, hs⟩ := shortList_spec (t := t) (items_ne hk) (items_fit hk) (table_shorter h)
  refine ⟨es, e, ?_⟩
  rcases hs with ⟨rfl, hno⟩ | ⟨m, hm, rfl, hall⟩
  · refine ⟨by simp, ?_, Or.inl rfl⟩
    intro o ho hr
    obtain ⟨k, hko, mk⟩ := (hk o ho).sound (hx o ho) hr
    obtain ⟨x, hx', rfl, _⟩ := mem_items hn ho hko
    rw [hno x hx'] at mk
    cases mk
  · refine ⟨fun o ho => ((mem_taken hn).1 ho).1, ?_, Or.inr ⟨m, ?_, rfl⟩⟩
    · intro o ho hr
      obtain ⟨k, hko, mk⟩ := (hk o ho).sound (hx o ho) hr
      obtain ⟨x, hx', rfl, _⟩ := mem_items hn ho hko
      exact (mem_taken hn).2 ⟨ho, _, hko, hall x hx' mk⟩
    · obtain ⟨⟨x, hx', rfl⟩, _⟩ := hm
      rw [itemsOf_eq] at hx'
      obtain ⟨k, hm, rfl⟩ := List.mem_map.1 hx'
      exact (mem_linesOf keys).1 hm

theorem first_split {l : List E} {r : R} (h : first run l = some r) : ∃ pre a post, l = pre ++ a :: post ∧ run a = some r ∧ ∀ o ∈ pre, run o = none := by
  unfold first at h
  rw [List.findSome?_eq_some_iff] at h
  obtain ⟨pre, a, post, e, ha, hp⟩ := h
  exact ⟨pre, a, post, e, ha, hp⟩

/-- **One table.**  What a table built for some parsers answers is what trying the parsers in order answers. -/
theorem Fast.parse_eq (hk : ∀ o ∈ exprs, Keyed cs keys run t o) (hx : ∀ o ∈ exprs, keys o ≠ []) (ho : Ordered keys exprs)
    {f : List (Key × List E)} (h : table (exprs.map (expectingOf keys)) = .ok f) : Fast.parse cs run f t = .ok (first run exprs) := by
  have hn : ∀ o ∈ exprs, (keys o).Nodup := fun o ho => (hk o ho).nodup
  obtain ⟨es, e, hin, hall, hes⟩ := shortList_all hk hx h
  unfold Fast.parse
  rw [e]
  simp only
  cases hf : first run exprs with
  | none =>
    rw [first_none]
    intro o ho'
    unfold first at hf
    rw [List.findSome?_eq_none_iff] at hf
    exact hf o (hin o ho')
  | some r =>
    obtain ⟨pre, a, post, rfl, ha, hpre⟩ := first_split hf
    have haes : a ∈ es := hall a (by simp) (by rw [ha]; simp)
    rcases hes with rfl | ⟨m, hm, rfl⟩
    · cases haes
    · obtain ⟨_, k', hk', hmk'⟩ := (mem_taken hn).1 haes
      rw [taken_items hn]
      congr 1
      obtain ⟨rest, hrest⟩ := order_append (linesOf keys (pre ++ [a])) (linesOf keys post)
      have hsplit : pre ++ a :: post = (pre ++ [a]) ++ post := by simp
      rw [show linesOf keys (pre ++ a :: post) = linesOf keys (pre ++ [a]) ++ linesOf keys post by
        rw [hsplit, linesOf_append], hrest, List.flatMap_append, first_append]
      rw [first_flatMap (r := r)]
      · rfl
      · intro k hk1
        by_cases hp : m <+: k
        · rw [if_pos hp, List.filter_append, first_append, first_none (l := pre.filter _) (fun o ho => hpre o (List.mem_filter.1 ho).1), Option.none_or]
          by_cases hka : k ∈ keys a
          · right
            simp [first, hka, ha]
          · left
            rw [List.filter_cons_of_neg (by simpa using hka)]
            apply first_none
            intro b hb
            exfalso
            obtain ⟨hb, hkb⟩ := List.mem_filter.1 hb
            obtain ⟨c, hc, hkc⟩ := (mem_linesOf keys).1 hk1
            rcases List.mem_append.1 hc with hc | hc
            · refine hka (ho c a b ?_ m k k' hm hkc (by simpa using hkb) hk' hp hmk')
              have h1 : List.Sublist [c] pre := List.singleton_sublist.2 hc
              have h2 : List.Sublist [b] post := List.singleton_sublist.2 hb
              exact h1.append (h2.cons_cons a)
            · simp only [List.mem_singleton] at hc
              exact hka (hc ▸ hkc)
        · rw [if_neg hp]
          exact Or.inl rfl
      · refine ⟨k', (mem_linesOf keys).2 ⟨a, by simp, hk'⟩, ?_⟩
        rw [if_pos hmk', List.filter_append, first_append, first_none (l := pre.filter _) (fun o ho => hpre o (List.mem_filter.1 ho).1), Option.none_or]
        simp [first, hk', ha]

end

/-! ### The list of alternatives -/

section

variable {cs : Casing} {keys : E → List Key} {run : E → Option R} {t : List Char}

/-- Trying something first. -/
def orElse (x : Option R) (y : Except PyErr (Option R)) : Except PyErr (Option R) :=
  match x with
  | some r => .ok (some r)
  | none => y

theorem choose_ones (out : List E) (r : List (Alt E)) : choose cs run t (out.map .one ++ r) = orElse (first run out) (choose cs run t r) := by
  induction out with
  | nil => rfl
  | cons o out ih =>
    simp only [List.map_cons, List.cons_append, choose]
    cases h : run o with
    | some x => simp [first, h, orElse]
    | none =>
      simp only [ih]
      simp [first, h]

theorem choose_flush {out : List E} (hk : ∀ o ∈ out, Keyed cs keys run t o) (hx : ∀ o ∈ out, keys o ≠ []) (ho : Ordered keys out) (r : List (Alt E)) :
    choose cs run t (flush (out.map (expectingOf keys)) out ++ r) = orElse (first run out) (choose cs run t r) := by
  unfold flush
  cases h : table (out.map (expectingOf keys)) with
  | error e => exact choose_ones out r
  | ok f =>
    simp only [List.singleton_append, choose]
    rw [Fast.parse_eq hk hx ho h]
    cases first run out <;> rfl

theorem expecting_isEmpty (o : E) : (expectingOf keys o).isEmpty = (keys o).isEmpty := by
  unfold expectingOf
  cases keys o <;> rfl

theorem choose_fasterFrom (exprs : List E) (hk : ∀ o ∈ exprs, Keyed cs keys run t o) :
    Ordered keys exprs → choose cs run t (fasterFrom (expectingOf keys) none exprs) = .ok (first run exprs) ∧
      ∀ out : List E, (∀ o ∈ out, Keyed cs keys run t o) → (∀ o ∈ out, keys o ≠ []) → Ordered keys (out ++ exprs) →
        choose cs run t (fasterFrom (expectingOf keys) (some (out.map (expectingOf keys), out)) exprs) = .ok (first run (out ++ exprs)) := by
  induction exprs with
  | nil =>
    intro _
    refine ⟨rfl, ?_⟩
    intro out ho hx hor
    rw [fasterFrom]
    rw [List.append_nil] at hor
    have := choose_flush ho hx hor []
    rw [List.append_nil] at this
    rw [this, List.append_nil]
    cases first run out <;> rfl
  | cons o r ih =>
    intro hor
    have hr : Ordered keys r := hor.sublist (List.sublist_cons_self o r)
    obtain ⟨i1, i2⟩ := ih (fun o ho => hk o (by simp [ho])) hr
    have hone : ∀ x : List (Alt E), choose cs run t (.one o :: x) = orElse (run o) (choose cs run t x) := by
      intro x
      rw [choose]
      cases run o <;> rfl
    have hfirst : ∀ l : List E, first run (o :: l) = (run o).or (first run l) := by
      intro l
      unfold first
      rw [List.findSome?_cons]
      cases run o <;> rfl
    constructor
    · rw [fasterFrom, expecting_isEmpty]
      by_cases he : (keys o).isEmpty = true
      · rw [if_pos he, hone, i1, hfirst]
        cases run o <;> rfl
      · rw [if_neg he]
        have := i2 [o] (by simpa using hk o (by simp)) (by
          intro o' ho'
          simp only [List.mem_singleton] at ho'
          subst ho'
          exact fun e => he (by rw [e]; rfl)) hor
        exact this
    · intro out ho hx hor'
      rw [fasterFrom, expecting_isEmpty]
      by_cases he : (keys o).isEmpty = true
      · rw [if_pos he, choose_flush ho hx (hor'.sublist (List.sublist_append_left out (o :: r))), hone, i1, first_append, hfirst]
        cases first run out <;> cases run o <;> rfl
      · rw [if_neg he]
        have := i2 (out ++ [o]) (by
          intro o' ho'
          rcases List.mem_append.1 ho' with h | h
          · exact ho o' h
          · simp only [List.mem_singleton] at h
            subst h
            exact hk o' (by simp)) (by
          intro o' ho'
          rcases List.mem_append.1 ho' with h | h
          · exact hx o' h
          · simp only [List.mem_singleton] at h
            subst h
            exact fun e => he (by rw [e]; rfl)) (by rw [List.append_assoc]; exact hor')
        rw [List.map_append, List.append_assoc] at this
        exact this

/-- **C89.**  A list of alternatives of any length, of which any may be put into tables: what `MatchFirst` answers with the tables is what the first
of the alternatives that succeeds answers, if the keys keep the order. -/
theorem C89_first_partial (exprs : List E) (hk : ∀ o ∈ exprs, Keyed cs keys run t o) (ho : Ordered keys exprs) :
    choose cs run t (faster (expectingOf keys) exprs) = .ok (first run exprs) := by
  unfold faster
  split
  · have := choose_ones (cs := cs) (run := run) (t := t) exprs []
    rw [List.append_nil] at this
    rw [this]
    cases first run exprs <;> rfl
  · exact (choose_fasterFrom exprs hk ho).2 [] (by simp) (by simp) ho

end

/-! ### The longest match -/

section

variable {cs : Casing} {keys : E → List Key} {run : E → Option Nat} {t : List Char}

/-- The pairs of an end and a parser that ends there. -/
def Ends (run : E → Option Nat) (exprs : List E) (l : List (Nat × E)) : Prop := ∀ n o, (n, o) ∈ l ↔ o ∈ exprs ∧ run o = some n

theorem Ends.append {a b : List E} {l l' : List (Nat × E)} (h : Ends run a l) (h' : Ends run b l') : Ends run (a ++ b) (l ++ l') := by
  intro n o
  rw [List.mem_append, h, h', List.mem_append, or_and_right]

theorem Ends.one (o : E) : Ends run [o] (match run o with | some n => [(n, o)] | none => []) := by
  intro n o'
  cases h : run o with
  | none =>
    simp only [List.not_mem_nil, List.mem_singleton, false_iff, not_and]
    rintro rfl
    rw [h]; simp
  | some m =>
    simp only [List.mem_singleton, Prod.mk.injEq]
    constructor
    · rintro ⟨rfl, rfl⟩
      exact ⟨rfl, h⟩
    · rintro ⟨rfl, e⟩
      rw [h] at e
      cases e
      exact ⟨rfl, rfl⟩

theorem ends_ones (out : List E) {exprs : List E} {r : List (Alt E)} {l : List (Nat × E)} (hr : ends cs run t r = .ok l) (hl : Ends run exprs l) :
    ∃ l', ends cs run t (out.map .one ++ r) = .ok l' ∧ Ends run (out ++ exprs) l' := by
  induction out with
  | nil => exact ⟨l, hr, hl⟩
  | cons o out ih =>
    obtain ⟨l', e, h⟩ := ih
    refine ⟨_, by rw [List.map_cons, List.cons_append, ends, e], ?_⟩
    exact (Ends.one o).append h

theorem ends_flush {out exprs : List E} (hk : ∀ o ∈ out, Keyed cs keys run t o) (hx : ∀ o ∈ out, keys o ≠ []) {r : List (Alt E)} {l : List (Nat × E)}
    (hr : ends cs run t r = .ok l) (hl : Ends run exprs l) :
    ∃ l', ends cs run t (flush (out.map (expectingOf keys)) out ++ r) = .ok l' ∧ Ends run (out ++ exprs) l' := by
  unfold flush
  cases h : table (out.map (expectingOf keys)) with
  | error e => exact ends_ones out hr hl
  | ok f =>
    obtain ⟨es, e, hin, hall, _⟩ := shortList_all hk hx h
    refine ⟨_, by rw [List.singleton_append, ends, e, hr], ?_⟩
    refine Ends.append ?_ hl
    intro n o
    rw [List.mem_filterMap]
    constructor
    · rintro ⟨o', ho', e'⟩
      cases hr : run o' with
      | none => rw [hr] at e'; cases e'
      | some m =>
        rw [hr] at e'
        cases e'
        exact ⟨hin _ ho', hr⟩
    · rintro ⟨ho, e'⟩
      exact ⟨o, hall o ho (by rw [e']; simp), by rw [e']; rfl⟩

theorem ends_fasterFrom (exprs : List E) (hk : ∀ o ∈ exprs, Keyed cs keys run t o) :
    (∃ l, ends cs run t (fasterFrom (expectingOf keys) none exprs) = .ok l ∧ Ends run exprs l) ∧
      ∀ out : List E, (∀ o ∈ out, Keyed cs keys run t o) → (∀ o ∈ out, keys o ≠ []) →
        ∃ l, ends cs run t (fasterFrom (expectingOf keys) (some (out.map (expectingOf keys), out)) exprs) = .ok l ∧ Ends run (out ++ exprs) l := by
  have hnil : Ends run ([] : List E) [] := by
    intro n o
    simp
  induction exprs with
  | nil =>
    refine ⟨⟨[], rfl, hnil⟩, ?_⟩
    intro out ho hx
    rw [fasterFrom]
    have := ends_flush ho hx (r := []) (l := []) rfl hnil
    rw [List.append_nil] at this
    exact this
  | cons o r ih =>
    obtain ⟨⟨l, e, hl⟩, i2⟩ := ih fun o ho => hk o (by simp [ho])
    have hone : ends cs run t (.one o :: fasterFrom (expectingOf keys) none r) = .ok ((match run o with | some n => [(n, o)] | none => []) ++ l) := by
      rw [ends, e]
      cases run o <;> rfl
    have hE : Ends run (o :: r) ((match run o with | some n => [(n, o)] | none => []) ++ l) := (Ends.one o).append hl
    constructor
    · rw [fasterFrom, expecting_isEmpty]
      by_cases he : (keys o).isEmpty = true
      · rw [if_pos he]
        exact ⟨_, hone, hE⟩
      · rw [if_neg he]
        exact i2 [o] (by simpa using hk o (by simp)) (by
          intro o' ho'
          simp only [List.mem_singleton] at ho'
          subst ho'
          exact fun e => he (by rw [e]; rfl))
    · intro out ho hx
      rw [fasterFrom, expecting_isEmpty]
      by_cases he : (keys o).isEmpty = true
      · rw [if_pos he]
        exact ends_flush ho hx hone hE
      · rw [if_neg he]
        have := i2 (out ++ [o]) (by
          intro o' ho'
          rcases List.mem_append.1 ho' with h | h
          · exact ho o' h
          · simp only [List.mem_singleton] at h
            subst h
            exact hk o' (by simp)) (by
          intro o' ho'
          rcases List.mem_append.1 ho' with h | h
          · exact hx o' h
          · simp only [List.mem_singleton] at h
            subst h
            exact fun e => he (by rw [e]; rfl))
        rw [List.map_append, List.append_assoc] at this
        exact this

/-- The ends of the parsers that succeed, tried one after the other. -/
def endsOf (run : E → Option Nat) (exprs : List E) : List Nat := exprs.filterMap run

/-- **C89, the longest.**  The longest match that `Or` finds with the tables is the longest of all the alternatives, whatever their order. -/
theorem C89_longest_partial (exprs : List E) (hk : ∀ o ∈ exprs, Keyed cs keys run t o) :
    ∃ l, ends cs run t (faster (expectingOf keys) exprs) = .ok l ∧ (∀ n o, (n, o) ∈ l ↔ o ∈ exprs ∧ run o = some n) ∧
      longest l = maxOf (endsOf run exprs) := by
  have key : ∃ l, ends cs run t (faster (expectingOf keys) exprs) = .ok l ∧ Ends run exprs l := by
    unfold faster
    split
    · have := ends_ones (cs := cs) (t := t) exprs (r := []) (l := []) (exprs := []) (run := run) rfl (by intro n o; simp)
      rw [List.append_nil, List.append_nil] at this
      exact this
    · exact (ends_fasterFrom exprs hk).2 [] (by simp) (by simp)
  obtain ⟨l, e, h⟩ := key
  refine ⟨l, e, h, ?_⟩
  unfold longest
  apply maxOf_congr
  intro n
  unfold endsOf
  rw [List.mem_map, List.mem_filterMap]
  constructor
  · rintro ⟨⟨m, o⟩, hm, rfl⟩
    exact ⟨o, (h m o).1 hm⟩
  · rintro ⟨o, ho, hr⟩
    exact ⟨(n, o), (h n o).2 ⟨ho, hr⟩, rfl⟩

end

end EulerDB.Choice
