/-
`make_tree` reads every expression that is grouped by the operator table: if in a tree
every operand was built by an earlier entry of the table than its operator (for the left
operand: not a later one), then the flat run of the tree is read back as that tree.
-/
import Verif.Parse.Tree
import Mathlib.Tactic.IntervalCases

namespace EulerDB.Parse

/-- The entry `l` is about the element `i`. -/
def Lev.has : Lev → Item → Bool
  | .bin os, .bin o => os.contains o
  | .pre p, .pre q => p == q
  | .btw n, .btw m => n == m
  | _, _ => false

/-- Position in the table of the entry for an element (27 for operands). -/
def ix (i : Item) : Nat := table.findIdx (·.has i)

/-- How late the root of a tree is built; 0 for operands. -/
def lv : T → Nat
  | .bin o _ _ => ix (.bin o) + 1
  | .un p _ => ix (.pre p) + 1
  | .btw n _ _ _ => ix (.btw n) + 1
  | _ => 0

/-- Grouped by the table. -/
def WL : T → Prop
  | .atom _ => True
  | .bin o l r => WL l ∧ WL r ∧ lv l ≤ ix (.bin o) + 1 ∧ lv r ≤ ix (.bin o)
  | .un p e => WL e ∧ lv e ≤ ix (.pre p) + 1
  | .btw n a b c =>
    WL a ∧ WL b ∧ WL c ∧ lv a ≤ ix (.btw n) + 1 ∧ lv b ≤ ix (.btw n) ∧ lv c ≤ ix (.btw n)
  | _ => False

/-- The flat run of a tree in which all that belongs to the first `k` entries has been
built already. -/
def cut (k : Nat) : T → List Item
  | .bin o l r =>
    if ix (.bin o) < k then [.val (.bin o l r)] else cut k l ++ .bin o :: cut k r
  | .un p e => if ix (.pre p) < k then [.val (.un p e)] else .pre p :: cut k e
  | .btw n a b c =>
    if ix (.btw n) < k then [.val (.btw n a b c)]
    else cut k a ++ .btw n :: (cut k b ++ .bin .and :: cut k c)
  | t => [.val t]

/-- The flat run of a tree. -/
def flat (e : T) : List Item := cut 0 e

/-! ### The operator table -/

theorem ix_lt_bin (o : Bop) : ix (.bin o) < 27 := by cases o <;> decide
theorem ix_lt_pre (p : Pre) : ix (.pre p) < 27 := by cases p <;> decide
theorem ix_lt_btw (n : Bool) : ix (.btw n) < 27 := by cases n <;> decide
theorem ix_val (t : T) : ix (.val t) = 27 := by
  simp [ix, table, List.findIdx_cons, Lev.has]
theorem ix_btw_and (n : Bool) : ix (.btw n) < ix (.bin .and) := by cases n <;> decide

theorem ix_cases (k : Nat) (hk : k < 27) :
    (∃ os, table[k]? = some (.bin os) ∧ (∀ o, o ∈ os ↔ ix (.bin o) = k) ∧
      (∀ p, ix (.pre p) ≠ k) ∧ (∀ n, ix (.btw n) ≠ k)) ∨
    (∃ p, table[k]? = some (.pre p) ∧ (∀ o, ix (.bin o) ≠ k) ∧ (∀ q, ix (.pre q) = k ↔ q = p) ∧
      (∀ n, ix (.btw n) ≠ k)) ∨
    (∃ n, table[k]? = some (.btw n) ∧ (∀ o, ix (.bin o) ≠ k) ∧ (∀ p, ix (.pre p) ≠ k) ∧
      (∀ m, ix (.btw m) = k ↔ m = n)) := by
  have hb : ∀ n : Bool, n = false ∨ n = true := by decide
  interval_cases k <;>
  first
  | (left
     refine ⟨_, rfl, fun o => ?_, fun p => ?_, fun n => ?_⟩
     · cases o <;> decide
     · cases p <;> decide
     · cases n <;> decide)
  | (right; left
     refine ⟨_, rfl, fun o => ?_, fun p => ?_, fun n => ?_⟩
     · cases o <;> decide
     · cases p <;> decide
     · cases n <;> decide)
  | (right; right
     refine ⟨_, rfl, fun o => ?_, fun p => ?_, fun n => ?_⟩
     · cases o <;> decide
     · cases p <;> decide
     · cases n <;> decide)

/-! ### Only entries from `k` on are left -/

/-- No operator of the first `k` entries is left. -/
def From (k : Nat) (t : List Item) : Prop := ∀ i ∈ t, k ≤ ix i

theorem has_ix {l : Lev} {i : Item} {j : Nat} (hl : table[j]? = some l) (h : l.has i = true) :
    ix i ≤ j := by
  unfold ix
  by_contra hc
  have hj : j < table.length := by
    rw [List.getElem?_eq_some_iff] at hl; exact hl.1
  have := List.not_of_lt_findIdx (p := (·.has i)) (xs := table) (i := j) (by omega)
  rw [List.getElem?_eq_some_iff] at hl
  obtain ⟨_, rfl⟩ := hl
  simp [h] at this

theorem redBin_none {os : List Bop} : ∀ {t : List Item}, (∀ o ∈ os, Item.bin o ∉ t) →
    redBin os t = none
  | [], _ => rfl
  | [_], _ => rfl
  | [_, _], _ => by simp [redBin]
  | x :: k :: y :: r, h => by
    have ih := redBin_none (os := os) (t := k :: y :: r) fun o ho hm => h o ho (by simp_all)
    cases k with
    | bin o =>
      have : o ∉ os := fun ho => h o ho (by simp)
      simp only [redBin, this, if_false, ih, Option.map_none]
    | val v => simp only [redBin, ih, Option.map_none]
    | pre v => simp only [redBin, ih, Option.map_none]
    | btw v => simp only [redBin, ih, Option.map_none]

theorem redPre_none {p : Pre} : ∀ {t : List Item}, Item.pre p ∉ t → redPre p t = none
  | [], _ => rfl
  | [_], _ => rfl
  | x :: y :: r, h => by
    have ih := redPre_none (p := p) (t := y :: r) (by simp_all)
    have : x ≠ .pre p := fun hx => h (by simp [hx])
    simp [redPre, ih, this]

theorem redBtw_none {n : Bool} : ∀ {t : List Item}, Item.btw n ∉ t → redBtw n t = none
  | [], _ => rfl
  | [_], _ => rfl
  | [_, _], _ => rfl
  | [_, _, _], _ => rfl
  | [_, _, _, _], _ => rfl
  | x :: k :: y :: a :: z :: r, h => by
    have ih := redBtw_none (n := n) (t := k :: y :: a :: z :: r) (by simp_all)
    have : k ≠ .btw n := fun hx => h (by simp [hx])
    simp [redBtw, ih, this]

theorem red_none {l : Lev} {t : List Item} (h : ∀ i ∈ t, l.has i = false) : red l t = none := by
  cases l with
  | bin os =>
    refine redBin_none fun o ho hm => ?_
    have := h _ hm
    simp [Lev.has, ho] at this
  | pre p =>
    refine redPre_none fun hm => ?_
    have := h _ hm
    simp [Lev.has] at this
  | btw n =>
    refine redBtw_none fun hm => ?_
    have := h _ hm
    simp [Lev.has] at this

/-- With only entries from `k` on left, a round uses entry `k` if it applies. -/
theorem step_from {k : Nat} {l : Lev} {t t' : List Item} (hl : table[k]? = some l)
    (hf : From k t) (h : red l t = some t') : step t = some t' := by
  have hk : k < table.length := by
    rw [List.getElem?_eq_some_iff] at hl; exact hl.1
  have hsplit : table = table.take k ++ l :: table.drop (k + 1) := by
    rw [List.getElem?_eq_some_iff] at hl
    obtain ⟨_, rfl⟩ := hl
    rw [← List.drop_eq_getElem_cons hk, List.take_append_drop]
  unfold step
  rw [hsplit, List.findSome?_append]
  have hnone : (table.take k).findSome? (fun l => red l t) = none := by
    rw [List.findSome?_eq_none_iff]
    intro l' hl'
    apply red_none
    intro i hi
    by_contra hc
    obtain ⟨j, hj⟩ := List.getElem?_of_mem hl'
    have hjk : j < k := by
      have := (List.getElem?_eq_some_iff.mp hj).1
      simp at this; omega
    rw [List.getElem?_take_of_lt hjk] at hj
    have := has_ix hj (i := i) (by simpa using hc)
    have := hf i hi
    omega
  rw [hnone]
  simp [List.findSome?, h]

/-! Rounds do not bring in operators. -/

theorem redBin_from {os : List Bop} {P : Item → Prop} (hv : ∀ v, P (.val v)) :
    ∀ {t t' : List Item}, redBin os t = some t' → (∀ i ∈ t, P i) → ∀ i ∈ t', P i
  | [], _, h, _ => by simp [redBin] at h
  | [_], _, h, _ => by simp [redBin] at h
  | [_, _], _, h, _ => by simp [redBin] at h
  | x :: k :: y :: r, t', h, hp => by
    have key : (redBin os (k :: y :: r)).map (x :: ·) = some t' → ∀ i ∈ t', P i := by
      intro hz
      cases hr : redBin os (k :: y :: r) with
      | none => simp [hr] at hz
      | some w =>
        simp only [hr, Option.map_some, Option.some.injEq] at hz
        have := redBin_from hv hr (fun i hi => hp i (List.mem_cons_of_mem _ hi))
        subst hz
        intro i hi
        rcases List.mem_cons.mp hi with rfl | hi
        · exact hp _ (by simp)
        · exact this i hi
    cases k with
    | bin o =>
      simp only [redBin] at h
      split at h
      · injection h with h; subst h
        intro i hi
        rcases List.mem_cons.mp hi with rfl | hi
        · exact hv _
        · exact hp i (by simp [hi])
      · exact key h
    | val v => exact key (by simpa [redBin] using h)
    | pre v => exact key (by simpa [redBin] using h)
    | btw v => exact key (by simpa [redBin] using h)

theorem redPre_from {p : Pre} {P : Item → Prop} (hv : ∀ v, P (.val v)) :
    ∀ {t t' : List Item}, redPre p t = some t' → (∀ i ∈ t, P i) → ∀ i ∈ t', P i
  | [], _, h, _ => by simp [redPre] at h
  | [_], _, h, _ => by simp [redPre] at h
  | x :: y :: r, t', h, hp => by
    simp only [redPre] at h
    split at h
    · rename_i r' hr
      have := redPre_from hv hr (fun i hi => hp i (List.mem_cons_of_mem _ hi))
      injection h with h; subst h
      intro i hi
      rcases List.mem_cons.mp hi with rfl | hi
      · exact hp _ (by simp)
      · exact this i hi
    · split at h
      · injection h with h; subst h
        intro i hi
        rcases List.mem_cons.mp hi with rfl | hi
        · exact hv _
        · exact hp i (by simp [hi])
      · cases h

theorem redBtw_from {n : Bool} {P : Item → Prop} (hv : ∀ v, P (.val v)) :
    ∀ {t t' : List Item}, redBtw n t = some t' → (∀ i ∈ t, P i) → ∀ i ∈ t', P i
  | [], _, h, _ => by simp [redBtw] at h
  | [_], _, h, _ => by simp [redBtw] at h
  | [_, _], _, h, _ => by simp [redBtw] at h
  | [_, _, _], _, h, _ => by simp [redBtw] at h
  | [_, _, _, _], _, h, _ => by simp [redBtw] at h
  | x :: k :: y :: a :: z :: r, t', h, hp => by
    simp only [redBtw] at h
    split at h
    · injection h with h; subst h
      intro i hi
      rcases List.mem_cons.mp hi with rfl | hi
      · exact hv _
      · exact hp i (by simp [hi])
    · cases hr : redBtw n (k :: y :: a :: z :: r) with
      | none => simp [hr] at h
      | some w =>
        simp only [hr, Option.map_some, Option.some.injEq] at h
        have := redBtw_from hv hr (fun i hi => hp i (List.mem_cons_of_mem _ hi))
        subst h
        intro i hi
        rcases List.mem_cons.mp hi with rfl | hi
        · exact hp _ (by simp)
        · exact this i hi

theorem red_from {l : Lev} {P : Item → Prop} (hv : ∀ v, P (.val v)) {t t' : List Item}
    (h : red l t = some t') (hp : ∀ i ∈ t, P i) : ∀ i ∈ t', P i := by
  cases l with
  | bin os => exact redBin_from hv h hp
  | pre p => exact redPre_from hv h hp
  | btw n => exact redBtw_from hv h hp

theorem from_val {k : Nat} (hk : k ≤ 27) (v : T) : k ≤ ix (.val v) := by rw [ix_val]; exact hk

/-! ### All rounds of one entry -/

/-- All rounds of an entry of infix operators. -/
def bst (os : List Bop) : List Item → List Item
  | x :: .bin o :: y :: r =>
    if o ∈ os then bst os (.val (.bin o x.tree y.tree) :: r) else x :: bst os (.bin o :: y :: r)
  | x :: k :: y :: r => x :: bst os (k :: y :: r)
  | t => t
termination_by t => t.length

theorem bst_skip {os : List Bop} {x y : Item} (r : List Item) (h : ∀ o ∈ os, y ≠ .bin o) :
    bst os (x :: y :: r) = x :: bst os (y :: r) := by
  cases r with
  | nil => simp [bst]
  | cons z r =>
    cases y with
    | bin o =>
      have : o ∉ os := fun ho => h o ho rfl
      rw [bst]; simp [this]
    | val v => rw [bst]; simp
    | pre v => rw [bst]; simp
    | btw v => rw [bst]; simp

theorem bst_hit {os : List Bop} {x y : Item} {o : Bop} (r : List Item) (h : o ∈ os) :
    bst os (x :: .bin o :: y :: r) = bst os (.val (.bin o x.tree y.tree) :: r) := by
  rw [bst]; simp [h]

theorem redBin_skip {os : List Bop} {x y : Item} (r : List Item) (h : ∀ o ∈ os, y ≠ .bin o) :
    redBin os (x :: y :: r) = (redBin os (y :: r)).map (x :: ·) := by
  cases r with
  | nil => simp [redBin]
  | cons z r =>
    cases y with
    | bin o =>
      have : o ∉ os := fun ho => h o ho rfl
      simp [redBin, this]
    | val v => simp [redBin]
    | pre v => simp [redBin]
    | btw v => simp [redBin]

theorem hit_or_skip (os : List Bop) (y : Item) :
    (∃ o ∈ os, y = .bin o) ∨ ∀ o ∈ os, y ≠ .bin o := by
  by_cases h : ∃ o ∈ os, y = .bin o
  · exact .inl h
  · exact .inr fun o ho hy => h ⟨o, ho, hy⟩

/-- The head stays, or becomes an operand. -/
theorem redBin_head {os : List Bop} {x : Item} {r t' : List Item}
    (h : redBin os (x :: r) = some t') : ∃ y s, t' = y :: s ∧ (y = x ∨ ∃ v, y = .val v) := by
  match r, h with
  | [], h => simp [redBin] at h
  | [k], h => simp [redBin] at h
  | k :: y :: r, h =>
    rcases hit_or_skip os k with ⟨o, ho, rfl⟩ | hs
    · simp only [redBin, ho, if_true, Option.some.injEq] at h
      exact ⟨_, _, h.symm, .inr ⟨_, rfl⟩⟩
    · rw [redBin_skip _ hs] at h
      cases hr : redBin os (k :: y :: r) with
      | none => simp [hr] at h
      | some w =>
        simp only [hr, Option.map_some, Option.some.injEq] at h
        exact ⟨_, _, h.symm, .inl rfl⟩

theorem bst_some {os : List Bop} : ∀ {t t' : List Item}, redBin os t = some t' →
    bst os t = bst os t'
  | [], _, h => by simp [redBin] at h
  | [_], _, h => by simp [redBin] at h
  | [_, _], _, h => by simp [redBin] at h
  | x :: k :: y :: r, t', h => by
    rcases hit_or_skip os k with ⟨o, ho, rfl⟩ | hs
    · simp only [redBin, ho, if_true, Option.some.injEq] at h
      rw [bst_hit _ ho, h]
    · rw [redBin_skip _ hs] at h
      cases hr : redBin os (k :: y :: r) with
      | none => simp [hr] at h
      | some w =>
        simp only [hr, Option.map_some, Option.some.injEq] at h
        have ih := bst_some hr
        subst h
        rw [bst_skip _ hs, ih]
        obtain ⟨y', s, rfl, hy⟩ := redBin_head hr
        rw [bst_skip]
        rcases hy with rfl | ⟨v, rfl⟩
        · exact hs
        · intro o _ hc; cases hc

theorem bst_none {os : List Bop} : ∀ {t : List Item}, redBin os t = none → bst os t = t
  | [], _ => by simp [bst]
  | [_], _ => by simp [bst]
  | [_, _], _ => by simp [bst]
  | x :: k :: y :: r, h => by
    rcases hit_or_skip os k with ⟨o, ho, rfl⟩ | hs
    · simp [redBin, ho] at h
    · rw [redBin_skip _ hs] at h
      rw [bst_skip _ hs, bst_none (t := k :: y :: r) (by simpa using h)]

/-- All rounds of an entry of a prefix operator. -/
def pst (p : Pre) : List Item → List Item
  | [] => []
  | x :: r =>
    match pst p r with
    | [] => [x]
    | y :: r' => if x = .pre p then .val (.un p y.tree) :: r' else x :: y :: r'

theorem pst_skip {p : Pre} {x : Item} (r : List Item) (h : x ≠ .pre p) :
    pst p (x :: r) = x :: pst p r := by
  simp only [pst]
  split
  · rename_i h'; rw [h']
  · rename_i h'; simp [h, h']

theorem pst_none {p : Pre} : ∀ {t : List Item}, redPre p t = none → pst p t = t
  | [], _ => rfl
  | [x], _ => by simp [pst]
  | x :: y :: r, h => by
    simp only [redPre] at h
    split at h
    · cases h
    · rename_i hr
      have ih := pst_none hr
      split at h
      · cases h
      · rename_i hx
        rw [pst_skip _ hx, ih]

theorem pst_some {p : Pre} : ∀ {t t' : List Item}, redPre p t = some t' → pst p t = pst p t'
  | [], _, h => by simp [redPre] at h
  | [_], _, h => by simp [redPre] at h
  | x :: y :: r, t', h => by
    simp only [redPre] at h
    split at h
    · rename_i r' hr
      have ih := pst_some hr
      injection h with h; subst h
      simp only [pst] at ih ⊢
      rw [ih]
    · rename_i hr
      split at h
      · rename_i hx
        injection h with h; subst h; subst hx
        have := pst_none hr
        rw [pst_skip (x := .val (.un p y.tree)) _ (by simp)]
        have hr2 : pst p r = r := by
          by_cases hy : y = .pre p
          · subst hy
            cases r with
            | nil => rfl
            | cons z r =>
              simp only [redPre] at hr
              split at hr
              · cases hr
              · simp at hr
          · rw [pst_skip _ hy] at this
            exact (List.cons.inj this).2
        rw [hr2, pst, this]
        simp
      · cases h

/-- All rounds of an entry of `BETWEEN`, when every `BETWEEN` has its `AND` two places
further. -/
def tst (n : Bool) : List Item → List Item
  | x :: k :: y :: a :: z :: r =>
    if k = .btw n then tst n (.val (.btw n x.tree y.tree z.tree) :: r)
    else x :: tst n (k :: y :: a :: z :: r)
  | t => t
termination_by t => t.length

/-- Every `BETWEEN` has its `AND` two places further and an element after it. -/
def Paired (n : Bool) : List Item → Prop
  | [] => True
  | k :: r => (k = .btw n → ∃ y z s, r = y :: .bin .and :: z :: s ∧ y ≠ .btw n ∧ z ≠ .btw n) ∧
      Paired n r

theorem tst_skip {n : Bool} {x k : Item} (r : List Item) (h : k ≠ .btw n) :
    tst n (x :: k :: r) = x :: tst n (k :: r) := by
  match r with
  | [] => simp [tst]
  | [_] => simp [tst]
  | [_, _] => simp [tst]
  | y :: a :: z :: r => rw [tst]; simp [h]

theorem tst_hit {n : Bool} {x y a z : Item} (r : List Item) :
    tst n (x :: .btw n :: y :: a :: z :: r) = tst n (.val (.btw n x.tree y.tree z.tree) :: r) := by
  rw [tst]; simp

theorem redBtw_skip {n : Bool} {x k : Item} (r : List Item) (h : k ≠ .btw n) :
    redBtw n (x :: k :: r) = (redBtw n (k :: r)).map (x :: ·) := by
  match r with
  | [] => simp [redBtw]
  | [_] => simp [redBtw]
  | [_, _] => simp [redBtw]
  | y :: a :: z :: r => simp [redBtw, h]

theorem redBtw_head {n : Bool} {x : Item} {r t' : List Item}
    (h : redBtw n (x :: r) = some t') : ∃ y s, t' = y :: s ∧ (y = x ∨ ∃ v, y = .val v) := by
  match r, h with
  | [], h => simp [redBtw] at h
  | [_], h => simp [redBtw] at h
  | [_, _], h => simp [redBtw] at h
  | [_, _, _], h => simp [redBtw] at h
  | k :: y :: a :: z :: r, h =>
    simp only [redBtw] at h
    split at h
    · injection h with h
      exact ⟨_, _, h.symm, .inr ⟨_, rfl⟩⟩
    · cases hr : redBtw n (k :: y :: a :: z :: r) with
      | none => simp [hr] at h
      | some w =>
        simp only [hr, Option.map_some, Option.some.injEq] at h
        exact ⟨_, _, h.symm, .inl rfl⟩

theorem tst_none {n : Bool} : ∀ {t : List Item}, Paired n t → redBtw n t = none → tst n t = t
  | [], _, _ => by simp [tst]
  | [_], _, _ => by simp [tst]
  | x :: k :: r, hp, h => by
    by_cases hk : k = .btw n
    · subst hk
      obtain ⟨y, z, s, rfl, -, -⟩ := hp.2.1 rfl
      simp [redBtw] at h
    · rw [redBtw_skip _ hk] at h
      rw [tst_skip _ hk, tst_none hp.2 (by simpa using h)]

theorem tst_some {n : Bool} : ∀ {t t' : List Item}, Paired n t → redBtw n t = some t' →
    Paired n t' ∧ tst n t = tst n t'
  | [], _, _, h => by simp [redBtw] at h
  | [_], _, _, h => by simp [redBtw] at h
  | x :: k :: r, t', hp, h => by
    by_cases hk : k = .btw n
    · subst hk
      obtain ⟨y, z, s, rfl, -, -⟩ := hp.2.1 rfl
      simp only [redBtw, and_self, if_true, Option.some.injEq] at h
      subst h
      refine ⟨⟨by simp, hp.2.2.2.2.2⟩, ?_⟩
      rw [tst_hit]
    · rw [redBtw_skip _ hk] at h
      cases hr : redBtw n (k :: r) with
      | none => simp [hr] at h
      | some w =>
        simp only [hr, Option.map_some, Option.some.injEq] at h
        obtain ⟨ih1, ih2⟩ := tst_some hp.2 hr
        subst h
        obtain ⟨y', s', rfl, hy⟩ := redBtw_head hr
        have hy' : y' ≠ .btw n := by
          rcases hy with rfl | ⟨v, rfl⟩
          · exact hk
          · simp
        refine ⟨⟨?_, ih1⟩, ?_⟩
        · intro hx
          obtain ⟨y, z, s, hr', hy2, hz⟩ := hp.1 hx
          obtain ⟨rfl, rfl⟩ := List.cons.inj hr'
          rw [redBtw_skip _ (by simp)] at hr
          cases hr2 : redBtw n (.bin .and :: z :: s) with
          | none => simp [hr2] at hr
          | some w =>
            rw [hr2] at hr
            simp only [Option.map_some, Option.some.injEq] at hr
            obtain ⟨rfl, rfl⟩ := List.cons.inj hr
            rw [redBtw_skip _ hz] at hr2
            cases hr3 : redBtw n (z :: s) with
            | none => simp [hr3] at hr2
            | some w' =>
              rw [hr3] at hr2
              simp only [Option.map_some, Option.some.injEq] at hr2
              obtain ⟨z', s2, rfl, hz'⟩ := redBtw_head hr3
              refine ⟨k, z', s2, by rw [hr2], hy2, ?_⟩
              rcases hz' with rfl | ⟨v, rfl⟩
              · exact hz
              · simp
        · rw [tst_skip _ hk, ih2, tst_skip _ hy']

theorem reach_bin {k : Nat} {os : List Bop} (hk : table[k]? = some (.bin os)) (hk27 : k ≤ 27) :
    ∀ {t : List Item}, From k t → Reach t (bst os t) := by
  intro t
  induction hn : t.length using Nat.strong_induction_on generalizing t with
  | _ n ih =>
    intro hf
    cases hr : redBin os t with
    | none => rw [bst_none hr]; exact .refl t
    | some t' =>
      rw [bst_some hr]
      have hl := redBin_length os t t' hr
      exact .head (step_from hk hf hr) (ih t'.length (by omega) rfl
        (redBin_from (P := fun i => k ≤ ix i) (from_val hk27) hr hf))

theorem reach_pre {k : Nat} {p : Pre} (hk : table[k]? = some (.pre p)) (hk27 : k ≤ 27) :
    ∀ {t : List Item}, From k t → Reach t (pst p t) := by
  intro t
  induction hn : t.length using Nat.strong_induction_on generalizing t with
  | _ n ih =>
    intro hf
    cases hr : redPre p t with
    | none => rw [pst_none hr]; exact .refl t
    | some t' =>
      rw [pst_some hr]
      have hl := redPre_length p t t' hr
      exact .head (step_from hk hf hr) (ih t'.length (by omega) rfl
        (redPre_from (P := fun i => k ≤ ix i) (from_val hk27) hr hf))

theorem reach_btw {k : Nat} {m : Bool} (hk : table[k]? = some (.btw m)) (hk27 : k ≤ 27) :
    ∀ {t : List Item}, From k t → Paired m t → Reach t (tst m t) := by
  intro t
  induction hn : t.length using Nat.strong_induction_on generalizing t with
  | _ n ih =>
    intro hf hp
    cases hr : redBtw m t with
    | none => rw [tst_none hp hr]; exact .refl t
    | some t' =>
      obtain ⟨hp', he⟩ := tst_some hp hr
      rw [he]
      have hl := redBtw_length m t t' hr
      exact .head (step_from hk hf hr) (ih t'.length (by omega) rfl
        (redBtw_from (P := fun i => k ≤ ix i) (from_val hk27) hr hf) hp')

/-! ### From one entry to the next -/

theorem cut_lv {k : Nat} {e : T} (h : lv e ≤ k) : cut k e = [.val e] := by
  cases e with
  | bin o l r => simp only [lv] at h; simp only [cut]; rw [if_pos (by omega)]
  | un p e => simp only [lv] at h; simp only [cut]; rw [if_pos (by omega)]
  | btw n a b c => simp only [lv] at h; simp only [cut]; rw [if_pos (by omega)]
  | atom s => rfl
  | bopTok o => rfl
  | preTok o => rfl
  | btwTok o => rfl

/-- A run starts with an operand or a prefix operator. -/
def Start (i : Item) : Prop := (∀ o, i ≠ .bin o) ∧ ∀ n, i ≠ .btw n

theorem start_val (t : T) : Start (.val t) := ⟨by simp, by simp⟩
theorem start_pre (p : Pre) : Start (.pre p) := ⟨by simp, by simp⟩

theorem cut_head (k : Nat) : ∀ e : T, ∃ y ys, cut k e = y :: ys ∧ Start y
  | .bin o l r => by
    simp only [cut]
    split
    · exact ⟨_, _, rfl, start_val _⟩
    · obtain ⟨y, ys, h, hs⟩ := cut_head k l
      exact ⟨y, _, by rw [h]; rfl, hs⟩
  | .un p e => by
    simp only [cut]
    split
    · exact ⟨_, _, rfl, start_val _⟩
    · exact ⟨_, _, rfl, start_pre _⟩
  | .btw n a b c => by
    simp only [cut]
    split
    · exact ⟨_, _, rfl, start_val _⟩
    · obtain ⟨y, ys, h, hs⟩ := cut_head k a
      exact ⟨y, _, by rw [h]; rfl, hs⟩
  | .atom _ => ⟨_, _, rfl, start_val _⟩
  | .bopTok _ => ⟨_, _, rfl, start_val _⟩
  | .preTok _ => ⟨_, _, rfl, start_val _⟩
  | .btwTok _ => ⟨_, _, rfl, start_val _⟩

theorem from_cut {k : Nat} (hk : k ≤ 27) : ∀ e : T, From k (cut k e)
  | .bin o l r => by
    simp only [cut]
    split
    · intro i hi; simp at hi; subst hi; exact from_val hk _
    · intro i hi
      simp only [List.mem_append, List.mem_cons] at hi
      rcases hi with hi | rfl | hi
      · exact from_cut hk l i hi
      · omega
      · exact from_cut hk r i hi
  | .un p e => by
    simp only [cut]
    split
    · intro i hi; simp at hi; subst hi; exact from_val hk _
    · intro i hi
      simp only [List.mem_cons] at hi
      rcases hi with rfl | hi
      · omega
      · exact from_cut hk e i hi
  | .btw n a b c => by
    simp only [cut]
    split
    · intro i hi; simp at hi; subst hi; exact from_val hk _
    · have := ix_btw_and n
      intro i hi
      simp only [List.mem_append, List.mem_cons] at hi
      rcases hi with hi | rfl | hi | rfl | hi
      · exact from_cut hk a i hi
      · omega
      · exact from_cut hk b i hi
      · omega
      · exact from_cut hk c i hi
  | .atom _ => by intro i hi; simp [cut] at hi; subst hi; exact from_val hk _
  | .bopTok _ => by intro i hi; simp [cut] at hi; subst hi; exact from_val hk _
  | .preTok _ => by intro i hi; simp [cut] at hi; subst hi; exact from_val hk _
  | .btwTok _ => by intro i hi; simp [cut] at hi; subst hi; exact from_val hk _

/-- What may follow a run: nothing, or an infix operator of a later entry and the start
of another run. -/
inductive Rest (k : Nat) : List Item → Prop
  | nil : Rest k []
  | cons {i y r} : k < ix i → Start y → Rest k (i :: y :: r)

theorem bst_val {k : Nat} {os : List Bop} (ho : ∀ o, o ∈ os ↔ ix (.bin o) = k) {v : T}
    {rest : List Item} (hr : Rest k rest) : bst os (.val v :: rest) = .val v :: bst os rest := by
  cases hr with
  | nil => simp [bst]
  | cons hi hy =>
    rw [bst_skip]
    intro o hm hc
    subst hc
    have := (ho o).mp hm
    omega

theorem bst_op {k : Nat} {os : List Bop} {i y : Item} (r : List Item) (hy : Start y) :
    bst os (i :: y :: r) = i :: bst os (y :: r) :=
  bst_skip r fun o _ hc => hy.1 o hc

theorem bst_low {k : Nat} {os : List Bop} (ho : ∀ o, o ∈ os ↔ ix (.bin o) = k)
    (hp : ∀ p, ix (.pre p) ≠ k) (hb : ∀ n, ix (.btw n) ≠ k) :
    ∀ (e : T), WL e → lv e ≤ k + 1 → ∀ rest, bst os (cut k e ++ rest) = bst os (.val e :: rest) := by
  intro e
  induction e with
  | bin o l r ihl _ =>
    intro hw hl rest
    obtain ⟨wl, wr, hl1, hl2⟩ := hw
    by_cases hk : ix (.bin o) < k
    · rw [cut_lv (by simp only [lv]; omega)]; rfl
    · simp only [lv] at hl
      have hk' : ix (.bin o) = k := by omega
      simp only [cut, if_neg hk]
      rw [cut_lv (e := r) (by omega)]
      simp only [List.append_assoc, List.cons_append, List.nil_append]
      rw [ihl wl (by omega), bst_hit _ ((ho o).mpr hk')]
      rfl
  | un p e _ =>
    intro _ hl rest
    simp only [lv] at hl
    have := hp p
    rw [cut_lv (by simp only [lv]; omega)]; rfl
  | btw n a b c _ _ _ =>
    intro _ hl rest
    simp only [lv] at hl
    have := hb n
    rw [cut_lv (by simp only [lv]; omega)]; rfl
  | atom s => intro _ _ _; rfl
  | bopTok o => intro hw; exact hw.elim
  | preTok o => intro hw; exact hw.elim
  | btwTok o => intro hw; exact hw.elim

theorem bst_cut {k : Nat} {os : List Bop} (ho : ∀ o, o ∈ os ↔ ix (.bin o) = k)
    (hp : ∀ p, ix (.pre p) ≠ k) (hb : ∀ n, ix (.btw n) ≠ k) :
    ∀ (e : T), WL e → ∀ rest, Rest k rest →
      bst os (cut k e ++ rest) = cut (k + 1) e ++ bst os rest := by
  have low : ∀ e, WL e → lv e ≤ k + 1 → ∀ rest, Rest k rest →
      bst os (cut k e ++ rest) = cut (k + 1) e ++ bst os rest := by
    intro e hw hl rest hr
    rw [bst_low ho hp hb e hw hl, bst_val ho hr, cut_lv hl]; rfl
  intro e
  induction e with
  | bin o l r ihl ihr =>
    intro hw rest hr
    by_cases hl : lv (.bin o l r) ≤ k + 1
    · exact low _ hw hl rest hr
    · obtain ⟨wl, wr, hl1, hl2⟩ := hw
      simp only [lv] at hl
      simp only [cut]
      rw [if_neg (by omega), if_neg (by omega)]
      obtain ⟨y, ys, hy, hs⟩ := cut_head k r
      simp only [List.append_assoc, List.cons_append]
      rw [ihl wl _ (by rw [hy]; exact .cons (by omega) hs)]
      have := ihr wr rest hr
      rw [hy] at this ⊢
      simp only [List.cons_append] at this ⊢
      rw [bst_op (k := k) _ hs, this]
  | un p e ih =>
    intro hw rest hr
    by_cases hl : lv (.un p e) ≤ k + 1
    · exact low _ hw hl rest hr
    · obtain ⟨we, hl1⟩ := hw
      simp only [lv] at hl
      simp only [cut]
      rw [if_neg (by omega), if_neg (by omega)]
      obtain ⟨y, ys, hy, hs⟩ := cut_head k e
      have := ih we rest hr
      rw [hy] at this ⊢
      simp only [List.cons_append] at this ⊢
      rw [bst_op (k := k) _ hs, this]
  | btw n a b c iha ihb ihc =>
    intro hw rest hr
    by_cases hl : lv (.btw n a b c) ≤ k + 1
    · exact low _ hw hl rest hr
    · obtain ⟨wa, wb, wc, hl1, hl2, hl3⟩ := hw
      simp only [lv] at hl
      simp only [cut]
      rw [if_neg (by omega), if_neg (by omega)]
      obtain ⟨y, ys, hy, hs⟩ := cut_head k b
      obtain ⟨z, zs, hz, hs'⟩ := cut_head k c
      have hand := ix_btw_and n
      simp only [List.append_assoc, List.cons_append]
      rw [iha wa _ (by rw [hy]; exact .cons (by omega) hs)]
      have h2 := ihb wb (.bin .and :: (cut k c ++ rest)) (by rw [hz]; exact .cons (by omega) hs')
      have h3 := ihc wc rest hr
      rw [hy] at h2 ⊢
      simp only [List.cons_append] at h2 ⊢
      rw [bst_op (k := k) _ hs, h2]
      rw [hz] at h3 ⊢
      simp only [List.cons_append] at h3 ⊢
      rw [bst_op (k := k) _ hs', h3]
  | atom s => intro hw rest hr; exact low _ hw (by simp [lv]) rest hr
  | bopTok o => intro hw; exact hw.elim
  | preTok o => intro hw; exact hw.elim
  | btwTok o => intro hw; exact hw.elim

theorem pst_cut {k : Nat} {p : Pre} (hb : ∀ o, ix (.bin o) ≠ k) (hp : ∀ q, ix (.pre q) = k ↔ q = p)
    (ht : ∀ n, ix (.btw n) ≠ k) :
    ∀ (e : T), WL e → ∀ rest, pst p (cut k e ++ rest) = cut (k + 1) e ++ pst p rest := by
  intro e
  induction e with
  | bin o l r ihl ihr =>
    intro hw rest
    obtain ⟨wl, wr, -, -⟩ := hw
    have := hb o
    simp only [cut]
    by_cases h : ix (.bin o) < k
    · rw [if_pos h, if_pos (by omega)]
      exact pst_skip _ (by simp)
    · rw [if_neg h, if_neg (by omega)]
      simp only [List.append_assoc, List.cons_append]
      rw [ihl wl, pst_skip _ (by simp), ihr wr]
  | un q e ih =>
    intro hw rest
    obtain ⟨we, hl⟩ := hw
    simp only [cut]
    by_cases h : ix (.pre q) < k
    · rw [if_pos h, if_pos (by omega)]
      exact pst_skip _ (by simp)
    · rw [if_neg h]
      by_cases hq : q = p
      · subst hq
        have hk := (hp q).mpr rfl
        rw [if_pos (by omega)]
        have := ih we rest
        rw [cut_lv (k := k + 1) (e := e) (by omega)] at this
        simp only [List.cons_append, List.nil_append] at this ⊢
        simp [pst, this, Item.tree]
      · have : ix (.pre q) ≠ k := fun hk => hq ((hp q).mp hk)
        rw [if_neg (by omega)]
        simp only [List.cons_append]
        rw [pst_skip _ (by simpa using hq), ih we]
  | btw n a b c iha ihb ihc =>
    intro hw rest
    obtain ⟨wa, wb, wc, -⟩ := hw
    have := ht n
    simp only [cut]
    by_cases h : ix (.btw n) < k
    · rw [if_pos h, if_pos (by omega)]
      exact pst_skip _ (by simp)
    · rw [if_neg h, if_neg (by omega)]
      simp only [List.append_assoc, List.cons_append]
      rw [iha wa, pst_skip _ (by simp), ihb wb, pst_skip _ (by simp), ihc wc]
  | atom s => intro _ rest; exact pst_skip _ (by simp)
  | bopTok o => intro hw; exact hw.elim
  | preTok o => intro hw; exact hw.elim
  | btwTok o => intro hw; exact hw.elim

theorem tst_val {k : Nat} {n : Bool} (hb : ∀ m, ix (.btw m) = k ↔ m = n) {v : T}
    {rest : List Item} (hr : Rest k rest) : tst n (.val v :: rest) = .val v :: tst n rest := by
  cases hr with
  | nil => simp [tst]
  | cons hi hy =>
    rw [tst_skip]
    intro hc
    subst hc
    have := (hb n).mpr rfl
    omega

theorem tst_op {n : Bool} {i y : Item} (r : List Item) (hy : Start y) :
    tst n (i :: y :: r) = i :: tst n (y :: r) :=
  tst_skip r fun hc => hy.2 n hc

theorem tst_low {k : Nat} {n : Bool} (ho : ∀ o, ix (.bin o) ≠ k)
    (hp : ∀ p, ix (.pre p) ≠ k) (hb : ∀ m, ix (.btw m) = k ↔ m = n) :
    ∀ (e : T), WL e → lv e ≤ k + 1 → ∀ rest, tst n (cut k e ++ rest) = tst n (.val e :: rest) := by
  intro e
  induction e with
  | bin o l r _ _ =>
    intro _ hl rest
    simp only [lv] at hl
    have := ho o
    rw [cut_lv (by simp only [lv]; omega)]; rfl
  | un p e _ =>
    intro _ hl rest
    simp only [lv] at hl
    have := hp p
    rw [cut_lv (by simp only [lv]; omega)]; rfl
  | btw m a b c iha _ _ =>
    intro hw hl rest
    obtain ⟨wa, wb, wc, hl1, hl2, hl3⟩ := hw
    by_cases hk : ix (.btw m) < k
    · rw [cut_lv (by simp only [lv]; omega)]; rfl
    · simp only [lv] at hl
      have hm := (hb m).mp (by omega)
      subst hm
      simp only [cut, if_neg hk]
      rw [cut_lv (e := b) (by omega), cut_lv (e := c) (by omega)]
      simp only [List.append_assoc, List.cons_append, List.nil_append]
      rw [iha wa (by omega), tst_hit]
      rfl
  | atom s => intro _ _ _; rfl
  | bopTok o => intro hw; exact hw.elim
  | preTok o => intro hw; exact hw.elim
  | btwTok o => intro hw; exact hw.elim

theorem tst_cut {k : Nat} {n : Bool} (ho : ∀ o, ix (.bin o) ≠ k)
    (hp : ∀ p, ix (.pre p) ≠ k) (hb : ∀ m, ix (.btw m) = k ↔ m = n) :
    ∀ (e : T), WL e → ∀ rest, Rest k rest →
      tst n (cut k e ++ rest) = cut (k + 1) e ++ tst n rest := by
  have low : ∀ e, WL e → lv e ≤ k + 1 → ∀ rest, Rest k rest →
      tst n (cut k e ++ rest) = cut (k + 1) e ++ tst n rest := by
    intro e hw hl rest hr
    rw [tst_low ho hp hb e hw hl, tst_val hb hr, cut_lv hl]; rfl
  intro e
  induction e with
  | bin o l r ihl ihr =>
    intro hw rest hr
    by_cases hl : lv (.bin o l r) ≤ k + 1
    · exact low _ hw hl rest hr
    · obtain ⟨wl, wr, hl1, hl2⟩ := hw
      simp only [lv] at hl
      simp only [cut]
      rw [if_neg (by omega), if_neg (by omega)]
      obtain ⟨y, ys, hy, hs⟩ := cut_head k r
      simp only [List.append_assoc, List.cons_append]
      rw [ihl wl _ (by rw [hy]; exact .cons (by omega) hs)]
      have := ihr wr rest hr
      rw [hy] at this ⊢
      simp only [List.cons_append] at this ⊢
      rw [tst_op _ hs, this]
  | un p e ih =>
    intro hw rest hr
    by_cases hl : lv (.un p e) ≤ k + 1
    · exact low _ hw hl rest hr
    · obtain ⟨we, hl1⟩ := hw
      simp only [lv] at hl
      simp only [cut]
      rw [if_neg (by omega), if_neg (by omega)]
      obtain ⟨y, ys, hy, hs⟩ := cut_head k e
      have := ih we rest hr
      rw [hy] at this ⊢
      simp only [List.cons_append] at this ⊢
      rw [tst_op _ hs, this]
  | btw m a b c iha ihb ihc =>
    intro hw rest hr
    by_cases hl : lv (.btw m a b c) ≤ k + 1
    · exact low _ hw hl rest hr
    · obtain ⟨wa, wb, wc, hl1, hl2, hl3⟩ := hw
      simp only [lv] at hl
      simp only [cut]
      rw [if_neg (by omega), if_neg (by omega)]
      obtain ⟨y, ys, hy, hs⟩ := cut_head k b
      obtain ⟨z, zs, hz, hs'⟩ := cut_head k c
      have hand := ix_btw_and m
      simp only [List.append_assoc, List.cons_append]
      rw [iha wa _ (by rw [hy]; exact .cons (by omega) hs)]
      have h2 := ihb wb (.bin .and :: (cut k c ++ rest)) (by rw [hz]; exact .cons (by omega) hs')
      have h3 := ihc wc rest hr
      rw [hy] at h2 ⊢
      simp only [List.cons_append] at h2 ⊢
      rw [tst_op _ hs, h2]
      rw [hz] at h3 ⊢
      simp only [List.cons_append] at h3 ⊢
      rw [tst_op _ hs', h3]
  | atom s => intro hw rest hr; exact low _ hw (by simp [lv]) rest hr
  | bopTok o => intro hw; exact hw.elim
  | preTok o => intro hw; exact hw.elim
  | btwTok o => intro hw; exact hw.elim

theorem paired_skip {n : Bool} {x : Item} {r : List Item} (h : x ≠ .btw n) :
    Paired n (x :: r) ↔ Paired n r := by
  simp [Paired, h]

theorem paired_cut {k : Nat} {n : Bool} (ho : ∀ o, ix (.bin o) ≠ k)
    (hp : ∀ p, ix (.pre p) ≠ k) (hb : ∀ m, ix (.btw m) = k ↔ m = n) :
    ∀ (e : T), WL e → ∀ rest, Paired n rest → Paired n (cut k e ++ rest) := by
  have hk : ix (.btw n) = k := (hb n).mpr rfl
  intro e
  induction e with
  | bin o l r ihl ihr =>
    intro hw rest hr
    obtain ⟨wl, wr, -, -⟩ := hw
    simp only [cut]
    split
    · exact (paired_skip (by simp)).mpr hr
    · simp only [List.append_assoc, List.cons_append]
      exact ihl wl _ ((paired_skip (by simp)).mpr (ihr wr _ hr))
  | un p e ih =>
    intro hw rest hr
    simp only [cut]
    split
    · exact (paired_skip (by simp)).mpr hr
    · simp only [List.cons_append]
      exact (paired_skip (by simp)).mpr (ih hw.1 _ hr)
  | btw m a b c iha ihb ihc =>
    intro hw rest hr
    obtain ⟨wa, wb, wc, hl1, hl2, hl3⟩ := hw
    simp only [cut]
    split
    · exact (paired_skip (by simp)).mpr hr
    · simp only [List.append_assoc, List.cons_append]
      refine iha wa _ ?_
      have hc : Paired n (cut k c ++ rest) := ihc wc _ hr
      have hb' : Paired n (cut k b ++ .bin .and :: (cut k c ++ rest)) :=
        ihb wb _ ((paired_skip (by simp)).mpr hc)
      refine ⟨?_, hb'⟩
      intro hm
      injection hm with hm
      subst hm
      rw [cut_lv (e := b) (by omega), cut_lv (e := c) (by omega)]
      exact ⟨_, _, _, rfl, by simp, by simp⟩
  | atom s => intro _ rest hr; exact (paired_skip (by simp)).mpr hr
  | bopTok o => intro hw; exact hw.elim
  | preTok o => intro hw; exact hw.elim
  | btwTok o => intro hw; exact hw.elim

/-- The rounds of entry `k` lead from one cut of the tree to the next. -/
theorem reach_cut {k : Nat} (hk : k < 27) {e : T} (hw : WL e) :
    Reach (cut k e) (cut (k + 1) e) := by
  rcases ix_cases k hk with ⟨os, ht, ho, hp, hb⟩ | ⟨p, ht, ho, hp, hb⟩ | ⟨n, ht, ho, hp, hb⟩
  · have h := reach_bin ht (by omega) (from_cut (by omega) e)
    have := bst_cut ho hp hb e hw [] .nil
    simp only [List.append_nil, bst] at this
    rwa [this] at h
  · have h := reach_pre ht (by omega) (from_cut (by omega) e)
    have := pst_cut ho hp hb e hw []
    simp only [List.append_nil, pst] at this
    rwa [this] at h
  · have hpair := paired_cut ho hp hb e hw [] trivial
    rw [List.append_nil] at hpair
    have h := reach_btw ht (by omega) (from_cut (by omega) e) hpair
    have := tst_cut ho hp hb e hw [] .nil
    simp only [List.append_nil, tst] at this
    rwa [this] at h

theorem reach_all {e : T} (hw : WL e) : ∀ k, k ≤ 27 → Reach (cut 0 e) (cut k e)
  | 0, _ => .refl _
  | k + 1, hk => (reach_all hw k (by omega)).trans (reach_cut (by omega) hw)

theorem lv_le (e : T) : lv e ≤ 27 := by
  cases e with
  | bin o l r => have := ix_lt_bin o; simp only [lv]; omega
  | un p e => have := ix_lt_pre p; simp only [lv]; omega
  | btw n a b c => have := ix_lt_btw n; simp only [lv]; omega
  | atom s => simp [lv]
  | bopTok o => simp [lv]
  | preTok o => simp [lv]
  | btwTok o => simp [lv]

/-- A tree grouped by the table is read back from its flat run. -/
theorem makeTree_flat {e : T} (hw : WL e) : makeTree (flat e) = some e := by
  have h := reach_all hw 27 (by omega)
  rw [cut_lv (lv_le e)] at h
  exact makeTree_of_reach h

end EulerDB.Parse
