/-
C83: a value stored under a path is found under it, the leaves of nested data make the data again, and a path relative to
another leads back.
-/
import Verif.Dots.Model
import Verif.Format.DotsProps

namespace EulerDB.Dots

open EulerDB.Format EulerDB.Text

variable {α : Type}

/-! ### Names -/

theorem unfold_dot_head (s : List Char) : ∀ c ∈ (unfold' '.' s).head?, c ≠ '.' := by
  cases s with
  | nil => simp [unfold']
  | cons c r =>
    rw [unfold']
    split
    · simp
    · rename_i h
      simpa using h

theorem fold_cons_of_head {x c : Char} {t : List Char} (h : ∀ d ∈ t.head?, d ≠ '.') : fold x (c :: t) = c :: fold x t := by
  cases t with
  | nil => rfl
  | cons d r =>
    have : d ≠ '.' := h d (by simp)
    rw [fold, if_neg (by simp [this])]

/-- A name that was made literal is one name. -/
theorem fold_literal (n : List Char) : fold markA (literal n) = swap '.' markA n := by
  unfold literal
  induction n with
  | nil => rfl
  | cons c r ih =>
    rw [unfold']
    split
    · rename_i h
      subst h
      rw [fold, if_pos ⟨rfl, rfl⟩, ih]
      rfl
    · rename_i h
      rw [fold_cons_of_head (unfold_dot_head r), ih]
      simp [swap, h]

theorem splitNull_literal {n : Name} (h : markA ∉ n) : splitNull (literal n) = [n] := by
  unfold splitNull
  rw [if_neg, fold_literal, split_word _ (not_mem_swap '.' markA (by decide) n), List.map_singleton, swap_swap _ _ _ h]
  intro e
  have := unfold_dot_head n
  unfold literal at e
  rw [e] at this
  exact this '.' (by simp) rfl

theorem fold_no_dot {x : Char} : ∀ {s : List Char}, '.' ∉ s → fold x s = s
  | [], _ => rfl
  | c :: r, h => by
    rw [List.mem_cons, not_or] at h
    rw [fold_cons_of_head, fold_no_dot h.2]
    intro d hd e
    subst e
    cases r with
    | nil => cases hd
    | cons a b =>
      simp only [List.head?_cons, Option.mem_some_iff] at hd
      exact h.2 (by simp [hd])

theorem splitNull_plain {n : Name} (hd : '.' ∉ n) (h : markA ∉ n) : splitNull n = [n] := by
  unfold splitNull
  have hs : swap markA '.' n = n := by
    unfold swap
    have : ∀ c ∈ n, (if c = markA then '.' else c) = c := by
      intro c hc
      refine if_neg ?_
      rintro rfl
      exact h hc
    rw [List.map_congr_left this, List.map_id']
  rw [if_neg, fold_no_dot hd, split_word _ hd, List.map_singleton, hs]
  rintro rfl
  simp at hd

theorem missingNames_eq {p : List Name} (hp : p ≠ []) (hd : ∀ n ∈ p.dropLast, '.' ∉ n) (h : ∀ n ∈ p, markA ∉ n) :
    missingNames p = p := by
  have hl := List.getLast?_eq_some_getLast hp
  have h1 : p.dropLast.flatMap splitNull = p.dropLast := by
    have : ∀ l : List Name, (∀ n ∈ l, '.' ∉ n) → (∀ n ∈ l, markA ∉ n) → l.flatMap splitNull = l := by
      intro l
      induction l with
      | nil => intros; rfl
      | cons a r ih =>
        intro h1 h2
        rw [List.flatMap_cons, splitNull_plain (h1 a (by simp)) (h2 a (by simp)),
          ih (fun n hn => h1 n (by simp [hn])) (fun n hn => h2 n (by simp [hn]))]
        rfl
    exact this _ hd fun n hn => h n (List.dropLast_subset _ hn)
  rw [missingNames, h1, hl]
  simp only [Option.map_some, Option.getD_some]
  rw [splitNull_literal (h _ (List.getLast_mem hp))]
  exact List.dropLast_concat_getLast hp

/-! ### Storing and finding -/

/-- On the way to the last name there are only dicts, or nothing after some name; what is to be made there has no dots in
its names. -/
def Clear : Obj α → List Name → Prop
  | _, [] => False
  | _, [_] => True
  | d, n :: m :: r =>
    match Dict.get? d n with
    | some (.dict e) => Clear e (m :: r)
    | none => ∀ x ∈ (m :: r).dropLast, '.' ∉ x
    | _ => False

theorem walk_null (ask : α → Name → Value α) (p : List Name) : walk ask .null p = .null := by
  unfold walk
  induction p with
  | nil => rfl
  | cons n r ih => exact ih

theorem walk_cons (ask : α → Name → Value α) (d : Obj α) (n : Name) (r : List Name) :
    walk ask (.dict d) (n :: r) = walk ask ((Dict.get? d n).getD .null) r := rfl

theorem walk_nest (ask : α → Name → Value α) (v : Value α) : ∀ p : List Name, walk ask (nest v p) p = v
  | [] => rfl
  | n :: r => by
    rw [nest, walk_cons, Dict.get?_cons, if_pos rfl]
    exact walk_nest ask v r

/-- Neither path leads on from the other. -/
def Apart (p q : List Name) : Prop := ¬ p <+: q ∧ ¬ q <+: p

theorem Apart.tail {n : Name} {p q : List Name} (h : Apart (n :: p) (n :: q)) : Apart p q :=
  ⟨fun hp => h.1 (List.cons_prefix_cons.2 ⟨rfl, hp⟩), fun hq => h.2 (List.cons_prefix_cons.2 ⟨rfl, hq⟩)⟩

theorem walk_nest_other (ask : α → Name → Value α) (v : Value α) : ∀ {p q : List Name}, Apart p q → walk ask (nest v p) q = .null
  | [], q, h => absurd (List.nil_prefix) h.1
  | n :: p, [], h => absurd (List.nil_prefix) h.2
  | n :: p, m :: q, h => by
    rw [nest, walk_cons, Dict.get?_cons]
    by_cases e : n = m
    · subst e
      rw [if_pos rfl]
      exact walk_nest_other ask v h.tail
    · rw [if_neg e]
      exact walk_null ask q

/-- A value stored at a path is found there; at the paths beside it nothing changes. -/
theorem setPath_ok (ask : α → Name → Value α) (v : Value α) : ∀ (p : List Name) (d : Obj α), Clear d p → (∀ n ∈ p, markA ∉ n) →
    ∃ d', setPath d p v = .ok d' ∧ walk ask (.dict d') p = v ∧
      ∀ q, Apart p q → walk ask (.dict d') q = walk ask (.dict d) q
  | [], _, h, _ => h.elim
  | [n], d, _, _ => by
    refine ⟨_, rfl, ?_, ?_⟩
    · rw [walk_cons]
      cases hv : v.isNull with
      | true =>
        cases v <;> simp [Value.isNull] at hv
        simp [walk]
      | false => simp [walk]
    · intro q hq
      cases q with
      | nil => exact absurd List.nil_prefix hq.2
      | cons m q =>
        have hm : m ≠ n := by
          rintro rfl
          exact hq.1 (List.cons_prefix_cons.2 ⟨rfl, List.nil_prefix⟩)
        rw [walk_cons, walk_cons]
        cases v.isNull with
        | true => simp only [if_true]; rw [Dict.get?_erase_ne d hm]
        | false => simp only [Bool.false_eq_true, if_false]; rw [Dict.get?_set_ne d hm]
  | n :: m :: r, d, hc, ha => by
    rw [Clear] at hc
    cases hg : Dict.get? d n with
    | none =>
      simp only [hg] at hc
      have hm : missingNames (m :: r) = m :: r := missingNames_eq (by simp) hc fun x hx => ha x (List.mem_cons_of_mem _ hx)
      refine ⟨_, by rw [setPath, hg], ?_, ?_⟩
      · cases hv : v.isNull with
        | true =>
          cases v <;> simp [Value.isNull] at hv
          simp only [if_true]
          rw [walk_cons, hg]
          exact walk_null ask _
        | false =>
          simp only [Bool.false_eq_true, if_false]
          rw [walk_cons, Dict.get?_set_self, hm]
          exact walk_nest ask v _
      · intro q hq
        cases hv : v.isNull with
        | true => rfl
        | false =>
          simp only [Bool.false_eq_true, if_false]
          cases q with
          | nil => exact absurd List.nil_prefix hq.2
          | cons k q =>
            rw [walk_cons, walk_cons]
            by_cases hk : k = n
            · subst hk
              rw [Dict.get?_set_self, hg, hm]
              refine (walk_nest_other ask v hq.tail).trans ?_
              exact (walk_null ask q).symm
            · rw [Dict.get?_set_ne d hk]
    | some x =>
      cases x with
      | null => simp only [hg] at hc
      | atom a => simp only [hg] at hc
      | list l => simp only [hg] at hc
      | dict e =>
        simp only [hg] at hc
        obtain ⟨e', h1, h2, h3⟩ := setPath_ok ask v (m :: r) e hc fun x hx => ha x (List.mem_cons_of_mem _ hx)
        refine ⟨Dict.set d n (.dict e'), by rw [setPath, hg]; simp only [h1], ?_, ?_⟩
        · rw [walk_cons, Dict.get?_set_self]
          exact h2
        · intro q hq
          cases q with
          | nil => exact absurd List.nil_prefix hq.2
          | cons k q =>
            rw [walk_cons, walk_cons]
            by_cases hk : k = n
            · subst hk
              rw [Dict.get?_set_self, hg]
              exact h3 q hq.tail
            · rw [Dict.get?_set_ne d hk]

/-- The names of a key. -/
def names (key : List Char) : List Name := if '.' ∈ key then parts key else [key]

theorem setItem_eq {d : Obj α} {key : List Char} (hk : key ≠ []) (v : Value α) : setItem d key v = setPath d (names key) v := by
  unfold setItem names
  rw [if_neg hk]
  split <;> rfl

theorem getItem_eq (ask : α → Name → Value α) {d : Obj α} {key : List Char} (hk : key ≠ ['.']) :
    getItem ask d key = walk ask (.dict d) (names key) := by
  unfold getItem names
  rw [if_neg hk]
  split <;> rfl

theorem not_markA_parts (s : List Char) : ∀ n ∈ parts s, markA ∉ n := by
  intro n hn
  unfold parts at hn
  obtain ⟨w, _, rfl⟩ := List.mem_map.1 hn
  exact not_mem_swap markA '.' (by decide) w

/-- A value stored under a key (a path, with dots escaped in its names) is found under it, and nothing stands under it after
`None` was stored; under the keys that lead elsewhere nothing changes.  For keys whose way leads over dicts, or ends before
names without dots. -/
theorem C83_stored_partial (ask : α → Name → Value α) {d : Obj α} {key : List Char} (v : Value α) (h0 : key ≠ []) (h1 : key ≠ ['.'])
    (ha : markA ∉ key) (hc : Clear d (names key)) : ∃ d', setItem d key v = .ok d' ∧ getItem ask d' key = v ∧
      ∀ other, other ≠ ['.'] → Apart (names key) (names other) → getItem ask d' other = getItem ask d other := by
  have hn : ∀ n ∈ names key, markA ∉ n := by
    unfold names
    split
    · exact not_markA_parts key
    · intro n hn
      rcases List.mem_singleton.1 hn with rfl
      exact ha
  obtain ⟨d', h2, h3, h4⟩ := setPath_ok ask v _ d hc hn
  refine ⟨d', by rw [setItem_eq h0, h2], by rw [getItem_eq ask h1, h3], ?_⟩
  intro other ho hap
  rw [getItem_eq ask ho, getItem_eq ask ho, h4 _ hap]

/-! ### Leaves -/

mutual
/-- The leaves with the names that lead to them. -/
def paths : List (Name × Value α) → List (List Name × Value α)
  | [] => []
  | (k, v) :: r => pathsOf k v ++ paths r
def pathsOf (k : Name) : Value α → List (List Name × Value α)
  | .null => []
  | .dict e => (paths e).map fun x => (k :: x.1, x.2)
  | .atom a => [([k], .atom a)]
  | .list l => [([k], .list l)]
end

/-- The text of a path, as `leaves` writes it. -/
def pathText (p : List Name) : List Char := join '.' (p.map literal)

theorem pathText_cons (k : Name) {p : List Name} (h : p ≠ []) : pathText (k :: p) = literal k ++ '.' :: pathText p := by
  cases p with
  | nil => exact absurd rfl h
  | cons a r => rfl

mutual
theorem paths_ne : ∀ (d : List (Name × Value α)), ∀ x ∈ paths d, x.1 ≠ []
  | [], x, h => by cases h
  | (k, v) :: r, x, h => by
    rw [paths, List.mem_append] at h
    rcases h with h | h
    · exact pathsOf_ne k v x h
    · exact paths_ne r x h
theorem pathsOf_ne (k : Name) : ∀ (v : Value α), ∀ x ∈ pathsOf k v, x.1 ≠ []
  | .null, x, h => by cases h
  | .atom a, x, h => by
    rcases List.mem_singleton.1 h with rfl
    simp
  | .list l, x, h => by
    rcases List.mem_singleton.1 h with rfl
    simp
  | .dict e, x, h => by
    obtain ⟨y, _, rfl⟩ := List.mem_map.1 h
    simp
end

mutual
theorem leaves_eq : ∀ (d : List (Name × Value α)) (pre : List Char),
    leaves pre d = (paths d).map fun x => (pre ++ pathText x.1, x.2)
  | [], pre => rfl
  | (k, v) :: r, pre => by
    rw [leaves, paths, List.map_append, leavesOf_eq k v pre, leaves_eq r pre]
theorem leavesOf_eq (k : Name) : ∀ (v : Value α) (pre : List Char),
    leavesOf pre k v = (pathsOf k v).map fun x => (pre ++ pathText x.1, x.2)
  | .null, pre => rfl
  | .atom a, pre => rfl
  | .list l, pre => rfl
  | .dict e, pre => by
    rw [leavesOf, pathsOf, leaves_eq e, List.map_map]
    refine List.map_congr_left fun x hx => ?_
    simp only [Function.comp]
    rw [pathText_cons k (paths_ne e x hx)]
    simp
end

/-- A name that is not empty and has no backslash and none of the marks. -/
def GoodName (n : Name) : Prop := n ≠ [] ∧ '\\' ∉ n ∧ Clean n

mutual
/-- Data whose leaves tell it: no nothing, no empty dict, lists without dotted keys. -/
def Good : Value α → Prop
  | .null => False
  | .atom _ => True
  | .list l => fromLeavesList l = .ok l
  | .dict e => e ≠ [] ∧ GoodDict e
def GoodDict : List (Name × Value α) → Prop
  | [] => True
  | (k, v) :: r => GoodName k ∧ k ∉ Dict.keys r ∧ Good v ∧ GoodDict r
end

theorem unfold_append (x : Char) (a b : List Char) : unfold' x (a ++ b) = unfold' x a ++ unfold' x b := by
  induction a with
  | nil => rfl
  | cons c r ih =>
    rw [List.cons_append, unfold', unfold']
    split <;> simp [ih]

theorem unfold_swap {n : Name} (h : markA ∉ n) : unfold' markA (swap '.' markA n) = literal n := by
  unfold literal
  induction n with
  | nil => rfl
  | cons c r ih =>
    rw [List.mem_cons, not_or] at h
    have ih := ih h.2
    rw [show swap '.' markA (c :: r) = (if c = '.' then markA else c) :: swap '.' markA r from rfl, unfold', unfold', ih]
    by_cases hc : c = '.'
    · rw [if_pos hc, if_pos rfl, if_pos hc]
    · rw [if_neg hc, if_neg hc, if_neg (Ne.symm h.1)]

theorem fold_no_backslash {x : Char} : ∀ {s : List Char}, '\\' ∉ s → fold x s = s
  | [], _ => rfl
  | [c], _ => rfl
  | c :: d :: r, h => by
    rw [List.mem_cons, not_or] at h
    rw [fold, if_neg (fun e => h.1 e.1.symm), fold_no_backslash h.2]

/-- The text of a path is what `join_field` makes of it. -/
theorem pathText_join {p : List Name} (h : ∀ n ∈ p, GoodName n) : pathText p = joinNames p := by
  unfold joinNames
  rw [fold_no_backslash]
  · unfold pathText
    induction p with
    | nil => rfl
    | cons a r ih =>
      have ih := ih fun n hn => h n (List.mem_cons_of_mem _ hn)
      have ha := unfold_swap (h a (by simp)).2.2.1
      cases r with
      | nil => exact ha.symm
      | cons b r =>
        simp only [List.map_cons] at ih ⊢
        rw [show ∀ x y : List Char, ∀ l, join '.' (x :: y :: l) = x ++ '.' :: join '.' (y :: l) from fun _ _ _ => rfl, ih,
          show ∀ x y : List Char, ∀ l, join '.' (x :: y :: l) = x ++ '.' :: join '.' (y :: l) from fun _ _ _ => rfl,
          unfold_append, ha, unfold', if_neg (by decide)]
  · intro hb
    rcases mem_join hb with hb | ⟨w, hw, hb⟩
    · exact absurd hb (by decide)
    · obtain ⟨n, hn, rfl⟩ := List.mem_map.1 hw
      rcases mem_swap hb with hb | hb
      · exact absurd hb (by decide)
      · exact (h n hn).2.1 hb

theorem joinField_names {p : List Name} (hp : p ≠ []) (h : ∀ n ∈ p, n ≠ []) : joinField ⟨0, p⟩ = joinNames p := by
  obtain ⟨n, r, rfl⟩ := List.exists_cons_of_ne_nil hp
  obtain ⟨c, t, he, _⟩ := joinNames_head n r (h n (by simp))
  simp [joinField, he]

theorem splitField_join {p : List Name} (hp : p ≠ []) (h : ∀ n ∈ p, n ≠ [] ∧ Clean n) : splitField (joinField ⟨0, p⟩) = ⟨0, p⟩ := by
  obtain ⟨n, r, rfl⟩ := List.exists_cons_of_ne_nil hp
  exact C46_split_join_partial n r (h n (by simp)).1 fun m hm => (h m hm).2

theorem not_mem_unfold {x c : Char} (h1 : c ≠ '\\') (h2 : c ≠ '.') {s : List Char} (h : c ∉ s) : c ∉ unfold' x s := by
  induction s with
  | nil => simp [unfold']
  | cons d r ih =>
    rw [List.mem_cons, not_or] at h
    rw [unfold']
    split <;> simp [h1, h2, h.1, ih h.2]

theorem splitField_text {p : List Name} (hp : p ≠ []) (h : ∀ n ∈ p, GoodName n) : splitField (pathText p) = ⟨0, p⟩ := by
  rw [pathText_join h, ← joinField_names hp fun n hn => (h n hn).1]
  exact splitField_join hp fun n hn => ⟨(h n hn).1, (h n hn).2.2⟩

theorem pathText_ne {p : List Name} (hp : p ≠ []) (h : ∀ n ∈ p, GoodName n) : pathText p ≠ [] ∧ pathText p ≠ ['.'] := by
  obtain ⟨n, r, rfl⟩ := List.exists_cons_of_ne_nil hp
  obtain ⟨c, t, he, hc⟩ := joinNames_head n r (h n (by simp)).1
  rw [pathText_join h, he]
  refine ⟨by simp, fun e => hc (List.cons.inj e).1⟩

theorem names_text {p : List Name} (hp : p ≠ []) (h : ∀ n ∈ p, GoodName n) : names (pathText p) = p := by
  unfold names
  split
  · rw [pathText_join h]
    exact parts_joinNames p hp fun n hn => (h n hn).2.2
  · rename_i hd
    have hs := splitField_text hp h
    unfold splitField at hs
    rw [if_neg (pathText_ne hp h).2, if_neg] at hs
    · exact congrArg Path.names hs
    · rw [not_or]
      refine ⟨hd, fun hb => ?_⟩
      unfold pathText at hb
      rcases mem_join hb with hb | ⟨w, hw, hb⟩
      · exact absurd hb (by decide)
      · obtain ⟨n, hn, rfl⟩ := List.mem_map.1 hw
        exact not_mem_unfold (by decide) (by decide) (h n hn).2.2.2 hb

theorem putLeaf_text {d : Obj α} {p : List Name} (hp : p ≠ []) (h : ∀ n ∈ p, GoodName n) (v : Value α) :
    putLeaf d (pathText p) v = putAt d p v := by
  unfold putLeaf
  rw [if_neg (pathText_ne hp h).1, splitField_text hp h]
  split
  · rfl
  · rename_i hd
    have := names_text hp h
    rw [names, if_neg hd] at this
    conv_rhs => rw [← this]
    rfl

mutual
theorem paths_good : ∀ (d : List (Name × Value α)), GoodDict d → ∀ x ∈ paths d, (∀ n ∈ x.1, GoodName n) ∧ fromLeaves x.2 = .ok x.2 ∧
    x.2.isNull = false
  | [], _, x, h => by cases h
  | (k, v) :: r, hg, x, h => by
    rw [paths, List.mem_append] at h
    rcases h with h | h
    · exact pathsOf_good k hg.1 v hg.2.2.1 x h
    · exact paths_good r hg.2.2.2 x h
theorem pathsOf_good (k : Name) (hk : GoodName k) : ∀ (v : Value α), Good v → ∀ x ∈ pathsOf k v, (∀ n ∈ x.1, GoodName n) ∧
    fromLeaves x.2 = .ok x.2 ∧ x.2.isNull = false
  | .null, _, x, h => by cases h
  | .atom a, _, x, h => by
    rcases List.mem_singleton.1 h with rfl
    exact ⟨by simpa using hk, rfl, rfl⟩
  | .list l, hl, x, h => by
    rcases List.mem_singleton.1 h with rfl
    refine ⟨by simpa using hk, ?_, rfl⟩
    rw [Good] at hl
    rw [fromLeaves, hl]
  | .dict e, he, x, h => by
    obtain ⟨y, hy, rfl⟩ := List.mem_map.1 h
    obtain ⟨h1, h2, h3⟩ := paths_good e he.2 y hy
    refine ⟨?_, h2, h3⟩
    intro n hn
    rcases List.mem_cons.1 hn with rfl | hn
    · exact hk
    · exact h1 n hn
end

/-- The leaves put one after the other. -/
def build (d : Obj α) : List (List Name × Value α) → Except PyErr (Obj α)
  | [] => .ok d
  | x :: r =>
    match putAt d x.1 x.2 with
    | .error e => .error e
    | .ok d' => build d' r

theorem fromLeavesDict_build : ∀ (l : List (List Name × Value α)) (out : Obj α),
    (∀ x ∈ l, x.1 ≠ [] ∧ (∀ n ∈ x.1, GoodName n) ∧ fromLeaves x.2 = .ok x.2) →
    fromLeavesDict out (l.map fun x => (pathText x.1, x.2)) = build out l
  | [], out, _ => rfl
  | x :: r, out, h => by
    obtain ⟨h1, h2, h3⟩ := h x (by simp)
    rw [List.map_cons, fromLeavesDict, build]
    simp only [h3]
    rw [putLeaf_text h1 h2]
    cases putAt out x.1 x.2 with
    | error e => rfl
    | ok d' => exact fromLeavesDict_build r d' fun y hy => h y (List.mem_cons_of_mem _ hy)

theorem build_append (a b : List (List Name × Value α)) (d : Obj α) : build d (a ++ b) =
    match build d a with
    | .error e => .error e
    | .ok d' => build d' b := by
  induction a generalizing d with
  | nil => rfl
  | cons x r ih =>
    rw [List.cons_append, build, build]
    cases putAt d x.1 x.2 with
    | error e => rfl
    | ok d' => exact ih d'

theorem set_append {d : Obj α} {k : Name} (h : k ∉ Dict.keys d) (x v : Value α) : Dict.set (d ++ [(k, x)]) k v = d ++ [(k, v)] := by
  induction d with
  | nil => simp [Dict.set]
  | cons a r ih =>
    obtain ⟨k', v'⟩ := a
    simp only [Dict.keys, List.map_cons, List.mem_cons, not_or] at h
    rw [List.cons_append, Dict.set, if_neg (Ne.symm h.1), ih h.2]
    rfl

theorem get_append {d : Obj α} {k : Name} (h : k ∉ Dict.keys d) (x : Value α) : Dict.get? (d ++ [(k, x)]) k = some x := by
  rw [Dict.get?_append, (Dict.get?_eq_none_iff d k).2 h]
  simp [Dict.get?]

/-- Leaves below one name are put into the dict of this name. -/
theorem build_below {d : Obj α} {k : Name} (hk : k ∉ Dict.keys d) : ∀ (l : List (List Name × Value α)) (e e' : Obj α),
    (∀ x ∈ l, x.1 ≠ []) → build e l = .ok e' →
    build (d ++ [(k, .dict e)]) (l.map fun x => (k :: x.1, x.2)) = .ok (d ++ [(k, .dict e')])
  | [], e, e', _, h => by cases h; rfl
  | x :: r, e, e', hl, h => by
    obtain ⟨m, p, hx⟩ := List.exists_cons_of_ne_nil (hl x (by simp))
    rw [build, hx] at h
    rw [List.map_cons, build]
    simp only [hx]
    rw [putAt, get_append hk]
    simp only [Option.getD_some]
    cases hp : putAt e (m :: p) x.2 with
    | error e => rw [hp] at h; cases h
    | ok e1 =>
      simp only [hp] at h
      simp only
      rw [set_append hk]
      exact build_below hk r e1 e' (fun y hy => hl y (List.mem_cons_of_mem _ hy)) h

theorem build_new {d : Obj α} {k : Name} (hk : k ∉ Dict.keys d) {l : List (List Name × Value α)} {e' : Obj α} (hn : l ≠ [])
    (hl : ∀ x ∈ l, x.1 ≠ []) (h : build [] l = .ok e') :
    build d (l.map fun x => (k :: x.1, x.2)) = .ok (d ++ [(k, .dict e')]) := by
  obtain ⟨x, r, rfl⟩ := List.exists_cons_of_ne_nil hn
  obtain ⟨m, p, hx⟩ := List.exists_cons_of_ne_nil (hl x (by simp))
  have hg := (Dict.get?_eq_none_iff d k).2 hk
  rw [build, hx] at h
  rw [List.map_cons, build]
  simp only [hx]
  rw [putAt, hg]
  simp only [Option.getD_none]
  cases hp : putAt [] (m :: p) x.2 with
  | error e => rw [hp] at h; cases h
  | ok e1 =>
    simp only [hp] at h
    simp only
    rw [Dict.set_of_none d k _ hg]
    exact build_below hk r e1 e' (fun y hy => hl y (List.mem_cons_of_mem _ hy)) h

mutual
theorem paths_nil : ∀ (d : List (Name × Value α)), GoodDict d → d ≠ [] → paths d ≠ []
  | [], _, h => absurd rfl h
  | (k, v) :: r, hg, _ => by
    rw [paths]
    intro e
    exact pathsOf_nil k v hg.2.2.1 (List.append_eq_nil_iff.1 e).1
theorem pathsOf_nil (k : Name) : ∀ (v : Value α), Good v → pathsOf k v ≠ []
  | .null, h => h.elim
  | .atom a, _ => by simp [pathsOf]
  | .list l, _ => by simp [pathsOf]
  | .dict e, h => by
    rw [pathsOf]
    intro he
    exact paths_nil e h.2 h.1 (List.map_eq_nil_iff.1 he)
end

mutual
theorem build_paths : ∀ (d : List (Name × Value α)) (out : Obj α), GoodDict d → (∀ k ∈ Dict.keys d, k ∉ Dict.keys out) →
    build out (paths d) = .ok (out ++ d)
  | [], out, _, _ => by rw [paths, build, List.append_nil]
  | (k, v) :: r, out, hg, hd => by
    have hk : k ∉ Dict.keys out := hd k (by simp [Dict.keys])
    rw [paths, build_append, build_pathsOf k v out hg.2.2.1 hk]
    simp only
    rw [build_paths r (out ++ [(k, v)]) hg.2.2.2]
    · simp
    · intro k' hk' h
      simp only [Dict.keys, List.map_append, List.mem_append, List.map_cons, List.map_nil, List.mem_singleton] at h
      rcases h with h | rfl
      · exact hd k' (by simp [Dict.keys] at hk' ⊢; exact .inr hk') h
      · exact hg.2.1 hk'
theorem build_pathsOf (k : Name) : ∀ (v : Value α) (out : Obj α), Good v → k ∉ Dict.keys out →
    build out (pathsOf k v) = .ok (out ++ [(k, v)])
  | .null, _, h, _ => h.elim
  | .atom a, out, _, hk => by
    rw [pathsOf, build, putAt]
    simp only [Value.isNull, Bool.false_eq_true, if_false]
    rw [Dict.set_of_none _ _ _ ((Dict.get?_eq_none_iff out k).2 hk)]
    rfl
  | .list l, out, _, hk => by
    rw [pathsOf, build, putAt]
    simp only [Value.isNull, Bool.false_eq_true, if_false]
    rw [Dict.set_of_none _ _ _ ((Dict.get?_eq_none_iff out k).2 hk)]
    rfl
  | .dict e, out, h, hk => by
    rw [pathsOf]
    refine build_new hk (paths_nil e h.2 h.1) (paths_ne e) ?_
    have := build_paths e [] h.2 (by simp [Dict.keys])
    simpa using this
end

/-- The leaves of nested data, put together, are the data, with every key in its place. -/
theorem C83_leaves_partial {d : Obj α} (h : GoodDict d) : fromLeaves (.dict (leaves [] d)) = .ok (.dict d) := by
  have hb := build_paths d [] h (by simp [Dict.keys])
  have hf := fromLeavesDict_build (paths d) [] fun x hx => ⟨paths_ne d x hx, (paths_good d h x hx).1, (paths_good d h x hx).2.1⟩
  rw [fromLeaves, leaves_eq]
  simp only [List.nil_append]
  rw [hf, hb]
  rfl

mutual
theorem walk_paths (ask : α → Name → Value α) : ∀ (d e : List (Name × Value α)), GoodDict d →
    (∀ k v, (k, v) ∈ d → Dict.get? e k = some v) → ∀ x ∈ paths d, walk ask (.dict e) x.1 = x.2
  | [], _, _, _, x, h => by cases h
  | (k, v) :: r, e, hg, he, x, h => by
    rw [paths, List.mem_append] at h
    rcases h with h | h
    · exact walk_pathsOf ask k v e hg.2.2.1 (he k v (by simp)) x h
    · exact walk_paths ask r e hg.2.2.2 (fun k v hkv => he k v (List.mem_cons_of_mem _ hkv)) x h
theorem walk_pathsOf (ask : α → Name → Value α) (k : Name) : ∀ (v : Value α) (e : Obj α), Good v → Dict.get? e k = some v →
    ∀ x ∈ pathsOf k v, walk ask (.dict e) x.1 = x.2
  | .null, _, h, _, _, _ => h.elim
  | .atom a, e, _, he, x, h => by
    rcases List.mem_singleton.1 h with rfl
    rw [walk_cons, he]
    rfl
  | .list l, e, _, he, x, h => by
    rcases List.mem_singleton.1 h with rfl
    rw [walk_cons, he]
    rfl
  | .dict f, e, hg, he, x, h => by
    obtain ⟨y, hy, rfl⟩ := List.mem_map.1 h
    rw [walk_cons, he]
    refine walk_paths ask f f hg.2 ?_ y hy
    exact good_get f hg.2
theorem good_get : ∀ (d : List (Name × Value α)), GoodDict d → ∀ k v, (k, v) ∈ d → Dict.get? d k = some v
  | [], _, k, v, h => by cases h
  | (k', v') :: r, hg, k, v, h => by
    rw [Dict.get?_cons]
    rcases List.mem_cons.1 h with h | h
    · cases h
      rw [if_pos rfl]
    · have hk : k' ≠ k := by
        rintro rfl
        exact hg.2.1 (List.mem_map.2 ⟨_, h, rfl⟩)
      rw [if_neg hk]
      exact good_get r hg.2.2.2 k v h
end

/-- Every leaf is found under its key. -/
theorem C83_leaf_found_partial (ask : α → Name → Value α) {d : Obj α} (h : GoodDict d) {key : List Char} {v : Value α}
    (hx : (key, v) ∈ leaves [] d) : getItem ask d key = v := by
  rw [leaves_eq] at hx
  obtain ⟨x, hm, he⟩ := List.mem_map.1 hx
  clear hx
  have hx := hm
  cases he
  have hp := paths_ne d x hx
  have hg := (paths_good d h x hx).1
  rw [List.nil_append, getItem_eq ask (pathText_ne hp hg).2, names_text hp hg]
  exact walk_paths ask d d h (good_get d h) x hx

/-! ### Relative paths -/

theorem common_append : ∀ (a f p : List (Option Name)), (∀ x ∈ f.head?, ∀ y ∈ p.head?, x ≠ y) → common (a ++ f) (a ++ p) = a.length
  | [], f, p, h => by
    cases f with
    | nil => cases p <;> rfl
    | cons x f =>
      cases p with
      | nil => rfl
      | cons y p =>
        rw [List.nil_append, List.nil_append, common, if_neg (h x (by simp) y (by simp))]
        rfl
  | x :: a, f, p, h => by
    rw [List.cons_append, List.cons_append, common, if_pos rfl, common_append a f p h]
    rfl

/-- What two lists have in common at the beginning. -/
theorem split_common : ∀ f p : List Name, ∃ a f' p', f = a ++ f' ∧ p = a ++ p' ∧ ∀ x ∈ f'.head?, ∀ y ∈ p'.head?, x ≠ y
  | [], p => ⟨[], [], p, rfl, rfl, by simp⟩
  | x :: f, [] => ⟨[], x :: f, [], rfl, rfl, by simp⟩
  | x :: f, y :: p => by
    by_cases h : x = y
    · subst h
      obtain ⟨a, f', p', rfl, rfl, h⟩ := split_common f p
      exact ⟨x :: a, f', p', rfl, rfl, h⟩
    · exact ⟨[], x :: f, y :: p, rfl, rfl, by simpa using h⟩

theorem dropWhile_dots (n : Nat) {s : List Char} (h : ∀ c ∈ s.head?, c ≠ '.') :
    (List.replicate n '.' ++ s).dropWhile (· == '.') = s := by
  induction n with
  | zero =>
    cases s with
    | nil => rfl
    | cons c r =>
      have : c ≠ '.' := h c (by simp)
      simp [this]
  | succ n ih => simpa [List.replicate_succ] using ih

theorem joinField_head {p : List Name} (hp : p ≠ []) (h : ∀ n ∈ p, n ≠ []) : ∃ c t, joinField ⟨0, p⟩ = c :: t ∧ c ≠ '.' := by
  rw [joinField_names hp h]
  obtain ⟨n, r, rfl⟩ := List.exists_cons_of_ne_nil hp
  exact joinNames_head n r (h n (by simp))

/-- Names for paths. -/
def Plain (p : List Name) : Prop := p ≠ [] ∧ ∀ n ∈ p, n ≠ [] ∧ Clean n

theorem relative_eq {a f p : List Name} (hf : Plain (a ++ f)) (hp : Plain (a ++ p)) (h : ∀ x ∈ f.head?, ∀ y ∈ p.head?, x ≠ y) :
    relativeField (joinField ⟨0, a ++ f⟩) (joinField ⟨0, a ++ p⟩) =
      if p = [] then joinField ⟨0, f⟩ else List.replicate p.length '.' ++ '.' :: joinField ⟨0, f⟩ := by
  obtain ⟨c, t, he, hc⟩ := joinField_head hp.1 fun n hn => (hp.2 n hn).1
  unfold relativeField
  rw [if_neg (by rw [he]; exact fun e => hc (List.cons.inj e).1), splitField_join hf.1 hf.2, splitField_join hp.1 hp.2]
  have hs : ∀ q : List Name, Path.steps ⟨0, a ++ q⟩ = a.map some ++ q.map some := by
    intro q; simp [Path.steps]
  have hcm : common (Path.steps ⟨0, a ++ f⟩) (Path.steps ⟨0, a ++ p⟩) = a.length := by
    rw [hs, hs, common_append, List.length_map]
    intro x hx y hy
    cases f with
    | nil => cases hx
    | cons x' f =>
      cases p with
      | nil => cases hy
      | cons y' p =>
        simp only [List.map_cons, List.head?_cons, Option.mem_some_iff] at hx hy
        subst hx hy
        intro e
        exact h x' (by simp) y' (by simp) (Option.some.inj e)
  have hfrom : Path.from ⟨0, a ++ f⟩ a.length = ⟨0, f⟩ := by
    unfold Path.from
    simp only
    split
    · rename_i hz
      have : a = [] := List.length_eq_zero_iff.1 (by omega)
      subst this
      simp
    · simp
  simp only [hcm, hfrom]
  simp only [hs, List.length_append, List.length_map]
  cases p with
  | nil => simp
  | cons y p =>
    rw [if_neg (by simp), if_neg (by simp)]
    congr 2
    simp

/-- Following the path to `f` relative to `p` from `p` leads to `f` exactly if `f` does not lie on the way to `p`. -/
theorem C83_relative_iff {f p : List Name} (hf : Plain f) (hp : Plain p) :
    concatField (joinField ⟨0, p⟩) (relativeField (joinField ⟨0, f⟩) (joinField ⟨0, p⟩)) = joinField ⟨0, f⟩ ↔
      ¬ (f <+: p ∧ f ≠ p) := by
  obtain ⟨a, f', p', rfl, rfl, h⟩ := split_common f p
  rw [relative_eq hf hp h]
  have hsp := splitField_join hp.1 hp.2
  cases p' with
  | nil =>
    rw [List.append_nil] at hp hsp
    rw [if_pos rfl, List.append_nil]
    have hr : ¬ (a ++ f' <+: a ∧ a ++ f' ≠ a) := by
      rintro ⟨h1, h2⟩
      refine h2 ?_
      have := h1.length_le
      rw [List.length_append] at this
      have : f' = [] := List.length_eq_zero_iff.1 (by omega)
      rw [this, List.append_nil]
    refine iff_of_true ?_ hr
    unfold concatField
    by_cases hf' : f' = []
    · subst hf'
      rw [show joinField ⟨0, []⟩ = ['.'] from rfl, if_neg (by decide), hsp]
      rfl
    · have hpl : ∀ n ∈ f', n ≠ [] ∧ Clean n := fun n hn => hf.2 n (List.mem_append_right _ hn)
      obtain ⟨c, t, he, hc⟩ := joinField_head hf' fun n hn => (hpl n hn).1
      have hno : ['.', '.'].isPrefixOf (joinField ⟨0, f'⟩) = false := by
        rw [he]; simp [List.isPrefixOf, Ne.symm hc]
      rw [hno, hsp, splitField_join hf' hpl]
      rfl
  | cons y p' =>
    rw [if_neg (by simp)]
    unfold concatField
    have hpre : ∀ s, ['.', '.'].isPrefixOf (List.replicate (y :: p').length '.' ++ '.' :: s) = true := by
      intro s
      cases p' with
      | nil => simp [List.replicate_succ, List.isPrefixOf]
      | cons b r => simp [List.replicate_succ, List.isPrefixOf]
    rw [hpre, if_pos rfl, hsp]
    have hdots : ∀ s : List Char, List.replicate (y :: p').length '.' ++ '.' :: s = List.replicate ((y :: p').length + 1) '.' ++ s := by
      intro s
      rw [List.replicate_succ', List.append_assoc]
      rfl
    by_cases hf' : f' = []
    · subst hf'
      rw [List.append_nil] at hf ⊢
      refine iff_of_false ?_ (by simp [List.prefix_append])
      rw [show joinField ⟨0, []⟩ = ['.'] from rfl]
      have hd : (List.replicate (y :: p').length '.' ++ ['.', '.']).dropWhile (· == '.') = [] := by
        rw [hdots, show ['.'] = List.replicate 1 '.' ++ [] from rfl, ← List.append_assoc, List.replicate_append_replicate]
        exact dropWhile_dots _ (by simp)
      simp only [hd]
      rw [if_pos]
      · have hlen : (Path.cut ⟨0, a ++ y :: p'⟩ ((List.replicate (y :: p').length '.' ++ ['.', '.']).length - ([] : List Char).length - 1)) =
            ⟨0, a.dropLast⟩ := by
          have ha := List.length_pos_iff.2 hf.1
          simp only [List.length_append, List.length_replicate, List.length_cons, List.length_nil]
          unfold Path.cut
          simp only [List.length_append, List.length_cons]
          rw [if_pos (by omega)]
          congr 1
          rw [show a.length + (p'.length + 1) - (p'.length + 1 + (0 + 1 + 1) - 0 - 1) = a.length - 1 by omega,
            List.take_append_of_le_length (by omega), List.dropLast_eq_take]
        rw [hlen]
        have hse : splitField [] = ⟨0, [[]]⟩ := by decide
        rw [hse]
        simp only
        intro e
        have hns : ∀ n ∈ a.dropLast ++ [[]], Clean n := by
          intro n hn
          rcases List.mem_append.1 hn with hn | hn
          · exact (hf.2 n (List.dropLast_subset _ hn)).2
          · rcases List.mem_singleton.1 hn with rfl
            simp [Clean]
        rw [joinField_names hf.1 fun n hn => (hf.2 n hn).1] at e
        obtain ⟨c, t, he, hc⟩ := joinField_head hf.1 fun n hn => (hf.2 n hn).1
        rw [joinField_names hf.1 fun n hn => (hf.2 n hn).1] at he
        unfold joinField at e
        rw [if_pos rfl] at e
        simp only at e
        split at e
        · rw [he] at e
          exact hc (List.cons.inj e).1.symm
        · have h1 := parts_joinNames _ (by simp) hns
          rw [e, parts_joinNames a hf.1 fun n hn => (hf.2 n hn).2] at h1
          have : ([] : Name) ∈ a := by rw [h1]; simp
          exact (hf.2 _ this).1 rfl
      · have ha := List.length_pos_iff.2 hf.1
        simp only [List.length_append, List.length_replicate, List.length_cons, List.length_nil]
        omega
    · have hpl : ∀ n ∈ f', n ≠ [] ∧ Clean n := fun n hn => hf.2 n (List.mem_append_right _ hn)
      obtain ⟨c, t, he, hc⟩ := joinField_head hf' fun n hn => (hpl n hn).1
      have hr : ¬ (a ++ f' <+: a ++ y :: p' ∧ a ++ f' ≠ a ++ y :: p') := by
        rintro ⟨h1, _⟩
        rw [List.prefix_append_right_inj] at h1
        obtain ⟨x, r, rfl⟩ := List.exists_cons_of_ne_nil hf'
        exact h x (by simp) y (by simp) (List.cons_prefix_cons.1 h1).1
      refine iff_of_true ?_ hr
      have hd : (List.replicate (y :: p').length '.' ++ '.' :: joinField ⟨0, f'⟩).dropWhile (· == '.') = joinField ⟨0, f'⟩ := by
        rw [hdots]
        refine dropWhile_dots _ ?_
        rw [he]
        simpa using hc
      simp only [hd]
      have hb : (List.replicate (y :: p').length '.' ++ '.' :: joinField ⟨0, f'⟩).length - (joinField ⟨0, f'⟩).length - 1 =
          (y :: p').length := by
        simp only [List.length_append, List.length_replicate, List.length_cons]
        omega
      rw [hb, if_pos (by simp only [List.length_append]; omega)]
      have hcut : Path.cut ⟨0, a ++ y :: p'⟩ (y :: p').length = ⟨0, a⟩ := by
        unfold Path.cut
        simp only [List.length_append]
        rw [if_pos (by omega)]
        congr 1
        rw [show a.length + (y :: p').length - (y :: p').length = a.length by omega, List.take_left]
      rw [hcut, splitField_join hf' hpl]

end EulerDB.Dots
