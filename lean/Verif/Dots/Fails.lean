/-
C83: what is not found again.
-/
import Verif.Dots.Props

namespace EulerDB.Dots

open EulerDB.Format EulerDB.Text

variable {α : Type}

/-- On the way there is a number or a text: nothing can be stored below it, whatever is to be stored. -/
theorem C83_fails_scalar {d : Obj α} {n m : Name} {r : List Name} {a : α} {v : Value α} (h : Dict.get? d n = some (.atom a))
    (hv : v.isNull = false) : setPath d (n :: m :: r) v = .error .typeError := by
  rw [setPath, h]
  simp [hv]

/-- On the way a key has the value `None` and two plain names follow: the value is lost without a word. -/
theorem C83_fails_null (ask : α → Name → Value α) {d : Obj α} {n m k : Name} {v : Value α} (h : Dict.get? d n = some .null)
    (hv : v.isNull = false) : setPath d [n, m, k] v = .ok d ∧ walk ask (.dict d) [n, m, k] ≠ v := by
  constructor
  · rw [setPath, h]
    simp [hv]
  · rw [walk_cons, h, Option.getD_some, walk_null]
    rintro rfl
    cases hv

/-- A name with a dot between missing names: the value is stored as if the dot parted names, and is not found. -/
theorem C83_fails_dotted_step (ask : α → Name → Value α) (v : Value α) (hv : v.isNull = false) :
    setItem ([] : Obj α) "a.b\\.c.d".toList v = .ok [("a".toList, .dict [("b".toList, .dict [("c".toList, .dict [("d".toList, v)])])])] ∧
      getItem ask [("a".toList, .dict [("b".toList, .dict [("c".toList, .dict [("d".toList, v)])])])] "a.b\\.c.d".toList = .null := by
  have hp : parts "a.b\\.c.d".toList = ["a".toList, "b.c".toList, "d".toList] := by decide +kernel
  constructor
  · unfold setItem
    rw [if_neg (by decide), if_pos (by decide), hp, setPath]
    have hm : missingNames ["b.c".toList, "d".toList] = ["b".toList, "c".toList, "d".toList] := by decide +kernel
    simp only [Dict.get?, hv, Bool.false_eq_true, if_false, hm, nest]
    rfl
  · unfold getItem
    rw [if_neg (by decide), if_pos (by decide), hp, walk_cons, Dict.get?_cons, if_pos rfl, Option.getD_some, walk_cons,
      Dict.get?_cons, if_neg (by decide)]
    rfl

/-- An empty key raises. -/
theorem C83_fails_empty_key (d : Obj α) (v : Value α) : setItem d [] v = .error .generic := rfl

/-- Names ending with a backslash: the leaf has the same key as another leaf, and the data made of the leaves are other
data. -/
theorem C83_fails_backslash (a : α) :
    fromLeaves (.dict (leaves [] [("a\\".toList, Value.dict [("b".toList, .atom a)])])) = .ok (.dict [("a.b".toList, .atom a)]) := by
  have hs : splitField "a\\.b".toList = ⟨0, ["a.b".toList]⟩ := by decide +kernel
  have hl : leaves [] [("a\\".toList, Value.dict [("b".toList, .atom a)])] = [("a\\.b".toList, .atom a)] := by
    simp only [leaves, leavesOf, List.append_nil, List.nil_append]
    rfl
  rw [hl, fromLeaves, fromLeavesDict, fromLeaves]
  simp only
  unfold putLeaf
  rw [if_neg (by decide), if_pos (by decide), hs, if_pos rfl, putAt]
  rfl

/-- Two data with the same leaves: the dict under `a\` and the number under `a.b`. -/
theorem C83_fails_same_leaves (a : α) :
    leaves [] [("a\\".toList, Value.dict [("b".toList, .atom a)])] = leaves [] [("a.b".toList, Value.atom a)] := by
  simp only [leaves, leavesOf, List.append_nil, List.nil_append]
  rfl

/-- Empty dicts and `None` have no leaves: they are not in the data made of the leaves. -/
theorem C83_fails_empty_dict (k : Name) : fromLeaves (.dict (leaves [] [(k, (Value.dict [] : Value α))])) = .ok (.dict []) ∧
    fromLeaves (.dict (leaves [] [(k, (Value.null : Value α))])) = .ok (.dict []) := ⟨rfl, rfl⟩

/-- The path of `f` relative to a path leading on from it does not lead back to `f`. -/
theorem C83_fails_relative {f : List Name} {n : Name} {r : List Name} (hf : Plain f) (hp : Plain (f ++ n :: r)) :
    concatField (joinField ⟨0, f ++ n :: r⟩) (relativeField (joinField ⟨0, f⟩) (joinField ⟨0, f ++ n :: r⟩)) ≠ joinField ⟨0, f⟩ := by
  intro h
  refine (C83_relative_iff hf hp).1 h ⟨List.prefix_append _ _, fun e => ?_⟩
  have := congrArg List.length e
  simp at this

/-- The parent of `a.b` is `a.`, not `a`. -/
theorem C83_fails_parent : concatField "a.b".toList "..".toList = "a.".toList := by decide +kernel

/-- **C83, through a list.**  A path that leads through a list answers with the list of what its elements answer, in their order. -/
theorem C83_through_list (ask : α → Name → Value α) {d : Obj α} {n m : Name} {l : List (Value α)} (h : Dict.get? d n = some (.list l)) :
    walk ask (.dict d) [n, m] = .list (l.map (step ask m)) := by
  have hs : ∀ l : List (Value α), steps ask m l = l.map (step ask m) := by
    intro l
    induction l with
    | nil => rfl
    | cons v r ih => rw [steps, ih, List.map_cons]
  simp only [walk, List.foldl_cons, List.foldl_nil, step, h, Option.getD_some, hs]

/-! ### Data and keys of the theorems exist -/

/-- `{"a": {"b": 1, "c.d": [2]}, "e": 3}`. -/
def sample : Obj Nat :=
  [("a".toList, .dict [("b".toList, .atom 1), ("c.d".toList, .list [.atom 2])]), ("e".toList, .atom 3)]

theorem sample_good : GoodDict sample := by
  unfold sample
  simp only [GoodDict, Good, GoodName, Clean, Dict.keys]
  refine ⟨by decide +kernel, by decide +kernel, ⟨by simp, by decide +kernel, by decide +kernel, trivial, by decide +kernel,
    by decide +kernel, rfl, trivial⟩, by decide +kernel, by decide +kernel, trivial, trivial⟩

example : fromLeaves (.dict (leaves [] sample)) = .ok (.dict sample) := C83_leaves_partial sample_good

example : (leaves [] sample).map (fun x => x.1) = ["a.b".toList, "a.c\\.d".toList, "e".toList] := by
  unfold sample
  simp only [leaves, leavesOf]
  rfl

example : Clear sample (names "a.c\\.d".toList) ∧ Clear sample (names "a.x.y".toList) ∧ Apart (names "a.c\\.d".toList) (names "a.b".toList) ∧
    ¬ Clear sample (names "e.x".toList) := by
  have h1 : names "a.c\\.d".toList = ["a".toList, "c.d".toList] := by decide +kernel
  have h2 : names "a.x.y".toList = ["a".toList, "x".toList, "y".toList] := by decide +kernel
  have h3 : names "a.b".toList = ["a".toList, "b".toList] := by decide +kernel
  have h4 : names "e.x".toList = ["e".toList, "x".toList] := by decide +kernel
  rw [h1, h2, h3, h4]
  refine ⟨trivial, ?_, ?_, fun h => h⟩
  · show ∀ x ∈ [("y".toList)].dropLast, '.' ∉ x
    simp
  · unfold Apart
    decide

example : Plain ["a".toList, "b.c".toList] ∧ Plain ["a".toList, "d".toList] ∧
    relativeField "a.b\\.c".toList "a.d".toList = "..b\\.c".toList ∧ concatField "a.d".toList "..b\\.c".toList = "a.b\\.c".toList := by
  refine ⟨?_, ?_, by decide +kernel, by decide +kernel⟩ <;> unfold Plain Clean <;> decide +kernel

end EulerDB.Dots
