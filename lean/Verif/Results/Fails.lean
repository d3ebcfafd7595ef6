import Verif.Results.Props

/-!
# Where results are not what a parse action expects (C95)
-/

namespace EulerDB.Results

/-- **C95 (false: `in`).** A name whose value is false in Python, such as the number of `LIMIT 0`, is not `in` the result, though `tokens[name]` gives the value
and the name is among the keys. -/
theorem C95_fails_in {n : String} (hn : n ≠ "") (v : Nat) :
    let t : T := .res .plain "" (.cons (.res .plain n (.cons (.val v false) .nil)) .nil)
    t.get n = [.val v false] ∧ t.keys = [n] ∧ t.contains n = false := by
  intro t
  have hb : (n != "") = true := bne_iff_ne.2 hn
  have h1 : t.get n = [.val v false] := by
    show (if n = n then [T.val v false] else _) ++ [] = _
    rw [if_pos rfl]
    rfl
  refine ⟨h1, ?_, ?_⟩
  · show List.map (·.1) ((if n != "" then [(n, T.res .plain n (.cons (.val v false) .nil))] else _) ++ []) = [n]
    rw [if_pos hb]
    rfl
  · unfold T.contains
    rw [h1]
    rfl

/-- **C95 (false: empty groups).** So it is with a group without tokens, which is how a list of nothing is kept. -/
theorem C95_fails_in_group :
    let t : T := .res .plain "" (.cons (.res .group "case" .nil) .nil)
    t.get "case" = [.res .group "case" .nil] ∧ t.contains "case" = false := ⟨rfl, rfl⟩

/-- **C95 (false: names behind a `Forward`).** If the expression of a `Forward` has a name, the results of the `Forward` show it to `tokens[name]`, but not to `keys` and
`items`, which ask the token for what is inside it. -/
theorem C95_fails_keys {n : String} (hn : n ≠ "") (v : Nat) (b : Bool) :
    let t : T := .res .plain "" (.cons (.res .fwd "" (.cons (.res .plain n (.cons (.val v b) .nil)) .nil)) .nil)
    t.get n = [.val v b] ∧ t.keys = [] := by
  refine ⟨?_, rfl⟩
  show (if ("" : String) = n then _ else (if n = n then [T.val v b] else _) ++ []) ++ [] = _
  rw [if_neg (Ne.symm hn), if_pos rfl]
  rfl

/-- **C95 (false: truth behind a `Forward`).** A token with a name and nothing in it makes a result true; behind a `Forward` it does not. -/
theorem C95_fails_truth {n : String} (hn : n ≠ "") :
    (T.res .plain "" (.cons (.res .plain n .nil) .nil)).truthy = true ∧
    (T.res .plain "" (.cons (.res .fwd "" (.cons (.res .plain n .nil) .nil)) .nil)).truthy = false := by
  refine ⟨?_, rfl⟩
  show ((n != "" || false || false) || false) = true
  rw [bne_iff_ne.2 hn]
  rfl

/-- **C95 (false: lists).** `as_list` wraps the group behind a `Forward` twice. -/
theorem C95_fails_list (n : String) (ts : Ts) :
    (T.res .plain "" (.cons (.res .fwd "" (.cons (.res .group n ts) .nil)) .nil)).open = [.list [.list ts.open]] ∧
    (T.res .plain "" (.cons (.res .group n ts) .nil)).open = [.list ts.open] := ⟨rfl, rfl⟩

/-- **C95 (false: assigning to a name that is there).** The token with the name is replaced by the bare value: nothing is found under the name any more, and the value is
one more in the iteration. -/
theorem C95_fails_set {n : String} (hn : n ≠ "") (k k' : Kind) (m : String) (hk : k ≠ .fwd) (us ts : Ts) (hd : ts.direct = true) (v : Nat) (b : Bool) :
    (T.set n (.val v b) (.res k m (.cons (.res k' n us) ts))).get n = [] ∧
      .val v b ∈ (T.set n (.val v b) (.res k m (.cons (.res k' n us) ts))).iter := by
  have hp : Ts.put n (.val v b) (.cons (.res k' n us) ts) = (.cons (.val v b) (ts.erase n), true) := by
    show (if n = n then _ else _) = _
    rw [if_pos rfl]
  have e : T.set n (.val v b) (.res k m (.cons (.res k' n us) ts)) = .res k m (.cons (.val v b) (ts.erase n)) := by
    cases k with
    | fwd => exact absurd rfl hk
    | _ => show (if _ then _ else _) = _; rw [hp]; rfl
  rw [e]
  constructor
  · have : (T.res k m (.cons (.val v b) (ts.erase n))).get n = [] ++ (ts.erase n).named n := by
      cases k with
      | fwd => exact absurd rfl hk
      | _ => rfl
    rw [this, erase_named hn ts hd]
    rfl
  · have : (T.res k m (.cons (.val v b) (ts.erase n))).iter = [.val v b] ++ (ts.erase n).iter := by
      cases k with
      | fwd => exact absurd rfl hk
      | _ => rfl
    rw [this]
    exact List.mem_append.2 (.inl (List.mem_singleton.2 rfl))

/-- **C95 (false: deleting behind a `Forward`).** `del tokens[name]` leaves a name that the expression of a `Forward` has. -/
theorem C95_fails_delete :
    let t : T := .res .plain "" (.cons (.res .fwd "" (.cons (.res .plain "a" (.cons (.val 1 true) .nil)) .nil)) .nil)
    (t.erase "a").get "a" = [.val 1 true] := rfl

/-- **C95 (false: the last token).** `tokens[-1]` raises, whatever the tokens. -/
theorem C95_fails_last (t : T) : t.index (-1) = .error .typeError := rfl

end EulerDB.Results
