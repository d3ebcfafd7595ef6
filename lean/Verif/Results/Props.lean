import Verif.Results.Model

/-!
# What parse actions read from a result (C95)
-/

namespace EulerDB.Results

theorem isGroup_direct {k : Kind} {n : String} {ts : Ts} (h : (T.res k n ts).direct = true) : (T.res k n ts).isGroup = decide (k = .group) := by
  cases k with
  | fwd => simp [T.direct] at h
  | plain => rfl
  | group => rfl
  | ann => rfl

theorem direct_parts {k : Kind} {n : String} {ts : Ts} (h : (T.res k n ts).direct = true) : k ≠ .fwd ∧ (k ≠ .ann ∨ n ≠ "") ∧ ts.direct = true := by
  have h' : (decide (k ≠ .fwd) && (decide (k ≠ .ann) || n != "") && ts.direct) = true := h
  simp only [Bool.and_eq_true, Bool.or_eq_true, decide_eq_true_eq, bne_iff_ne] at h'
  exact ⟨h'.1.1, h'.1.2, h'.2⟩

/-! ## Names -/

/-- What is read under the name of a token: the token if it is a group, else its tokens. -/
def T.value : T → List T
  | .val _ _ => []
  | .res k n ts => if (T.res k n ts).isGroup then [.res k n ts] else ts.flatten

mutual
theorem named_iff {n : String} (hn : n ≠ "") (x : T) : (t : T) → (x ∈ t.named n ↔ ∃ u, Shows t u ∧ u.name = n ∧ x ∈ u.value)
  | .val _ _ => by
    constructor
    · intro h
      cases h
    · rintro ⟨u, h, -⟩
      cases h
  | .res k m ts => by
    have e : (T.res k m ts).named n = if m = n then (if (T.res k m ts).isGroup then [.res k m ts] else ts.flatten)
      else if m != "" || (T.res k m ts).isGroup then [] else ts.named n := rfl
    rw [e]
    by_cases hm : m = n
    · rw [if_pos hm]
      subst hm
      constructor
      · intro h
        exact ⟨_, .here hn, rfl, h⟩
      · rintro ⟨u, h, -, hx⟩
        cases h with
        | here _ => exact hx
        | inside _ _ => exact absurd rfl hn
    · rw [if_neg hm]
      by_cases hm' : m = ""
      · subst hm'
        by_cases hg : (T.res k "" ts).isGroup = true
        · rw [hg]
          constructor
          · intro h
            cases h
          · rintro ⟨u, h, hu, -⟩
            cases h with
            | here h => exact absurd rfl h
            | inside h _ => rw [h] at hg; cases hg
        · have hg' : (T.res k "" ts).isGroup = false := by simpa using hg
          rw [hg']
          show x ∈ ts.named n ↔ _
          rw [nameds_iff hn x ts]
          constructor
          · rintro ⟨u, h, hu⟩
            exact ⟨u, .inside hg' h, hu⟩
          · rintro ⟨u, h, hu⟩
            cases h with
            | here h => exact absurd rfl h
            | inside _ h => exact ⟨u, h, hu⟩
      · have : (m != "" || (T.res k m ts).isGroup) = true := by
          rw [bne_iff_ne.2 hm']
          rfl
        rw [this]
        constructor
        · intro h
          cases h
        · rintro ⟨u, h, hu, -⟩
          cases h with
          | here _ => exact absurd hu hm
          | inside _ _ => exact absurd rfl hm'
theorem nameds_iff {n : String} (hn : n ≠ "") (x : T) : (ts : Ts) → (x ∈ ts.named n ↔ ∃ u, Among ts u ∧ u.name = n ∧ x ∈ u.value)
  | .nil => by
    constructor
    · intro h
      cases h
    · rintro ⟨u, h, -⟩
      cases h
  | .cons t ts => by
    show x ∈ t.named n ++ ts.named n ↔ _
    rw [List.mem_append, named_iff hn x t, nameds_iff hn x ts]
    constructor
    · rintro (⟨u, h, hu⟩ | ⟨u, h, hu⟩)
      · exact ⟨u, .head h, hu⟩
      · exact ⟨u, .tail h, hu⟩
    · rintro ⟨u, h, hu⟩
      cases h with
      | head h => exact .inl ⟨u, h, hu⟩
      | tail h => exact .inr ⟨u, h, hu⟩
end

/-- **C95 (reading by name).** `tokens[name]` gives what stands under the name in the tokens that the result shows, and nothing from inside a group or
from under another name. -/
theorem C95_get {n : String} (hn : n ≠ "") (k : Kind) (hk : k ≠ .fwd) (m : String) (ts : Ts) (x : T) :
    x ∈ (T.res k m ts).get n ↔ ∃ u, Among ts u ∧ u.name = n ∧ x ∈ u.value := by
  have e : (T.res k m ts).get n = ts.named n := by
    cases k with
    | fwd => exact absurd rfl hk
    | _ => rfl
  rw [e, nameds_iff hn]

mutual
theorem pairs_iff (p : String × T) : (t : T) → t.direct = true → (p ∈ t.pairs ↔ Shows t p.2 ∧ p.2.name = p.1)
  | .val _ _, _ => by
    constructor
    · intro h
      cases h
    · rintro ⟨h, -⟩
      cases h
  | .res k m ts, hd => by
    have e : (T.res k m ts).pairs = if m != "" then [(m, .res k m ts)] else if (T.res k m ts).isGroup then [] else if k = .fwd then ts.headItems else ts.items := rfl
    rw [e]
    by_cases hm : m = ""
    · subst hm
      have h1 : ((("" : String) != "") = true) = False := by simp
      rw [if_neg (by simp)]
      by_cases hg : (T.res k "" ts).isGroup = true
      · rw [if_pos hg]
        constructor
        · intro h
          cases h
        · rintro ⟨h, -⟩
          obtain ⟨a, b⟩ := p
          cases h with
          | here h => exact absurd rfl h
          | inside h _ => rw [h] at hg; cases hg
      · rw [if_neg hg, if_neg (direct_parts hd).1, items_iff p ts (direct_parts hd).2.2]
        have hg' : (T.res k "" ts).isGroup = false := by simpa using hg
        obtain ⟨a, b⟩ := p
        constructor
        · rintro ⟨h, hu⟩
          exact ⟨.inside hg' h, hu⟩
        · rintro ⟨h, hu⟩
          cases h with
          | here h => exact absurd rfl h
          | inside _ h => exact ⟨h, hu⟩
    · rw [if_pos (bne_iff_ne.2 hm)]
      obtain ⟨a, b⟩ := p
      constructor
      · intro h
        have h' : (a, b) = (m, T.res k m ts) := List.mem_singleton.1 h
        injection h' with h1 h2
        subst h1 h2
        exact ⟨.here hm, rfl⟩
      · rintro ⟨h, hu⟩
        have hu' : b.name = a := hu
        have h' : Shows (T.res k m ts) b := h
        cases h' with
        | here _ =>
          have : m = a := hu'
          subst this
          exact List.mem_singleton.2 rfl
        | inside _ _ => exact absurd rfl hm
theorem items_iff (p : String × T) : (ts : Ts) → ts.direct = true → (p ∈ ts.items ↔ Among ts p.2 ∧ p.2.name = p.1)
  | .nil, _ => by
    constructor
    · intro h
      cases h
    · rintro ⟨h, -⟩
      cases h
  | .cons t ts, hd => by
    have hd' : (t.direct && ts.direct) = true := hd
    rw [Bool.and_eq_true] at hd'
    show p ∈ t.pairs ++ ts.items ↔ _
    rw [List.mem_append, pairs_iff p t hd'.1, items_iff p ts hd'.2]
    constructor
    · rintro (⟨h, hu⟩ | ⟨h, hu⟩)
      · exact ⟨.head h, hu⟩
      · exact ⟨.tail h, hu⟩
    · rintro ⟨h, hu⟩
      generalize p.2 = b at h hu
      cases h with
      | head h => exact .inl ⟨h, hu⟩
      | tail h => exact .inr ⟨h, hu⟩
end

/-- **C95 (partial: the names of a result).** Without `ForwardResults` in it, the pairs of `items` are the tokens that the result shows with their names;
so every name under which `tokens[name]` finds something is among `keys`. -/
theorem C95_items_partial (k : Kind) (m : String) (ts : Ts) (hd : (T.res k m ts).direct = true) (n : String) (u : T) :
    (n, u) ∈ (T.res k m ts).items ↔ Among ts u ∧ u.name = n := by
  have e : (T.res k m ts).items = ts.items := by
    cases k with
    | fwd => exact absurd rfl (direct_parts hd).1
    | _ => rfl
  rw [e]
  exact items_iff (n, u) ts (direct_parts hd).2.2

theorem C95_keys_partial (k : Kind) (m : String) (ts : Ts) (hd : (T.res k m ts).direct = true) {n : String} (hn : n ≠ "") (h : (T.res k m ts).get n ≠ []) :
    n ∈ (T.res k m ts).keys := by
  obtain ⟨x, hx⟩ := List.exists_mem_of_ne_nil _ h
  obtain ⟨u, hu, hun, -⟩ := (C95_get hn k (direct_parts hd).1 m ts x).1 hx
  exact List.mem_map.2 ⟨(n, u), (C95_items_partial k m ts hd n u).2 ⟨hu, hun⟩, rfl⟩

/-- **C95 (partial: `in`).** A name that is `in` the result is under `tokens[name]`; the converse needs the value to be true. -/
theorem C95_in_partial (n : String) (t : T) (h : t.contains n = true) : t.get n ≠ [] := by
  intro e
  unfold T.contains at h
  rw [e] at h
  cases h

/-! ## Truth, iteration, lists -/

mutual
theorem counts_iff : (t : T) → t.direct = true → (t.counts = false ↔ t.yield = [] ∧ t.pairs = [])
  | .val _ _, _ => by
    constructor
    · intro h
      cases h
    · rintro ⟨h, -⟩
      cases h
  | .res k n ts, hd => by
    obtain ⟨hk, ha, ht⟩ := direct_parts hd
    have ih := truthy_iff ts ht
    have e : (T.res k n ts).pairs = if n != "" then [(n, .res k n ts)] else if (T.res k n ts).isGroup then [] else if k = .fwd then ts.headItems else ts.items := rfl
    rw [e]
    by_cases hn : n = ""
    · subst hn
      rw [if_neg (by simp)]
      cases k with
      | fwd => exact absurd rfl hk
      | ann =>
        rcases ha with h | h
        · exact absurd rfl h
        · exact absurd rfl h
      | plain => exact ih
      | group =>
        constructor
        · intro h
          cases h
        · rintro ⟨h, -⟩
          cases h
    · have hb : (n != "") = true := bne_iff_ne.2 hn
      rw [if_pos hb]
      constructor
      · intro h
        have : (T.res k n ts).counts = true := by
          cases k <;> simp [T.counts, hn]
        rw [this] at h
        cases h
      · rintro ⟨-, h⟩
        cases h
theorem truthy_iff : (ts : Ts) → ts.direct = true → (ts.truthy = false ↔ ts.iter = [] ∧ ts.items = [])
  | .nil, _ => ⟨fun _ => ⟨rfl, rfl⟩, fun _ => rfl⟩
  | .cons t ts, hd => by
    have hd' : (t.direct && ts.direct) = true := hd
    rw [Bool.and_eq_true] at hd'
    show (t.counts || ts.truthy) = false ↔ t.yield ++ ts.iter = [] ∧ t.pairs ++ ts.items = []
    rw [Bool.or_eq_false_iff, counts_iff t hd'.1, truthy_iff ts hd'.2, List.append_eq_nil_iff, List.append_eq_nil_iff]
    constructor
    · rintro ⟨⟨a, b⟩, c, d⟩
      exact ⟨⟨a, c⟩, b, d⟩
    · rintro ⟨⟨a, c⟩, b, d⟩
      exact ⟨⟨a, b⟩, c, d⟩
end

/-- **C95 (partial: truth).** Without `ForwardResults`, a result is false exactly if it gives nothing when iterated over and has no names. -/
theorem C95_truth_partial (k : Kind) (m : String) (ts : Ts) (hd : (T.res k m ts).direct = true) :
    (T.res k m ts).truthy = false ↔ (T.res k m ts).iter = [] ∧ (T.res k m ts).keys = [] := by
  have h := truthy_iff ts (direct_parts hd).2.2
  have e1 : (T.res k m ts).truthy = ts.truthy := by
    cases k with
    | fwd => exact absurd rfl (direct_parts hd).1
    | _ => rfl
  have e2 : (T.res k m ts).iter = ts.iter := by
    cases k with
    | fwd => exact absurd rfl (direct_parts hd).1
    | _ => rfl
  have e3 : (T.res k m ts).keys = ts.items.map (·.1) := by
    cases k with
    | fwd => exact absurd rfl (direct_parts hd).1
    | _ => rfl
  rw [e1, e2, e3, h, List.map_eq_nil_iff]

/-- The list of a token of an iteration: a value, or a group as a list. -/
def T.asItem : T → L
  | .val v _ => .leaf v
  | .res _ _ ts => .list ts.open

mutual
theorem open_yield : (t : T) → t.direct = true → t.open = t.yield.map T.asItem
  | .val _ _, _ => rfl
  | .res k n ts, hd => by
    obtain ⟨hk, -, ht⟩ := direct_parts hd
    cases k with
    | fwd => exact absurd rfl hk
    | ann => rfl
    | group => rfl
    | plain => exact open_iter ts ht
theorem open_iter : (ts : Ts) → ts.direct = true → ts.open = ts.iter.map T.asItem
  | .nil, _ => rfl
  | .cons t ts, hd => by
    have hd' : (t.direct && ts.direct) = true := hd
    rw [Bool.and_eq_true] at hd'
    show t.open ++ ts.open = (t.yield ++ ts.iter).map T.asItem
    rw [open_yield t hd'.1, open_iter ts hd'.2, List.map_append]
end

/-- **C95 (partial: lists).** Without `ForwardResults`, `as_list` gives what iterating gives, groups as lists. -/
theorem C95_list_partial (n : String) (ts : Ts) (hd : ts.direct = true) : (T.res .plain n ts).open = (T.res .plain n ts).iter.map T.asItem :=
  open_iter ts hd

/-- **C95 (indexing).** A negative index raises TypeError (there is no `__len__`), one beyond the end gives None instead of raising. -/
theorem C95_index (t : T) (i : Int) : (i < 0 → t.index i = .error .typeError) ∧ (t.iter.length ≤ i → t.index i = .ok none) ∧
    ∀ j : Nat, t.index j = .ok t.iter[j]? := by
  refine ⟨fun h => if_pos h, fun h => ?_, fun j => ?_⟩
  · unfold T.index
    have h0 : ¬ i < 0 := by omega
    rw [if_neg h0, List.getElem?_eq_none (by omega)]
  · unfold T.index
    have h0 : ¬ (j : Int) < 0 := by omega
    rw [if_neg h0]
    rfl

/-! ## Assigning and deleting -/

theorem named_append (n : String) (u : Ts) : (ts : Ts) → (ts.append u).named n = ts.named n ++ u.named n
  | .nil => rfl
  | .cons t ts => by
    show t.named n ++ (ts.append u).named n = t.named n ++ ts.named n ++ u.named n
    rw [named_append n u ts, List.append_assoc]

theorem none_named {n : String} (hn : n ≠ "") : none'.named n = [] := by
  show (if ("" : String) = n then _ else _) = _
  rw [if_neg (Ne.symm hn)]
  rfl

mutual
theorem eraseIn_named {n : String} (hn : n ≠ "") : (t : T) → t.direct = true → (t.eraseIn n).named n = []
  | .val _ _, _ => rfl
  | .res k m ts, hd => by
    obtain ⟨hk, -, ht⟩ := direct_parts hd
    have e : (T.res k m ts).eraseIn n = if m = n then none' else if (T.res k m ts).isGroup || m != "" then .res k m ts
      else if k = .fwd then .res k m (ts.headErase n) else .res k m (ts.erase n) := rfl
    rw [e]
    by_cases hm : m = n
    · rw [if_pos hm]
      exact none_named hn
    · rw [if_neg hm]
      split
      · next h =>
        show (if m = n then _ else if m != "" || (T.res k m ts).isGroup then [] else _) = _
        rw [if_neg hm, Bool.or_comm, if_pos h]
      · show (if m = n then _ else if m != "" || (T.res k m (ts.erase n)).isGroup then [] else (ts.erase n).named n) = _
        rw [if_neg hm]
        split
        · rfl
        · exact erase_named hn ts ht
theorem erase_named {n : String} (hn : n ≠ "") : (ts : Ts) → ts.direct = true → (ts.erase n).named n = []
  | .nil, _ => rfl
  | .cons t ts, hd => by
    have hd' : (t.direct && ts.direct) = true := hd
    rw [Bool.and_eq_true] at hd'
    show (t.eraseIn n).named n ++ (ts.erase n).named n = []
    rw [eraseIn_named hn t hd'.1, erase_named hn ts hd'.2]
    rfl
end

/-- **C95 (partial: deleting).** Without `ForwardResults`, after `del tokens[name]` nothing is found under the name. -/
theorem C95_delete_partial {n : String} (hn : n ≠ "") (k : Kind) (m : String) (ts : Ts) (hd : (T.res k m ts).direct = true) :
    ((T.res k m ts).erase n).get n = [] := by
  obtain ⟨hk, -, ht⟩ := direct_parts hd
  cases k with
  | fwd => exact absurd rfl hk
  | _ => exact erase_named hn ts ht

theorem put_absent {n : String} (hn : n ≠ "") (v : T) : (ts : Ts) → ts.direct = true → (∀ u, Among ts u → u.name ≠ n) →
    (Ts.put n v ts).2 = false ∧ (Ts.put n v ts).1.named n = []
  | .nil, _, _ => ⟨rfl, rfl⟩
  | .cons t ts, hd, h => by
    have hd' : (t.direct && ts.direct) = true := hd
    rw [Bool.and_eq_true] at hd'
    obtain ⟨h1, h2⟩ := put_absent hn v ts hd'.2 fun u hu => h u (.tail hu)
    cases t with
    | val a b => exact ⟨h1, h2⟩
    | res k m us =>
      have hm : m ≠ n := by
        intro e
        exact h (.res k m us) (.head (.here (by rw [e]; exact hn))) e
      have e : Ts.put n v (.cons (.res k m us) ts) = (.cons ((T.res k m us).eraseIn n) (Ts.put n v ts).1, (Ts.put n v ts).2) := by
        show (if m = n then _ else _) = _
        rw [if_neg hm]
      rw [e]
      refine ⟨h1, ?_⟩
      show ((T.res k m us).eraseIn n).named n ++ (Ts.put n v ts).1.named n = []
      rw [eraseIn_named hn _ hd'.1, h2]
      rfl

/-- **C95 (partial: assigning a new name).** Without `ForwardResults`, a value assigned to a name that the result does not show is found under
it. -/
theorem C95_set_partial {n : String} (hn : n ≠ "") (k : Kind) (m : String) (ts : Ts) (hd : (T.res k m ts).direct = true)
    (h : ∀ u, Among ts u → u.name ≠ n) (v : Nat) (b : Bool) : (T.set n (.val v b) (.res k m ts)).get n = [.val v b] := by
  obtain ⟨hk, -, ht⟩ := direct_parts hd
  obtain ⟨h1, h2⟩ := put_absent hn (.val v b) ts ht h
  have e : T.set n (.val v b) (.res k m ts) = .res k m ((Ts.put n (.val v b) ts).1.append (.cons (.res .ann n (annTokens (.val v b))) .nil)) := by
    cases k with
    | fwd => exact absurd rfl hk
    | _ => show (if _ then _ else _) = _; rw [h1]; rfl
  have e' : ∀ us : Ts, (T.res k m us).get n = us.named n := by
    intro us
    cases k with
    | fwd => exact absurd rfl hk
    | _ => rfl
  rw [e, e', named_append, h2]
  show (if n = n then _ else _) ++ [] = _
  rw [if_pos rfl]
  rfl

/-- A result as of `select a as x`: a value under a name, and a group under another. -/
example : (T.res .plain "" (.cons (.res .plain "value" (.cons (.val 1 true) .nil)) (.cons (.res .group "name" .nil) .nil))).direct = true ∧
    (T.res .plain "" (.cons (.res .plain "value" (.cons (.val 1 true) .nil)) (.cons (.res .group "name" .nil) .nil))).keys = ["value", "name"] := by decide

end EulerDB.Results
