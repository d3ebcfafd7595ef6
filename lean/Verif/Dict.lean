import Verif.Py

/-!
# Python dictionaries

An insertion-ordered association list.  `set` replaces in place or appends, as `d[k] = v` does.
-/

namespace EulerDB

/-- A Python dict. -/
abbrev Dict (κ α : Type) := List (κ × α)

namespace Dict

variable {κ α : Type} [DecidableEq κ]

/-- `d.get(k)`. -/
def get? : Dict κ α → κ → Option α
  | [], _ => none
  | (k', v) :: r, k => if k' = k then some v else get? r k

/-- `d[k] = v`. -/
def set : Dict κ α → κ → α → Dict κ α
  | [], k, v => [(k, v)]
  | (k', v') :: r, k, v => if k' = k then (k', v) :: r else (k', v') :: set r k v

/-- `d.pop(k, None)`. -/
def erase (d : Dict κ α) (k : κ) : Dict κ α := d.filter fun e => decide (e.1 ≠ k)

/-- `d.keys()`. -/
def keys (d : Dict κ α) : List κ := d.map Prod.fst

/-- `d[k]`. -/
def getItem (d : Dict κ α) (k : κ) : Except PyErr α :=
  match get? d k with
  | some v => .ok v
  | none => .error .keyError

@[simp] theorem get?_nil (k : κ) : get? ([] : Dict κ α) k = none := rfl

theorem get?_cons (k' : κ) (v : α) (r : Dict κ α) (k : κ) : get? ((k', v) :: r) k = if k' = k then some v else get? r k := rfl

@[simp] theorem get?_set_self (d : Dict κ α) (k : κ) (v : α) : get? (set d k v) k = some v := by
  induction d with
  | nil => simp [set, get?]
  | cons e r ih =>
    obtain ⟨k', v'⟩ := e
    unfold set
    split
    · rename_i h; simp [get?, h]
    · rename_i h; simp [get?, h, ih]

theorem get?_set_ne (d : Dict κ α) {k k' : κ} (h : k' ≠ k) (v : α) : get? (set d k v) k' = get? d k' := by
  induction d with
  | nil => simp [set, get?, Ne.symm h]
  | cons e r ih =>
    obtain ⟨a, b⟩ := e
    unfold set
    split
    · rename_i ha
      subst ha
      simp [get?, Ne.symm h]
    · simp only [get?, ih]

theorem get?_set (d : Dict κ α) (k k' : κ) (v : α) : get? (set d k v) k' = if k' = k then some v else get? d k' := by
  split
  · rename_i h; subst h; exact get?_set_self _ _ _
  · rename_i h; exact get?_set_ne _ h _

@[simp] theorem get?_erase_self (d : Dict κ α) (k : κ) : get? (erase d k) k = none := by
  unfold erase
  induction d with
  | nil => rfl
  | cons e r ih =>
    obtain ⟨a, b⟩ := e
    rw [List.filter_cons]
    split
    · rename_i ha
      have ha' : a ≠ k := by simpa using ha
      simp only [get?, if_neg ha']
      exact ih
    · exact ih

theorem get?_erase_ne (d : Dict κ α) {k k' : κ} (h : k' ≠ k) : get? (erase d k) k' = get? d k' := by
  unfold erase
  induction d with
  | nil => rfl
  | cons e r ih =>
    obtain ⟨a, b⟩ := e
    rw [List.filter_cons]
    split
    · simp only [get?, ih]
    · rename_i ha
      have ha' : a = k := by simpa using ha
      subst ha'
      simp only [get?, if_neg (Ne.symm h)]
      exact ih

theorem get?_eq_none_iff (d : Dict κ α) (k : κ) : get? d k = none ↔ k ∉ keys d := by
  induction d with
  | nil => simp [keys]
  | cons e r ih =>
    obtain ⟨a, b⟩ := e
    unfold get? keys
    by_cases h : a = k
    · simp [h]
    · simp only [if_neg h, List.map_cons, List.mem_cons, not_or]
      rw [ih]
      exact ⟨fun hx => ⟨Ne.symm h, hx⟩, fun hx => hx.2⟩

theorem set_of_none (d : Dict κ α) (k : κ) (v : α) (h : get? d k = none) : set d k v = d ++ [(k, v)] := by
  induction d with
  | nil => rfl
  | cons e r ih =>
    obtain ⟨a, b⟩ := e
    unfold get? at h
    split at h
    · cases h
    · rename_i ha
      unfold set
      rw [if_neg ha, ih h, List.cons_append]

theorem get?_append (d e : Dict κ α) (k : κ) : get? (d ++ e) k = (get? d k).or (get? e k) := by
  induction d with
  | nil => simp
  | cons x r ih =>
    obtain ⟨a, b⟩ := x
    rw [List.cons_append, get?_cons, get?_cons]
    split
    · simp
    · exact ih

theorem mem_of_get? {d : Dict κ α} {k : κ} {v : α} (h : get? d k = some v) : (k, v) ∈ d := by
  induction d with
  | nil => cases h
  | cons x r ih =>
    obtain ⟨a, b⟩ := x
    unfold get? at h
    split at h
    · rename_i ha; injection h with h; subst ha; subst h; simp
    · exact List.mem_cons_of_mem _ (ih h)

theorem get?_of_mem_nodup {d : Dict κ α} {k : κ} {v : α} (hn : (keys d).Nodup) (h : (k, v) ∈ d) : get? d k = some v := by
  induction d with
  | nil => cases h
  | cons x r ih =>
    obtain ⟨a, b⟩ := x
    unfold keys at hn
    rw [List.map_cons, List.nodup_cons] at hn
    unfold get?
    rcases List.mem_cons.1 h with h | h
    · injection h with h1 h2; subst h1; subst h2; simp
    · have : a ≠ k := by
        rintro rfl
        exact hn.1 (List.mem_map.2 ⟨(a, v), h, rfl⟩)
      rw [if_neg this]
      exact ih hn.2 h

theorem keys_set (d : Dict κ α) (k : κ) (v : α) : keys (set d k v) = if k ∈ keys d then keys d else keys d ++ [k] := by
  induction d with
  | nil => simp [set, keys]
  | cons x r ih =>
    obtain ⟨a, b⟩ := x
    unfold set
    by_cases h : a = k
    · simp [h, keys]
    · rw [if_neg h]
      have e1 : keys ((a, b) :: set r k v) = a :: keys (set r k v) := rfl
      have e2 : keys ((a, b) :: r) = a :: keys r := rfl
      rw [e1, e2, ih]
      by_cases hk : k ∈ keys r
      · simp [hk]
      · simp [hk, Ne.symm h]

theorem nodup_set {d : Dict κ α} {k : κ} {v : α} (h : (keys d).Nodup) : (keys (set d k v)).Nodup := by
  rw [keys_set]
  split
  · exact h
  · rename_i hk
    rw [List.nodup_append]
    refine ⟨h, by simp, ?_⟩
    intro a ha b hb e
    rw [List.mem_singleton] at hb
    subst hb; subst e; exact hk ha

theorem nodup_erase {d : Dict κ α} {k : κ} (h : (keys d).Nodup) : (keys (erase d k)).Nodup := by
  unfold keys erase
  exact List.Nodup.sublist (List.Sublist.map _ List.filter_sublist) h

end Dict

end EulerDB
