/-
The backend reads a condition as it was meant: the tokens of a condition are read as an expression with
the same truth value on every row.
-/
import Verif.Whole.Text

namespace EulerDB.Whole

open EulerDB EulerDB.Clause

/-! ### Chains of operands -/

/-- An operand of AND: its tokens and what they are read as. -/
structure Item where
  toks : List MTok
  ex : MEx

def tailToks (op : List Char) : List (List MTok) → List MTok
  | [] => []
  | w :: ws => .word op :: (w ++ tailToks op ws)

theorem joinToks_cons (op : List Char) (w : List MTok) : ∀ ws, joinToks op (w :: ws) = w ++ tailToks op ws
  | [] => by simp [joinToks, tailToks]
  | v :: ws => by rw [joinToks, joinToks_cons op v ws, tailToks]; simp

theorem tailToks_append (op : List Char) : ∀ (l m : List (List MTok)), tailToks op (l ++ m) = tailToks op l ++ tailToks op m
  | [], m => by simp [tailToks]
  | w :: l, m => by simp [tailToks, tailToks_append op l m]

theorem joinToks_append {op : List Char} {l m : List (List MTok)} (hl : l ≠ []) : joinToks op (l ++ m) = joinToks op l ++ tailToks op m := by
  cases l with
  | nil => exact absurd rfl hl
  | cons w l => simp [joinToks_cons, tailToks_append]

theorem joinToks_flatten {op : List Char} : ∀ {l : List (List (List MTok))}, (∀ m ∈ l, m ≠ []) →
    joinToks op (l.map (joinToks op)) = joinToks op l.flatten ∧ tailToks op (l.map (joinToks op)) = tailToks op l.flatten
  | [], _ => by simp [joinToks, tailToks]
  | m :: l, h => by
    have ih := joinToks_flatten (op := op) (l := l) fun x hx => h x (by simp [hx])
    have hm := h m (by simp)
    have ht : tailToks op ((m :: l).map (joinToks op)) = tailToks op (m :: l).flatten := by
      rw [List.map_cons, tailToks, ih.2, List.flatten_cons, tailToks_append]
      cases m with
      | nil => exact absurd rfl hm
      | cons w m => simp [joinToks_cons, tailToks]
    refine ⟨?_, ht⟩
    rw [List.map_cons, joinToks_cons, ih.2, List.flatten_cons, joinToks_append hm]

section
variable (res : List Char → Bool)

/-- What follows is no comparison. -/
def NoCmp (rest : List MTok) : Prop := ∀ o r, rest ≠ .cmp o :: r

/-- The operand is read as it should be by `compar`. -/
def Good (ex : List MTok → Option (MEx × List MTok)) (i : Item) : Prop :=
  ∀ rest, NoCmp rest → compar res ex (i.toks ++ rest) = some (i.ex, rest)

/-- What follows is no keyword `k`. -/
def NoKw (k : String) (rest : List MTok) : Prop := ∀ w r, rest = .word w :: r → isKw k w = false

/-- The items joined by AND. -/
def andEx : MEx → List Item → MEx
  | a, [] => a
  | a, i :: l => andEx (.and a i.ex) l

theorem noCmp_tail (op : List Char) (l : List (List MTok)) {rest : List MTok} (h : NoCmp rest) : NoCmp (tailToks op l ++ rest) := by
  cases l with
  | nil => simpa [tailToks] using h
  | cons w l => intro o r; simp [tailToks]

theorem andTail_chain {ex : List MTok → Option (MEx × List MTok)} {rest : List MTok} (h1 : NoCmp rest) (h2 : NoKw "AND" rest) :
    ∀ (l : List Item) (n : Nat) (a : MEx), (∀ i ∈ l, Good res ex i) → (tailToks "AND".toList (l.map Item.toks) ++ rest).length ≤ n →
    andTail res ex n a (tailToks "AND".toList (l.map Item.toks) ++ rest) = some (andEx a l, rest)
  | [], n, a, _, hn => by
    simp only [List.map_nil, tailToks, List.nil_append, andEx]
    cases n with
    | zero => rfl
    | succ n =>
      cases rest with
      | nil => rfl
      | cons k r =>
        cases k with
        | word w => simp [andTail, h2 w r rfl]
        | _ => rfl
  | i :: l, n, a, hg, hn => by
    simp only [List.map_cons, tailToks, List.cons_append, List.append_assoc] at hn ⊢
    cases n with
    | zero => simp at hn
    | succ n =>
      have hk : isKw "AND" "AND".toList = true := by decide
      rw [andTail, if_pos hk, hg i (by simp) _ (noCmp_tail _ _ h1)]
      simp only [Option.bind_some]
      rw [andEx]
      refine andTail_chain h1 h2 l n _ (fun j hj => hg j (by simp [hj])) ?_
      simp only [List.length_cons, List.length_append] at hn ⊢
      omega

theorem conj_chain {ex : List MTok → Option (MEx × List MTok)} {rest : List MTok} (h1 : NoCmp rest) (h2 : NoKw "AND" rest) (i : Item) (l : List Item)
    (hg : ∀ j ∈ i :: l, Good res ex j) :
    conj res ex (joinToks "AND".toList ((i :: l).map Item.toks) ++ rest) = some (andEx i.ex l, rest) := by
  rw [List.map_cons, joinToks_cons, List.append_assoc, conj, hg i (by simp) _ (noCmp_tail _ _ h1)]
  simp only [Option.bind_some]
  exact andTail_chain res h1 h2 l _ _ (fun j hj => hg j (by simp [hj])) (Nat.le_refl _)

/-- What a nonempty list of items is read as. -/
def groupEx : List Item → MEx
  | [] => .int 0
  | i :: l => andEx i.ex l

def groupToks (g : List Item) : List MTok := joinToks "AND".toList (g.map Item.toks)

/-- The groups joined by OR. -/
def orEx : MEx → List (List Item) → MEx
  | a, [] => a
  | a, g :: l => orEx (.or a (groupEx g)) l

theorem noKw_tail_or (l : List (List MTok)) {rest : List MTok} (h : NoKw "AND" rest) : NoKw "AND" (tailToks "OR".toList l ++ rest) := by
  cases l with
  | nil => simpa [tailToks] using h
  | cons w l =>
    intro w' r he
    simp only [tailToks, List.cons_append, List.cons.injEq, MTok.word.injEq] at he
    rw [← he.1]
    decide

theorem conj_group {ex : List MTok → Option (MEx × List MTok)} {rest : List MTok} (h1 : NoCmp rest) (h2 : NoKw "AND" rest) {g : List Item} (hn : g ≠ [])
    (hg : ∀ j ∈ g, Good res ex j) : conj res ex (groupToks g ++ rest) = some (groupEx g, rest) := by
  cases g with
  | nil => exact absurd rfl hn
  | cons i l => exact conj_chain res h1 h2 i l hg

theorem orTail_chain {ex : List MTok → Option (MEx × List MTok)} {rest : List MTok} (h1 : NoCmp rest) (h2 : NoKw "AND" rest) (h3 : NoKw "OR" rest) :
    ∀ (l : List (List Item)) (n : Nat) (a : MEx), (∀ g ∈ l, g ≠ [] ∧ ∀ i ∈ g, Good res ex i) →
    (tailToks "OR".toList (l.map groupToks) ++ rest).length ≤ n →
    orTail res ex n a (tailToks "OR".toList (l.map groupToks) ++ rest) = some (orEx a l, rest)
  | [], n, a, _, hn => by
    simp only [List.map_nil, tailToks, List.nil_append, orEx]
    cases n with
    | zero => rfl
    | succ n =>
      cases rest with
      | nil => rfl
      | cons k r =>
        cases k with
        | word w => simp [orTail, h3 w r rfl]
        | _ => rfl
  | g :: l, n, a, hg, hn => by
    simp only [List.map_cons, tailToks, List.cons_append, List.append_assoc] at hn ⊢
    cases n with
    | zero => simp at hn
    | succ n =>
      have hk : isKw "OR" "OR".toList = true := by decide
      obtain ⟨h4, h5⟩ := hg g (by simp)
      rw [orTail, if_pos hk, conj_group res (noCmp_tail _ _ h1) (noKw_tail_or _ h2) h4 h5]
      simp only [Option.bind_some]
      rw [orEx]
      refine orTail_chain h1 h2 h3 l n _ (fun j hj => hg j (by simp [hj])) ?_
      simp only [List.length_cons, List.length_append] at hn ⊢
      omega

/-- What a nonempty list of groups is read as. -/
def wholeEx : List (List Item) → MEx
  | [] => .int 0
  | g :: l => orEx (groupEx g) l

def wholeToks (l : List (List Item)) : List MTok := joinToks "OR".toList (l.map groupToks)

theorem disj_whole {ex : List MTok → Option (MEx × List MTok)} {rest : List MTok} (h1 : NoCmp rest) (h2 : NoKw "AND" rest) (h3 : NoKw "OR" rest)
    {l : List (List Item)} (hn : l ≠ []) (hg : ∀ g ∈ l, g ≠ [] ∧ ∀ i ∈ g, Good res ex i) :
    disj res ex (wholeToks l ++ rest) = some (wholeEx l, rest) := by
  cases l with
  | nil => exact absurd rfl hn
  | cons g l =>
    obtain ⟨h4, h5⟩ := hg g (by simp)
    rw [wholeToks, List.map_cons, joinToks_cons, List.append_assoc, disj, conj_group res (noCmp_tail _ _ h1) (noKw_tail_or _ h2) h4 h5]
    simp only [Option.bind_some, wholeEx]
    exact orTail_chain res h1 h2 h3 l _ _ (fun j hj => hg j (by simp [hj])) (Nat.le_refl _)

end

/-! ### Conditions -/

def Rhs.ex : Rhs → MEx
  | .int z => .int z
  | .lit s => .text s
  | .quoted s => .text s

def leafItem (o : WOp) (b : String) (r : Rhs) : Item := ⟨.word b.toList :: .cmp o.mcmp :: r.toks, .cmp o.mcmp (.name b) r.ex⟩

mutual
/-- The condition as operands of AND. -/
def W.items : W → List Item
  | .leaf o b r => [leafItem o b r]
  | .and l => W.itemsL l
  | .or l => [⟨.lp :: (wholeToks (W.groupsL l) ++ [.rp]), wholeEx (W.groupsL l)⟩]

def W.itemsL : List W → List Item
  | [] => []
  | x :: r => x.items ++ W.itemsL r

/-- The condition as operands of OR. -/
def W.groups : W → List (List Item)
  | .leaf o b r => [[leafItem o b r]]
  | .and l => [W.itemsL l]
  | .or l => W.groupsL l

def W.groupsL : List W → List (List Item)
  | [] => []
  | x :: r => x.groups ++ W.groupsL r
end

mutual
theorem W.items_ne {P : Writer} {res : List Char → Bool} : ∀ (x : W), x.Ok P res → x.items ≠ []
  | .leaf o b r, _ => by simp [W.items]
  | .and l, h => by rw [W.Ok] at h; rw [W.items]; exact W.itemsL_ne l h.2 h.1
  | .or l, _ => by simp [W.items]

theorem W.itemsL_ne {P : Writer} {res : List Char → Bool} : ∀ (l : List W), W.OkAll P res l → l ≠ [] → W.itemsL l ≠ []
  | [], _, hn => absurd rfl hn
  | x :: r, h, _ => by
    rw [W.OkAll] at h
    rw [W.itemsL]
    simp [W.items_ne x h.1]

theorem W.groups_ne {P : Writer} {res : List Char → Bool} : ∀ (x : W), x.Ok P res → x.groups ≠ [] ∧ ∀ g ∈ x.groups, g ≠ []
  | .leaf o b r, _ => by simp [W.groups]
  | .and l, h => by
    rw [W.Ok] at h
    simpa [W.groups] using W.itemsL_ne l h.2 h.1
  | .or l, h => by
    rw [W.Ok] at h
    rw [W.groups]
    exact ⟨(W.groupsL_ne l h.2).1 h.1, (W.groupsL_ne l h.2).2⟩

theorem W.groupsL_ne {P : Writer} {res : List Char → Bool} : ∀ (l : List W), W.OkAll P res l → (l ≠ [] → W.groupsL l ≠ []) ∧ ∀ g ∈ W.groupsL l, g ≠ []
  | [], _ => by simp [W.groupsL]
  | x :: r, h => by
    rw [W.OkAll] at h
    have h1 := W.groups_ne x h.1
    have h2 := W.groupsL_ne r h.2
    rw [W.groupsL]
    refine ⟨fun _ => by simp [h1.1], ?_⟩
    intro g hg
    rcases List.mem_append.1 hg with hg | hg
    · exact h1.2 g hg
    · exact h2.2 g hg
end

theorem groupToks_ne_flat {l : List (List Item)} : wholeToks l = joinToks "OR".toList (l.map groupToks) := rfl

mutual
/-- The tokens are those of the operands. -/
theorem W.toks_groups {P : Writer} {res : List Char → Bool} : ∀ (x : W), x.Ok P res →
    x.toks = wholeToks x.groups ∧ isolateToks x.prec 40 x.toks = groupToks x.items
  | .leaf o b r, _ => by
    have : o.prec ≤ 40 := by rcases o with _ | (_ | _ | _ | _) <;> decide
    simp [W.toks, W.groups, W.items, wholeToks, groupToks, joinToks, leafItem, isolateToks, W.prec, this]
  | .and l, h => by
    rw [W.Ok] at h
    have h1 := (W.tokss_items l h.2).1
    have h2 : (W.and l).toks = groupToks (W.itemsL l) := by rw [W.toks, h1]
    refine ⟨?_, ?_⟩
    · rw [h2]; simp [W.groups, wholeToks, joinToks]
    · rw [h2]; simp [isolateToks, W.prec, W.items]
  | .or l, h => by
    rw [W.Ok] at h
    have h1 := (W.tokss_groups l h.2).1
    have h2 : (W.or l).toks = wholeToks (W.groupsL l) := by rw [W.toks, h1]
    refine ⟨?_, ?_⟩
    · rw [h2, W.groups]
    · rw [h2]
      have : ¬(W.or l).prec ≤ 40 := by simp [W.prec]
      rw [isolateToks, if_neg this]
      simp [W.items, groupToks, joinToks]

theorem W.tokss_items {P : Writer} {res : List Char → Bool} : ∀ (l : List W), W.OkAll P res l →
    joinToks "AND".toList (W.tokss 40 l) = groupToks (W.itemsL l) ∧ tailToks "AND".toList (W.tokss 40 l) = tailToks "AND".toList ((W.itemsL l).map Item.toks)
  | [], _ => by simp [W.tokss, W.itemsL, groupToks, joinToks, tailToks]
  | x :: r, h => by
    rw [W.OkAll] at h
    have h1 := (W.toks_groups x h.1).2
    have h2 := W.tokss_items r h.2
    have h3 := W.items_ne x h.1
    have h4 : x.items.map Item.toks ≠ [] := by simpa using h3
    rw [W.tokss, W.itemsL, h1]
    refine ⟨?_, ?_⟩
    · rw [joinToks_cons, h2.2, groupToks, groupToks, List.map_append, joinToks_append h4]
    · rw [tailToks, h2.2, List.map_append, tailToks_append, groupToks]
      obtain ⟨w, m, hm⟩ := List.exists_cons_of_ne_nil h4
      rw [hm, joinToks_cons, tailToks]
      simp

theorem W.tokss_groups {P : Writer} {res : List Char → Bool} : ∀ (l : List W), W.OkAll P res l →
    joinToks "OR".toList (W.tokss 44 l) = wholeToks (W.groupsL l) ∧ tailToks "OR".toList (W.tokss 44 l) = tailToks "OR".toList ((W.groupsL l).map groupToks)
  | [], _ => by simp [W.tokss, W.groupsL, wholeToks, joinToks, tailToks]
  | x :: r, h => by
    rw [W.OkAll] at h
    have h1 := (W.toks_groups x h.1).1
    have h2 := W.tokss_groups r h.2
    have h3 := (W.groups_ne x h.1).1
    have h4 : x.groups.map groupToks ≠ [] := by simpa using h3
    have h5 : isolateToks x.prec 44 x.toks = x.toks := by
      have : x.prec ≤ 44 := by rcases x with ⟨_ | (_ | _ | _ | _), _, _⟩ | _ | _ <;> simp [W.prec, WOp.prec]
      simp [isolateToks, this]
    rw [W.tokss, W.groupsL, h5, h1]
    refine ⟨?_, ?_⟩
    · rw [joinToks_cons, h2.2, wholeToks, wholeToks, List.map_append, joinToks_append h4]
    · rw [tailToks, h2.2, List.map_append, tailToks_append, wholeToks]
      obtain ⟨w, m, hm⟩ := List.exists_cons_of_ne_nil h4
      rw [hm, joinToks_cons, tailToks]
      simp
end

/-! ### The operands are read -/

theorem prim_rhs (res : List Char → Bool) (ex : List MTok → Option (MEx × List MTok)) (r : Rhs) (rest : List MTok) :
    prim res ex (r.toks ++ rest) = some (r.ex, rest) := by
  cases r with
  | int z =>
    simp only [Rhs.toks, intToks, Rhs.ex]
    split
    · have : -(z.natAbs : Int) = z := by omega
      simp only [List.cons_append, List.nil_append, prim, this]
    · have : (z.natAbs : Int) = z := by omega
      simp only [List.cons_append, List.nil_append, prim, this]
  | lit s => simp [Rhs.toks, Rhs.ex, prim]
  | quoted s => simp [Rhs.toks, Rhs.ex, prim]

theorem leaf_good {P : Writer} {res : List Char → Bool} {b : String} (h : Bare P res b) (ex : List MTok → Option (MEx × List MTok)) (o : WOp) (r : Rhs) :
    Good res ex (leafItem o b r) := by
  intro rest _
  have h1 : prim res ex ((leafItem o b r).toks ++ rest) = some (.name b, .cmp o.mcmp :: (r.toks ++ rest)) := by
    simp only [leafItem, List.cons_append, prim]
    simp [h.res]
  rw [compar, h1, Option.bind_some, cmpTail, prim_rhs]
  rfl

theorem item_in_group {g : List Item} {i : Item} (h : i ∈ g) : i.toks.length ≤ (groupToks g).length := by
  have key : ∀ (l : List (List MTok)) (w : List MTok), w ∈ l → w.length ≤ (tailToks "AND".toList l).length := by
    intro l
    induction l with
    | nil => simp
    | cons v l ih =>
      intro w hw
      rw [tailToks]
      simp only [List.length_cons, List.length_append]
      rcases List.mem_cons.1 hw with rfl | hw
      · omega
      · have := ih w hw; omega
  cases g with
  | nil => simp at h
  | cons j g =>
    rw [groupToks, List.map_cons, joinToks_cons]
    simp only [List.length_append]
    rcases List.mem_cons.1 h with rfl | h
    · omega
    · have := key (g.map Item.toks) i.toks (List.mem_map_of_mem h)
      omega

theorem group_in_whole {l : List (List Item)} {g : List Item} (h : g ∈ l) : (groupToks g).length ≤ (wholeToks l).length := by
  have key : ∀ (l : List (List MTok)) (w : List MTok), w ∈ l → w.length ≤ (tailToks "OR".toList l).length := by
    intro l
    induction l with
    | nil => simp
    | cons v l ih =>
      intro w hw
      rw [tailToks]
      simp only [List.length_cons, List.length_append]
      rcases List.mem_cons.1 hw with rfl | hw
      · omega
      · have := ih w hw; omega
  cases l with
  | nil => simp at h
  | cons j l =>
    rw [wholeToks, List.map_cons, joinToks_cons]
    simp only [List.length_append]
    rcases List.mem_cons.1 h with rfl | h
    · omega
    · have := key (l.map groupToks) (groupToks g) (List.mem_map_of_mem h)
      omega

mutual
theorem W.items_good {P : Writer} {res : List Char → Bool} : ∀ (x : W), x.Ok P res → ∀ i ∈ x.items, ∀ n, i.toks.length ≤ n + 1 → Good res (expr res n) i
  | .leaf o b r, h, i, hi, n, _ => by
    rw [W.Ok] at h
    simp only [W.items, List.mem_singleton] at hi
    subst hi
    exact leaf_good h.1 _ _ _
  | .and l, h, i, hi, n, hn => by
    rw [W.Ok] at h
    rw [W.items] at hi
    exact W.itemsL_good l h.2 i hi n hn
  | .or l, h, i, hi, n, hn => by
    rw [W.Ok] at h
    simp only [W.items, List.mem_singleton] at hi
    subst hi
    simp only [List.length_cons, List.length_append, List.length_nil] at hn
    intro rest hr
    obtain ⟨m, rfl⟩ : ∃ m, n = m + 1 := ⟨n - 1, by omega⟩
    have h1 := W.groupsL_ne l h.2
    have h2 : ∀ g ∈ W.groupsL l, g ≠ [] ∧ ∀ i ∈ g, Good res (expr res m) i := by
      intro g hg
      refine ⟨h1.2 g hg, fun i hi => ?_⟩
      refine W.groupsL_good l h.2 g hg i hi m ?_
      have := item_in_group hi
      have := group_in_whole hg
      omega
    have h3 := disj_whole res (rest := .rp :: rest) (by intro o r; simp) (by intro w r; simp) (by intro w r; simp) (h1.1 h.1) h2
    simp only [compar, List.cons_append, List.append_assoc, List.nil_append, prim]
    rw [expr, h3]
    simp only [closeParen, Option.bind_some]
    cases rest with
    | nil => rfl
    | cons k r =>
      cases k with
      | cmp o => exact absurd rfl (hr o r)
      | _ => rfl

theorem W.itemsL_good {P : Writer} {res : List Char → Bool} : ∀ (l : List W), W.OkAll P res l → ∀ i ∈ W.itemsL l, ∀ n, i.toks.length ≤ n + 1 →
    Good res (expr res n) i
  | [], _, i, hi, n, _ => by simp [W.itemsL] at hi
  | x :: r, h, i, hi, n, hn => by
    rw [W.OkAll] at h
    rw [W.itemsL] at hi
    rcases List.mem_append.1 hi with hi | hi
    · exact W.items_good x h.1 i hi n hn
    · exact W.itemsL_good r h.2 i hi n hn

theorem W.groups_good {P : Writer} {res : List Char → Bool} : ∀ (x : W), x.Ok P res → ∀ g ∈ x.groups, ∀ i ∈ g, ∀ n, i.toks.length ≤ n + 1 →
    Good res (expr res n) i
  | .leaf o b r, h, g, hg, i, hi, n, _ => by
    rw [W.Ok] at h
    simp only [W.groups, List.mem_singleton] at hg
    subst hg
    simp only [List.mem_singleton] at hi
    subst hi
    exact leaf_good h.1 _ _ _
  | .and l, h, g, hg, i, hi, n, hn => by
    rw [W.Ok] at h
    simp only [W.groups, List.mem_singleton] at hg
    subst hg
    exact W.itemsL_good l h.2 i hi n hn
  | .or l, h, g, hg, i, hi, n, hn => by
    rw [W.Ok] at h
    rw [W.groups] at hg
    exact W.groupsL_good l h.2 g hg i hi n hn

theorem W.groupsL_good {P : Writer} {res : List Char → Bool} : ∀ (l : List W), W.OkAll P res l → ∀ g ∈ W.groupsL l, ∀ i ∈ g, ∀ n,
    i.toks.length ≤ n + 1 → Good res (expr res n) i
  | [], _, g, hg, i, hi, n, _ => by simp [W.groupsL] at hg
  | x :: r, h, g, hg, i, hi, n, hn => by
    rw [W.OkAll] at h
    rw [W.groupsL] at hg
    rcases List.mem_append.1 hg with hg | hg
    · exact W.groups_good x h.1 g hg i hi n hn
    · exact W.groupsL_good r h.2 g hg i hi n hn
end

/-- What the condition is read as. -/
def W.ex (x : W) : MEx := wholeEx x.groups

theorem W.toks_pos {P : Writer} {res : List Char → Bool} (x : W) (h : x.Ok P res) : ∃ m, x.toks.length = m + 1 := by
  cases ht : x.toks with
  | cons k r => exact ⟨r.length, by simp⟩
  | nil =>
    exfalso
    have h1 := (W.toks_groups x h).1
    have h2 := W.groups_ne x h
    obtain ⟨g, l, hg⟩ := List.exists_cons_of_ne_nil h2.1
    have h3 := h2.2 g (by simp [hg])
    obtain ⟨i, m, hi⟩ := List.exists_cons_of_ne_nil h3
    have h4 := group_in_whole (l := x.groups) (g := g) (by simp [hg])
    have h5 := item_in_group (g := g) (i := i) (by simp [hi])
    rw [← h1, ht] at h4
    have h6 : i.toks = [] := List.eq_nil_of_length_eq_zero (by simp only [List.length_nil] at h4; omega)
    have h7 := W.groups_good x h g (by simp [hg]) i (by simp [hi]) 0 (by simp [h6]) [] (by intro o r; simp)
    simp [h6, compar, prim] at h7

theorem W.read {P : Writer} {res : List Char → Bool} (x : W) (h : x.Ok P res) : expr res x.toks.length x.toks = some (x.ex, []) := by
  obtain ⟨m, hm⟩ := W.toks_pos x h
  have h1 := (W.toks_groups x h).1
  have h2 := W.groups_ne x h
  rw [hm, expr]
  have := disj_whole res (ex := expr res m) (rest := []) (by intro o r; simp) (by intro w r; simp) (by intro w r; simp) h2.1 (fun g hg =>
    ⟨h2.2 g hg, fun i hi => W.groups_good x h g hg i hi m (by
      have h3 := item_in_group hi
      have h4 := group_in_whole hg
      rw [← h1] at h4
      omega)⟩)
  rw [← h1] at this
  simpa [W.ex] using this

/-! ### Truth -/

def allT : List (Option Bool) → Option Bool
  | [] => some true
  | a :: l => both (· && ·) a (allT l)

def anyT : List (Option Bool) → Option Bool
  | [] => some false
  | a :: l => both (· || ·) a (anyT l)

theorem both_and_assoc (a b c : Option Bool) : both (· && ·) (both (· && ·) a b) c = both (· && ·) a (both (· && ·) b c) := by
  cases a <;> cases b <;> cases c <;> simp [both, Bool.and_assoc]

theorem both_or_assoc (a b c : Option Bool) : both (· || ·) (both (· || ·) a b) c = both (· || ·) a (both (· || ·) b c) := by
  cases a <;> cases b <;> cases c <;> simp [both, Bool.or_assoc]

theorem allT_append : ∀ (l m : List (Option Bool)), allT (l ++ m) = both (· && ·) (allT l) (allT m)
  | [], m => by cases h : allT m <;> simp [allT, both, h]
  | a :: l, m => by simp [allT, allT_append l m, both_and_assoc]

theorem anyT_append : ∀ (l m : List (Option Bool)), anyT (l ++ m) = both (· || ·) (anyT l) (anyT m)
  | [], m => by cases h : anyT m <;> simp [anyT, both, h]
  | a :: l, m => by simp [anyT, anyT_append l m, both_or_assoc]

theorem truth_andEx (row : Row) : ∀ (l : List Item) (a : MEx), truth row (andEx a l) = allT (truth row a :: l.map fun i => truth row i.ex)
  | [], a => by cases h : truth row a <;> simp [andEx, allT, both, h]
  | i :: l, a => by
    rw [andEx, truth_andEx row l]
    simp [allT, truth, both_and_assoc]

theorem truth_group (row : Row) {g : List Item} (h : g ≠ []) : truth row (groupEx g) = allT (g.map fun i => truth row i.ex) := by
  cases g with
  | nil => exact absurd rfl h
  | cons i l => rw [groupEx, truth_andEx]; rfl

theorem truth_orEx (row : Row) : ∀ (l : List (List Item)) (a : MEx), truth row (orEx a l) = anyT (truth row a :: l.map fun g => truth row (groupEx g))
  | [], a => by cases h : truth row a <;> simp [orEx, anyT, both, h]
  | g :: l, a => by
    rw [orEx, truth_orEx row l]
    simp [anyT, truth, both_or_assoc]

theorem truth_whole (row : Row) {l : List (List Item)} (h : l ≠ []) : truth row (wholeEx l) = anyT (l.map fun g => truth row (groupEx g)) := by
  cases l with
  | nil => exact absurd rfl h
  | cons g l => rw [wholeEx, truth_orEx]; rfl

theorem bare_valid {uni : Char → Bool} {s : String} (h : Format.valid uni s.toList = false) : bare s = false := by
  cases hb : bare s with
  | false => rfl
  | true =>
    unfold bare at hb
    cases hs : s.toList with
    | nil => simp [hs] at hb
    | cons c t =>
      rw [hs] at hb h
      simp only [Bool.and_eq_true, List.all_eq_true] at hb
      have h1 : t.all (Format.word uni) = true := by
        simp only [List.all_eq_true]
        intro x hx
        have := hb.2 x hx
        simp only [Bool.or_eq_true, decide_eq_true_eq] at this
        rcases this with h | h <;> simp [Format.word, h]
      have h2 : Format.letter c = true := by
        have := hb.1
        simp only [Bool.or_eq_true, decide_eq_true_eq] at this
        rcases this with h | h <;> simp [Format.letter, h]
      simp [Format.valid, h1, h2] at h

theorem value_rhs {P : Writer} {r : Rhs} (h : r.Ok P) (row : Row) : value row r.ex = rhsVal row r.json := by
  cases r with
  | int z => rfl
  | lit s => rfl
  | quoted s => simp [Rhs.ex, value, Rhs.json, rhsVal, bare_valid h.bad]

theorem leaf_truth {P : Writer} {r : Rhs} (h : r.Ok P) (row : Row) (o : WOp) (b : String) :
    truth row (leafItem o b r).ex = evalCond row (W.leaf o b r).json := by
  rw [W.json, evalCond, evalDict]
  have hv := value_rhs h row
  rcases o with _ | (_ | _ | _ | _)
  all_goals
    simp (decide := true) only [leafItem, truth, WOp.mcmp, evalOp, evalLeaf, if_true, if_false]
    rw [hv]
    simp only [value, MCmp.eval]
    cases Dict.get? row b <;> cases rhsVal row r.json <;> rfl

theorem evalCond_and (row : Row) (l : List Json) : evalCond row (.dict [("and", .list l)]) = evalAll row l := by
  simp [evalCond, evalDict, evalOp]

theorem evalCond_or (row : Row) (l : List Json) : evalCond row (.dict [("or", .list l)]) = evalSome row l := by
  simp [evalCond, evalDict, evalOp]

theorem both_match (f : Bool → Bool → Bool) (a b : Option Bool) :
    (match a, b with | some a, some b => some (f a b) | _, _ => none) = both f a b := by
  cases a <;> cases b <;> rfl

mutual
theorem W.items_truth {P : Writer} {res : List Char → Bool} (row : Row) : ∀ (x : W), x.Ok P res →
    allT (x.items.map fun i => truth row i.ex) = evalCond row x.json
  | .leaf o b r, h => by
    rw [W.Ok] at h
    have := leaf_truth h.2 row o b
    rw [← this]
    cases ht : truth row (leafItem o b r).ex <;> simp [W.items, allT, both, ht]
  | .and l, h => by
    rw [W.Ok] at h
    rw [W.items, W.itemsL_truth row l h.2, W.json, evalCond_and]
  | .or l, h => by
    rw [W.Ok] at h
    have h1 := W.groupsL_truth row l h.2
    have h2 := (W.groupsL_ne l h.2).1 h.1
    rw [W.json, evalCond_or, ← h1, ← truth_whole row h2]
    cases ht : truth row (wholeEx (W.groupsL l)) <;> simp [W.items, allT, both, ht]

theorem W.itemsL_truth {P : Writer} {res : List Char → Bool} (row : Row) : ∀ (l : List W), W.OkAll P res l →
    allT ((W.itemsL l).map fun i => truth row i.ex) = evalAll row (W.jsons l)
  | [], _ => by simp [W.itemsL, W.jsons, allT, evalAll]
  | x :: r, h => by
    rw [W.OkAll] at h
    rw [W.itemsL, W.jsons, List.map_append, allT_append, W.items_truth row x h.1, W.itemsL_truth row r h.2, evalAll]
    exact (both_match _ _ _).symm

theorem W.groups_truth {P : Writer} {res : List Char → Bool} (row : Row) : ∀ (x : W), x.Ok P res →
    anyT (x.groups.map fun g => truth row (groupEx g)) = evalCond row x.json
  | .leaf o b r, h => by
    rw [W.Ok] at h
    have := leaf_truth h.2 row o b
    rw [← this]
    cases ht : truth row (leafItem o b r).ex <;> simp [W.groups, groupEx, andEx, anyT, both, ht]
  | .and l, h => by
    rw [W.Ok] at h
    have h1 := W.itemsL_truth row l h.2
    rw [W.json, evalCond_and, ← h1, ← truth_group row (W.itemsL_ne l h.2 h.1)]
    cases ht : truth row (groupEx (W.itemsL l)) <;> simp [W.groups, anyT, both, ht]
  | .or l, h => by
    rw [W.Ok] at h
    rw [W.groups, W.groupsL_truth row l h.2, W.json, evalCond_or]

theorem W.groupsL_truth {P : Writer} {res : List Char → Bool} (row : Row) : ∀ (l : List W), W.OkAll P res l →
    anyT ((W.groupsL l).map fun g => truth row (groupEx g)) = evalSome row (W.jsons l)
  | [], _ => by simp [W.groupsL, W.jsons, anyT, evalSome]
  | x :: r, h => by
    rw [W.OkAll] at h
    rw [W.groupsL, W.jsons, List.map_append, anyT_append, W.groups_truth row x h.1, W.groupsL_truth row r h.2, evalSome]
    exact (both_match _ _ _).symm
end

theorem W.truth_ex {P : Writer} {res : List Char → Bool} (row : Row) (x : W) (h : x.Ok P res) : truth row x.ex = evalCond row x.json := by
  rw [W.ex, truth_whole row (W.groups_ne x h).1, W.groups_truth row x h]

end EulerDB.Whole
