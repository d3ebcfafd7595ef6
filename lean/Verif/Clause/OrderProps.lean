import Verif.Clause.WhereProps

/-!
# ORDER BY (C29)
-/

namespace EulerDB.Clause

open EulerDB EulerDB.Delta EulerDB.Table

/-- A sort key: a column and the direction, if one is written. -/
structure SortKey where
  col : String
  dir : Option Bool

def SortKey.desc (k : SortKey) : Bool := k.dir = some true

/-- What the parser returns. -/
def SortKey.json (k : SortKey) : Json :=
  match k.dir with
  | none => .dict [("value", .str k.col)]
  | some false => .dict [("value", .str k.col), ("sort", .str "asc")]
  | some true => .dict [("value", .str k.col), ("sort", .str "desc")]

/-- The direction the backend sorts in, formatting.py 561-570. -/
def sortDesc (d : Dict String Json) : Bool := match Dict.get? d "sort" with | some (.str s) => s = "desc" | _ => false

/-- Rows (as functions from columns to numbers) are in the order asked for. -/
def InOrder (j : Json) (rows : List (String → Option Int)) : Prop :=
  match j with
  | .dict d =>
    match Dict.get? d "value" with
    | some (.str n) => rows.Pairwise fun a b => ∃ x y, a n = some x ∧ b n = some y ∧ if sortDesc d then y ≤ x else x ≤ y
    | _ => False
  | _ => False

/-- The number in a column of a stored row. -/
def storedInt (row : Dict String DbVal) (n : String) : Option Int := match Dict.get? row n with | some (.int z) => some z | _ => none

/-- The number in a column of a row of values. -/
def plainInt (vals : String → Option Val) (n : String) : Option Int := match vals n with | some (.int z) => some z | _ => none

theorem order_rewrite {db : Db} {t : String} {tm : TableMeta ColMeta} (ht : Dict.get? db t = some tm) (k : SortKey) {cm : ColMeta}
    (hc : Dict.get? tm.columns k.col = some cm) :
    orderRw db (.str t) k.json =
      if cm.plaintext then .ok k.json
      else
        match Dict.getItem cm.encCols "order-preserving" with
        | .error e => .error e
        | .ok n => .ok (.dict [("value", .str n)]) := by
  have h1 : tableOfJson db (.str t) = .ok tm := getItem_ok.2 ht
  have h2 : colOfJson tm.columns (.str k.col) = .ok cm := getItem_ok.2 hc
  have h3 : pyItem "value" k.json = .ok (.str k.col) := by
    unfold SortKey.json
    rcases k.dir with _ | _ | _ <;> rfl
  unfold orderRw
  simp only [h1, h2, h3]
  rfl

theorem inOrder_key (k : SortKey) (rows : List (String → Option Int)) :
    InOrder k.json rows ↔ rows.Pairwise fun a b => ∃ x y, a k.col = some x ∧ b k.col = some y ∧ if k.desc then y ≤ x else x ≤ y := by
  unfold InOrder SortKey.json SortKey.desc
  rcases k.dir with _ | _ | _ <;> simp (decide := true) [Dict.get?_cons, sortDesc]

/-- A table of rows, each held by its stored row. -/
def HoldAll (c : Crypto) (cols : Dict String ColMeta) (n : String) (rows : List ((String → Option Val) × Dict String DbVal)) : Prop :=
  ∀ r ∈ rows, Holds c cols r.1 r.2 ∧ ∃ z, r.1 n = some (.int z)

theorem pairwise_congr_mem {α : Type} {R S : α → α → Prop} : ∀ {l : List α}, (∀ a ∈ l, ∀ b ∈ l, R a b ↔ S a b) → (l.Pairwise R ↔ l.Pairwise S)
  | [], _ => by simp
  | a :: l, h => by
    rw [List.pairwise_cons, List.pairwise_cons, pairwise_congr_mem (l := l) fun x hx y hy => h x (by simp [hx]) y (by simp [hy])]
    refine and_congr_left fun _ => forall₂_congr fun b hb => h a (by simp) b (by simp [hb])

/-- **C29, partial.** ORDER BY an int column, with a direction only if the column is a plaintext column: stored rows are in the order the backend is asked for
exactly when the plaintext rows are in the order the user asked for. -/
theorem C29_order_partial (c : Crypto) (db : Db) (t : String) (tm : TableMeta ColMeta) (k : SortKey) (cm : ColMeta)
    (rows : List ((String → Option Val) × Dict String DbVal)) (ht : Dict.get? db t = some tm) (hc : Dict.get? tm.columns k.col = some cm)
    (he : cm.plaintext = false → k.desc = false ∧ ∃ b, Dict.get? cm.encCols "order-preserving" = some b) (hr : HoldAll c tm.columns k.col rows) :
    ∃ j, orderRw db (.str t) k.json = .ok j ∧
      (InOrder j (rows.map fun r => storedInt r.2) ↔ InOrder k.json (rows.map fun r => plainInt r.1)) := by
  rw [order_rewrite ht k hc]
  by_cases hp : cm.plaintext = true
  · refine ⟨k.json, by simp [hp], ?_⟩
    rw [inOrder_key, inOrder_key, List.pairwise_map, List.pairwise_map]
    apply pairwise_congr_mem
    intro a ha b hb
    obtain ⟨h1, x, hx⟩ := hr a ha
    obtain ⟨h2, y, hy⟩ := hr b hb
    simp [storedInt, plainInt, hx, hy, h1.plain _ _ cm hx hc hp, h2.plain _ _ cm hy hc hp, Val.db]
  · obtain ⟨hd, b, hb⟩ := he (by simpa using hp)
    rw [getItem_ok.2 hb]
    refine ⟨.dict [("value", .str b)], by simp [hp], ?_⟩
    have := inOrder_key ⟨b, none⟩ (rows.map fun r => storedInt r.2)
    simp only [SortKey.json, SortKey.desc] at this
    rw [this, inOrder_key, List.pairwise_map, List.pairwise_map]
    apply pairwise_congr_mem
    intro a ha b' hb'
    obtain ⟨h1, x, hx⟩ := hr a ha
    obtain ⟨h2, y, hy⟩ := hr b' hb'
    obtain ⟨x', hx', gx⟩ := h1.ope _ _ cm b hx hc (by simpa using hp) hb
    obtain ⟨y', hy', gy⟩ := h2.ope _ _ cm b hy hc (by simpa using hp) hb
    have h3 := Ope.C01_ope_order_preserving _ _ _ _ _ hy' hx'
    simp (decide := true) [storedInt, plainInt, hx, hy, gx, gy, hd]
    omega

/-- **C29 fails** for DESC over an encrypted column: the statement sent is the one for ascending order ... -/
theorem C29_fails_direction_dropped (db : Db) (t : String) (tm : TableMeta ColMeta) (n : String) (cm : ColMeta)
    (ht : Dict.get? db t = some tm) (hc : Dict.get? tm.columns n = some cm) (hp : cm.plaintext = false) :
    orderRw db (.str t) (SortKey.json ⟨n, some true⟩) = orderRw db (.str t) (SortKey.json ⟨n, none⟩) := by
  rw [order_rewrite ht ⟨n, some true⟩ hc, order_rewrite ht ⟨n, none⟩ hc]
  simp [hp]

/-- ... so that any two rows with different values come in the wrong order. -/
theorem C29_fails_wrong_order (c : Crypto) (db : Db) (t : String) (tm : TableMeta ColMeta) (n b : String) (cm : ColMeta) (j : Json)
    (r1 r2 : (String → Option Val) × Dict String DbVal) (z1 z2 : Int)
    (ht : Dict.get? db t = some tm) (hc : Dict.get? tm.columns n = some cm) (hp : cm.plaintext = false) (hb : Dict.get? cm.encCols "order-preserving" = some b)
    (h1 : Holds c tm.columns r1.1 r1.2) (h2 : Holds c tm.columns r2.1 r2.2) (hv1 : r1.1 n = some (.int z1)) (hv2 : r2.1 n = some (.int z2)) (hz : z1 < z2)
    (hj : orderRw db (.str t) (SortKey.json ⟨n, some true⟩) = .ok j) :
    InOrder j [storedInt r1.2, storedInt r2.2] ∧ ¬ InOrder j [storedInt r2.2, storedInt r1.2] := by
  have hr : HoldAll c tm.columns n [r1, r2] := by
    intro r hm
    simp only [List.mem_cons, List.not_mem_nil, or_false] at hm
    rcases hm with rfl | rfl
    · exact ⟨h1, z1, hv1⟩
    · exact ⟨h2, z2, hv2⟩
  have hr' : HoldAll c tm.columns n [r2, r1] := fun r hm => hr r (by simp only [List.mem_cons, List.not_mem_nil, or_false] at hm ⊢; exact hm.symm)
  rw [C29_fails_direction_dropped db t tm n cm ht hc hp] at hj
  obtain ⟨j1, e1, i1⟩ := C29_order_partial c db t tm ⟨n, none⟩ cm [r1, r2] ht hc (fun _ => ⟨rfl, b, hb⟩) hr
  obtain ⟨j2, e2, i2⟩ := C29_order_partial c db t tm ⟨n, none⟩ cm [r2, r1] ht hc (fun _ => ⟨rfl, b, hb⟩) hr'
  rw [hj] at e1 e2
  injection e1 with e1; subst e1
  injection e2 with e2; subst e2
  simp only [List.map_cons, List.map_nil] at i1 i2
  rw [i1, i2, inOrder_key, inOrder_key]
  simp (decide := true) [plainInt, hv1, hv2, SortKey.desc]
  omega

/-- **C29 fails** for several sort keys: every such statement raises. -/
theorem C29_fails_several_keys (db : Db) (t : String) (tm : TableMeta ColMeta) (l : List Json) (ht : Dict.get? db t = some tm) :
    orderRw db (.str t) (.list l) = .error .typeError := by
  have h1 : tableOfJson db (.str t) = .ok tm := getItem_ok.2 ht
  simp [orderRw, h1, pyItem]

/-- **C29 fails** for a column without an order-preserving cipher (any string column): the statement raises. -/
theorem C29_fails_no_cipher (db : Db) (t : String) (tm : TableMeta ColMeta) (k : SortKey) (cm : ColMeta) (ht : Dict.get? db t = some tm)
    (hc : Dict.get? tm.columns k.col = some cm) (hp : cm.plaintext = false) (hb : Dict.get? cm.encCols "order-preserving" = none) :
    orderRw db (.str t) k.json = .error .keyError := by
  rw [order_rewrite ht k hc]
  simp [hp, Dict.getItem, hb]

end EulerDB.Clause
