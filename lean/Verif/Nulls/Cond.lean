/-
C87: conditions over rows without a value in some columns.
-/
import Verif.Nulls.Model

namespace EulerDB.Nulls

open EulerDB EulerDB.Clause EulerDB.Delta EulerDB.Whole EulerDB.Join

/-! ### True conditions -/

theorem and3_sure (a b : Option Bool) : (and3 a b == some true) = ((a == some true) && (b == some true)) := by
  rcases a with _ | _ | _ <;> rcases b with _ | _ | _ <;> rfl

theorem or3_sure (a b : Option Bool) : (or3 a b == some true) = ((a == some true) || (b == some true)) := by
  rcases a with _ | _ | _ <;> rcases b with _ | _ | _ <;> rfl

theorem sure_and (row : Row) (a b : MEx) : sure row (.and a b) = both (· && ·) (sure row a) (sure row b) := by
  unfold sure
  rw [truth3]
  cases truth3 row a <;> cases truth3 row b <;> simp [two, both, and3_sure]

theorem sure_or (row : Row) (a b : MEx) : sure row (.or a b) = both (· || ·) (sure row a) (sure row b) := by
  unfold sure
  rw [truth3]
  cases truth3 row a <;> cases truth3 row b <;> simp [two, both, or3_sure]

mutual
/-- The client's condition is true in three-valued logic exactly if it holds with NULL never fulfilling a comparison. -/
theorem sql_holds (vals : String → Option Val) : ∀ x : Cond, (sql vals x == some true) = x.holds vals
  | .eqInt n z => by
    rw [sql, Cond.holds]
    rcases vals n with _ | _ | _ <;> simp
  | .eqText n s => by
    rw [sql, Cond.holds]
    rcases vals n with _ | _ | _ <;> simp
  | .cmp op n z => by
    rw [sql, Cond.holds]
    rcases vals n with _ | _ | _ <;> simp
  | .and l => by rw [sql, Cond.holds, sqlAll_holds vals l]
  | .or l => by rw [sql, Cond.holds, sqlSome_holds vals l]

theorem sqlAll_holds (vals : String → Option Val) : ∀ l : List Cond, (sqlAll vals l == some true) = Cond.allHold vals l
  | [] => rfl
  | x :: r => by rw [sqlAll, Cond.allHold, and3_sure, sql_holds vals x, sqlAll_holds vals r]

theorem sqlSome_holds (vals : String → Option Val) : ∀ l : List Cond, (sqlSome vals l == some true) = Cond.someHolds vals l
  | [] => rfl
  | x :: r => by rw [sqlSome, Cond.someHolds, or3_sure, sql_holds vals x, sqlSome_holds vals r]
end

/-! ### Conditions as they are sent -/

theorem sure_andEx (row : Row) : ∀ (l : List Whole.Item) (a : MEx), sure row (andEx a l) = allT (sure row a :: l.map fun i => sure row i.ex)
  | [], a => by cases h : sure row a <;> simp [andEx, allT, both, h]
  | i :: l, a => by
    rw [andEx, sure_andEx row l]
    simp [allT, sure_and, both_and_assoc]

theorem sure_group (row : Row) {g : List Whole.Item} (h : g ≠ []) : sure row (groupEx g) = allT (g.map fun i => sure row i.ex) := by
  cases g with
  | nil => exact absurd rfl h
  | cons i l => rw [groupEx, sure_andEx]; rfl

theorem sure_orEx (row : Row) : ∀ (l : List (List Whole.Item)) (a : MEx), sure row (orEx a l) = anyT (sure row a :: l.map fun g => sure row (groupEx g))
  | [], a => by cases h : sure row a <;> simp [orEx, anyT, both, h]
  | g :: l, a => by
    rw [orEx, sure_orEx row l]
    simp [anyT, sure_or, both_or_assoc]

theorem sure_whole (row : Row) {l : List (List Whole.Item)} (h : l ≠ []) : sure row (wholeEx l) = anyT (l.map fun g => sure row (groupEx g)) := by
  cases l with
  | nil => exact absurd rfl h
  | cons g l => rw [wholeEx, sure_orEx]; rfl

mutual
/-- The truth of a condition from that of its comparisons. -/
def value3 (row : Row) : W → Option Bool
  | .leaf o b r => sure row (leafItem o b r).ex
  | .and l => all3 row l
  | .or l => some3 row l

def all3 (row : Row) : List W → Option Bool
  | [] => some true
  | x :: r => both (· && ·) (value3 row x) (all3 row r)

def some3 (row : Row) : List W → Option Bool
  | [] => some false
  | x :: r => both (· || ·) (value3 row x) (some3 row r)
end

mutual
theorem items_sure {P : Writer} {res : List Char → Bool} (row : Row) : ∀ (x : W), x.Ok P res → allT (x.items.map fun i => sure row i.ex) = value3 row x
  | .leaf o b r, _ => by
    rw [value3]
    cases ht : sure row (leafItem o b r).ex <;> simp [W.items, allT, both, ht]
  | .and l, h => by
    rw [W.Ok] at h
    rw [W.items, itemsL_sure row l h.2, value3]
  | .or l, h => by
    rw [W.Ok] at h
    have h1 := groupsL_sure row l h.2
    have h2 := (W.groupsL_ne l h.2).1 h.1
    rw [value3, ← h1, ← sure_whole row h2]
    cases ht : sure row (wholeEx (W.groupsL l)) <;> simp [W.items, allT, both, ht]

theorem itemsL_sure {P : Writer} {res : List Char → Bool} (row : Row) : ∀ (l : List W), W.OkAll P res l →
    allT ((W.itemsL l).map fun i => sure row i.ex) = all3 row l
  | [], _ => by simp [W.itemsL, allT, all3]
  | x :: r, h => by
    rw [W.OkAll] at h
    rw [W.itemsL, List.map_append, allT_append, items_sure row x h.1, itemsL_sure row r h.2, all3]

theorem groups_sure {P : Writer} {res : List Char → Bool} (row : Row) : ∀ (x : W), x.Ok P res →
    anyT (x.groups.map fun g => sure row (groupEx g)) = value3 row x
  | .leaf o b r, _ => by
    rw [value3]
    cases ht : sure row (leafItem o b r).ex <;> simp [W.groups, groupEx, andEx, anyT, both, ht]
  | .and l, h => by
    rw [W.Ok] at h
    have h1 := itemsL_sure row l h.2
    rw [value3, ← h1, ← sure_group row (W.itemsL_ne l h.2 h.1)]
    cases ht : sure row (groupEx (W.itemsL l)) <;> simp [W.groups, anyT, both, ht]
  | .or l, h => by
    rw [W.Ok] at h
    rw [W.groups, groupsL_sure row l h.2, value3]

theorem groupsL_sure {P : Writer} {res : List Char → Bool} (row : Row) : ∀ (l : List W), W.OkAll P res l →
    anyT ((W.groupsL l).map fun g => sure row (groupEx g)) = some3 row l
  | [], _ => by simp [W.groupsL, anyT, some3]
  | x :: r, h => by
    rw [W.OkAll] at h
    rw [W.groupsL, List.map_append, anyT_append, groups_sure row x h.1, groupsL_sure row r h.2, some3]
end

theorem sure_ex {P : Writer} {res : List Char → Bool} (row : Row) (x : W) (h : x.Ok P res) : sure row x.ex = value3 row x := by
  rw [W.ex, sure_whole row (W.groups_ne x h).1, groups_sure row x h]

/-! ### Comparisons -/

theorem cmp3_some {o : MCmp} {a b : DbVal} {t : Bool} (h : o.eval a b = some t) : cmp3 o a b = some (some t) := by
  unfold cmp3
  rw [h, if_neg]
  · rfl
  · rintro (rfl | rfl)
    · cases o <;> cases b <;> simp [MCmp.eval, dbEq, dbCmp] at h
    · cases o <;> cases a <;> simp [MCmp.eval, dbEq, dbCmp] at h

theorem truth3_some {row : Row} : ∀ {e : MEx} {t : Bool}, truth row e = some t → truth3 row e = some (some t)
  | .cmp o a b, t, h => by
    rw [truth] at h
    rw [truth3]
    cases ha : value row a with
    | none => simp [ha] at h
    | some x =>
      cases hb : value row b with
      | none => simp [ha, hb] at h
      | some y =>
        simp only [ha, hb] at h ⊢
        exact cmp3_some h
  | .and a b, t, h => by
    rw [truth] at h
    rw [truth3]
    cases ha : truth row a with
    | none => simp [ha, both] at h
    | some x =>
      cases hb : truth row b with
      | none => simp [ha, hb, both] at h
      | some y =>
        rw [ha, hb] at h
        simp only [both, Option.some.injEq] at h
        rw [truth3_some ha, truth3_some hb, ← h]
        cases x <;> cases y <;> rfl
  | .or a b, t, h => by
    rw [truth] at h
    rw [truth3]
    cases ha : truth row a with
    | none => simp [ha, both] at h
    | some x =>
      cases hb : truth row b with
      | none => simp [ha, hb, both] at h
      | some y =>
        rw [ha, hb] at h
        simp only [both, Option.some.injEq] at h
        rw [truth3_some ha, truth3_some hb, ← h]
        cases x <;> cases y <;> rfl
  | .name _, _, h => by simp [truth] at h
  | .text _, _, h => by simp [truth] at h
  | .int _, _, h => by simp [truth] at h

/-- Without unknown values the two readings agree. -/
theorem sure_truth {row : Row} {e : MEx} {t : Bool} (h : truth row e = some t) : sure row e = some t := by
  unfold sure
  rw [truth3_some h]
  cases t <;> rfl

theorem sure_null {row : Row} {o : WOp} {b : String} {r : Rhs} (h : Dict.get? row b = some .null) : sure row (leafItem o b r).ex = some false := by
  cases r <;> simp [sure, leafItem, truth3, value, h, cmp3, Rhs.ex]

/-! ### The client's conditions -/

theorem Keeps.int {c : Crypto} {cols : Dict String ColMeta} {row : PRow} {brow : Row} (h : Keeps c cols row brow) {n : String} {cm : ColMeta}
    (hc : Dict.get? cols n = some cm) (ht : cm.type = "int") : Dict.get? row n = none ∨ ∃ y, Dict.get? row n = some (.int y) := by
  cases hr : Dict.get? row n with
  | none => exact Or.inl rfl
  | some v =>
    have hs := h.suits n v cm hr hc
    cases v with
    | int z => exact Or.inr ⟨z, rfl⟩
    | text s => exact absurd ht hs.1

theorem Keeps.text {c : Crypto} {cols : Dict String ColMeta} {row : PRow} {brow : Row} (h : Keeps c cols row brow) {n : String} {cm : ColMeta}
    (hc : Dict.get? cols n = some cm) (ht : cm.type ≠ "int" ∧ cm.type ≠ "float" ∧ cm.type ≠ "double") :
    Dict.get? row n = none ∨ ∃ y, Dict.get? row n = some (.text y) ∧ ¬ Aes.EndsInNul y.toList := by
  cases hr : Dict.get? row n with
  | none => exact Or.inl rfl
  | some v =>
    have hs := h.suits n v cm hr hc
    cases v with
    | int z => exact absurd hs ht.1
    | text s => exact Or.inr ⟨s, rfl, hs.2.2.2⟩

theorem target_plain {cols : Dict String ColMeta} {n : String} {cm : ColMeta} (hc : Dict.get? cols n = some cm) (hp : cm.plaintext = true) : n ∈ targets cols n := by
  simp [targets, hc, hp]

theorem target_enc {cols : Dict String ColMeta} {n e b : String} {cm : ColMeta} (hc : Dict.get? cols n = some cm) (hp : cm.plaintext = false)
    (hb : Dict.get? cm.encCols e = some b) : b ∈ targets cols n := by
  simp only [targets, hc, hp, Bool.false_eq_true, if_false]
  exact List.mem_map.2 ⟨(e, b), Dict.mem_of_get? hb, rfl⟩

/-- A comparison over a column with a value: as in C26. -/
theorem leaf_value {P : Writer} {res : List Char → Bool} {c : Crypto} {tm : TableMeta ColMeta} (hn : Named P res tm) {row : PRow} {brow : Row}
    (hk : Keeps c tm.columns row brow) {x : Cond} (hx : Typed tm.columns x) (hf : x.Fits tm.columns fun n => Dict.get? row n) :
    sure brow (sent c tm.columns x).ex = some (x.holds fun n => Dict.get? row n) := by
  refine sure_truth ?_
  rw [W.truth_ex brow _ (sent_ok hn x hx), sent_json x hx]
  exact sealed_eval hk.holds x hf

mutual
theorem sent_value {P : Writer} {res : List Char → Bool} {c : Crypto} {tm : TableMeta ColMeta} (hn : Named P res tm) {row : PRow} {brow : Row}
    (hk : Keeps c tm.columns row brow) : ∀ (x : Cond), Typed tm.columns x → value3 brow (sent c tm.columns x) = some (x.holds fun n => Dict.get? row n)
  | .eqInt n z, h => by
    have hok := sent_ok (c := c) hn _ h
    have h' := h
    rw [Whole.Typed] at h
    obtain ⟨cm, hc, ht, hp⟩ := h
    rcases hk.int hc ht with hr | ⟨y, hy⟩
    · have hnull := hk.null n (mem_keys hc) hr
      rw [Cond.holds, hr]
      rw [sent, hc]
      simp only
      by_cases h0 : cm.plaintext = true
      · rw [if_pos h0, value3, sure_null (hnull n (target_plain hc h0))]
      · obtain ⟨_, b, hb⟩ := hp (by simpa using h0)
        rw [if_neg h0, hb, value3, Option.getD_some, sure_null (hnull b (target_enc hc (by simpa using h0) hb))]
    · rw [← sure_ex brow _ hok]
      refine leaf_value hn hk h' ?_
      rw [Cond.Fits]
      exact ⟨cm, y, hc, hy, hp⟩
  | .eqText n s, h => by
    have hok := sent_ok (c := c) hn _ h
    have h' := h
    rw [Whole.Typed] at h
    obtain ⟨cm, hc, ht, hkept, hp⟩ := h
    rcases hk.text hc ht with hr | ⟨y, hy, hnul⟩
    · have hnull := hk.null n (mem_keys hc) hr
      rw [Cond.holds, hr]
      rw [sent, hc]
      simp only
      by_cases h0 : cm.plaintext = true
      · rw [if_pos h0, value3, sure_null (hnull n (target_plain hc h0))]
      · obtain ⟨_, b, hb⟩ := hp (by simpa using h0)
        rw [if_neg h0, hb, value3, Option.getD_some, sure_null (hnull b (target_enc hc (by simpa using h0) hb))]
    · rw [← sure_ex brow _ hok]
      refine leaf_value hn hk h' ?_
      rw [Cond.Fits]
      exact ⟨cm, y, hc, hy, fun h0 => ⟨(hp h0).1, hnul, (hp h0).2⟩⟩
  | .cmp op n z, h => by
    have hok := sent_ok (c := c) hn _ h
    have h' := h
    rw [Whole.Typed] at h
    obtain ⟨cm, hc, ht, hp⟩ := h
    rcases hk.int hc ht with hr | ⟨y, hy⟩
    · have hnull := hk.null n (mem_keys hc) hr
      rw [Cond.holds, hr]
      rw [sent, hc]
      simp only
      by_cases h0 : cm.plaintext = true
      · rw [if_pos h0, value3, sure_null (hnull n (target_plain hc h0))]
      · obtain ⟨hz, b, hb⟩ := hp (by simpa using h0)
        have hz' : c.opeEnc cm.key z = .ok z := Ope.C04_fails_ope_is_identity (c.ope cm.key) z hz.1 hz.2
        rw [if_neg h0, hz', hb]
        simp only
        rw [value3, Option.getD_some, sure_null (hnull b (target_enc hc (by simpa using h0) hb))]
    · rw [← sure_ex brow _ hok]
      refine leaf_value hn hk h' ?_
      rw [Cond.Fits]
      exact ⟨cm, y, hc, hy, fun h0 => ⟨ht, (hp h0).1, (hp h0).2⟩⟩
  | .and l, h => by
    rw [Whole.Typed] at h
    rw [sent, value3, Cond.holds]
    exact sentAll_value hn hk l h.2
  | .or l, h => by
    rw [Whole.Typed] at h
    rw [sent, value3, Cond.holds]
    exact sentSome_value hn hk l h.2

theorem sentAll_value {P : Writer} {res : List Char → Bool} {c : Crypto} {tm : TableMeta ColMeta} (hn : Named P res tm) {row : PRow} {brow : Row}
    (hk : Keeps c tm.columns row brow) : ∀ (l : List Cond), TypedAll tm.columns l →
    all3 brow (sentAll c tm.columns l) = some (Cond.allHold (fun n => Dict.get? row n) l)
  | [], _ => by rw [sentAll, all3, Cond.allHold]
  | x :: r, h => by
    rw [TypedAll] at h
    rw [sentAll, all3, sent_value hn hk x h.1, sentAll_value hn hk r h.2, Cond.allHold, both]

theorem sentSome_value {P : Writer} {res : List Char → Bool} {c : Crypto} {tm : TableMeta ColMeta} (hn : Named P res tm) {row : PRow} {brow : Row}
    (hk : Keeps c tm.columns row brow) : ∀ (l : List Cond), TypedAll tm.columns l →
    some3 brow (sentAll c tm.columns l) = some (Cond.someHolds (fun n => Dict.get? row n) l)
  | [], _ => by rw [sentAll, some3, Cond.someHolds]
  | x :: r, h => by
    rw [TypedAll] at h
    rw [sentAll, some3, sent_value hn hk x h.1, sentSome_value hn hk r h.2, Cond.someHolds, both]
end

/-- The rewritten condition is true of the stored row exactly if the client's condition is true of the client's row. -/
theorem Keeps.concerned {P : Writer} {res : List Char → Bool} {c : Crypto} {tm : TableMeta ColMeta} (hn : Named P res tm) {row : PRow} {brow : Row}
    (h : Keeps c tm.columns row brow) {w : Option Cond} (hw : TypedW tm.columns w) :
    concerns3 ((sentW c tm.columns w).map W.ex) brow = some (selected w row) := by
  cases w with
  | none => rfl
  | some x =>
    have hx := hw x rfl
    show sure brow (sent c tm.columns x).ex = _
    rw [sure_ex brow _ (sent_ok hn x hx), sent_value hn h x hx]
    rfl

end EulerDB.Nulls
