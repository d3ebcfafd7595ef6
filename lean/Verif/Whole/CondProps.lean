/-
C72: the characters of a rewritten condition mean to MySQL what the client's condition means.
-/
import Verif.Whole.Cond
import Verif.Clause.WholeProps

namespace EulerDB.Whole

open EulerDB EulerDB.Clause EulerDB.Delta

/-- MySQL reads a condition. -/
def readCond (res : List Char → Bool) (s : List Char) : Option MEx :=
  match lex s.length s with
  | none => none
  | some ts =>
    match expr res ts.length ts with
    | some (e, []) => some e
    | _ => none

/-- A written condition is read as the condition written: AND, OR and parentheses of any depth. -/
theorem C72_written_partial {P : Writer} {res : List Char → Bool} (x : W) (h : x.Ok P res) (hp : x.prec ≤ 400) :
    exText P x.json 400 = .ok x.text ∧ readCond res x.text = some x.ex ∧ ∀ row, truth row x.ex = evalCond row x.json := by
  refine ⟨?_, ?_, fun row => W.truth_ex row x h⟩
  · rw [W.written x h, isolate, if_pos hp]
  · rw [readCond, (W.cut x h).done.full]
    simp only [W.read x h]

/-- **C72, partial.** A condition that fits its table is rewritten and written; on every stored row MySQL finds it true exactly if the client's condition is true of
the client's row. -/
theorem C72_condition_partial {P : Writer} {res : List Char → Bool} (c : Crypto) {db : Db} {t : String} {tm : TableMeta ColMeta} (ht : Dict.get? db t = some tm)
    (hn : Named P res tm) {x : Cond} (h : Typed tm.columns x) :
    ∃ j text e, whereRw c db (.str t) "symmetric" "" x.json = .ok j ∧ exText P j 400 = .ok text ∧ readCond res text = some e ∧
      ∀ vals row, Kinds tm.columns vals → Holds c tm.columns vals row → truth row e = some (x.holds vals) := by
  have hok := sent_ok (c := c) hn x h
  have hp : (sent c tm.columns x).prec ≤ 400 := by
    generalize sent c tm.columns x = y
    rcases y with ⟨o, _, _⟩ | _ | _
    · rcases o with _ | (_ | _ | _ | _) <;> exact Nat.le_of_ble_eq_true rfl
    · simp [W.prec]
    · simp [W.prec]
  obtain ⟨h1, h2, _⟩ := C72_written_partial _ hok hp
  exact ⟨_, _, _, where_sent ht h, h1, h2, fun vals row hv hr => sent_truth hn hv hr h⟩

example : ∃ x : Cond, Typed demoTable.columns x ∧ x.json = .dict [("and", .list [.dict [("eq", .list [.str "name", Json.lit "bob"])],
    .dict [("or", .list [.dict [("lt", .list [.str "age", .int 50])], .dict [("eq", .list [.str "id", .int 3])]])]])] := by
  refine ⟨.and [.eqText "name" "bob", .or [.cmp .lt "age" 50, .eqInt "id" 3]], ⟨by simp, ⟨_, rfl, by decide, by simp, fun _ => ⟨by simp [Aes.EndsInNul], _, rfl⟩⟩,
    ⟨by simp, ⟨_, rfl, rfl, fun _ => ⟨by simp [Clause.Int64], _, rfl⟩⟩, ⟨_, rfl, rfl, fun h => absurd h (by decide)⟩, trivial⟩, trivial⟩, rfl⟩

/-- **C72 fails** for a text that ends in a backslash, compared with a plaintext column: the literal does not end where it should, and MySQL cannot read the
condition. -/
theorem C72_fails_backslash (c : Crypto) (P : Writer) {db : Db} {t : String} {tm : TableMeta ColMeta} {cm : ColMeta} (ht : Dict.get? db t = some tm)
    (hc : Dict.get? tm.columns "b" = some cm) (hp : cm.plaintext = true) {res : List Char → Bool} (hb : Bare P res "b") : ∃ j text,
    whereRw c db (.str t) "symmetric" "" (Cond.eqText "b" "\\").json = .ok j ∧ exText P j 400 = .ok text ∧ readCond res text = none := by
  have h1 := where_sealed (c := c) (vals := fun _ => some (.text "")) ht "" (.eqText "b" "\\") ⟨cm, "", hc, rfl, fun h => by rw [hp] at h; cases h⟩
  refine ⟨_, "b = '\\'".toList, h1, ?_, ?_⟩
  · have : Cond.sealed c tm.columns (.eqText "b" "\\") = .dict [("eq", .list [.str "b", Json.lit "\\"])] := by simp [Cond.sealed, hc, hp]
    rw [this, exText, exDict, if_neg (by decide), if_neg (by decide), exOp]
    have e1 : infixOf "eq" = some (WOp.eq.prec, "=".toList) := by decide
    have e2 : infixOf "literal" = none := by decide
    have e3 : WOp.eq.prec ≤ 400 := by decide
    simp only [e1, exInfix, exTexts]
    rw [exText, nameText_bare hb, Json.lit, exText, exDict, if_neg (by decide), if_neg (by decide), exOp]
    simp only [e2, if_true]
    simp [litText, joinOp, Except.map, isolate, e3, Format.quoted, Format.doubled]
  · have : lex "b = '\\'".toList.length "b = '\\'".toList = none := by decide +kernel
    simp only [readCond, this]

end EulerDB.Whole
