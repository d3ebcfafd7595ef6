/-
The columns that the proxy makes of declared ones, as they are written and as the backend reads them (C84).
-/
import Verif.Create.Spell

namespace EulerDB.Create

open EulerDB EulerDB.Table EulerDB.Delta EulerDB.Whole EulerDB.Clause

/-! ### A column of the backend -/

/-- A column as it is written: its name, the word and the size of its type, NULL or NOT NULL, PRIMARY KEY. -/
structure Out where
  name : String
  word : String
  arg : Option Nat
  null : Option Bool
  pk : Bool
  deriving DecidableEq, Repr

def argText : Option Nat → String
  | some n => "(" ++ String.ofList (Text.natStr n) ++ ")"
  | none => ""

def optNull : Option Bool → String
  | some true => " NULL "
  | some false => " NOT NULL "
  | none => ""

def optKey (pk : Bool) : String := if pk then " primary key" else ""

def Out.bcol (o : Out) : BCol := ⟨o.name, o.word ++ argText o.arg, optNull o.null ++ optKey o.pk⟩

def argToks : Option Nat → List MTok
  | some n => [.lp, .num n, .rp]
  | none => []

def nullToks : Option Bool → List MTok
  | some true => [.word "NULL".toList]
  | some false => [.word "NOT".toList, .word "NULL".toList]
  | none => []

def keyToks (pk : Bool) : List MTok := if pk then [.word "primary".toList, .word "key".toList] else []

def Out.toks (o : Out) : List MTok := .word o.name.toList :: .word o.word.toList :: (argToks o.arg ++ (nullToks o.null ++ keyToks o.pk))

/-- The type words that are written. -/
def words : List String := ["int", "char", "varchar", "BIGINT", "VARCHAR"]

/-- The type that the backend understands. -/
def Out.type (o : Out) : Option MType := mtype (String.ofList (o.word.toList.map Char.toUpper)) (o.arg.toList)

/-! ### Cutting its text -/

theorem cut_blank {a : List Char} {ts : List MTok} (h : Cut a ts) : Cut (a ++ [' ']) ts := by
  intro rest out hr ho
  have := h (' ' :: rest) out (Ends.blank _) (ho.blank (by decide))
  simpa using this

theorem lx_word_lp {w : List Char} (h : Name w) {r : List Char} {out : List MTok} (ho : Lx r out) : Lx (w ++ '(' :: r) (.word w :: .lp :: out) := by
  obtain ⟨h0, h1, h2⟩ := h
  obtain ⟨c, t, rfl⟩ := List.exists_cons_of_ne_nil h0
  have hd : c.isDigit = false := h2 c (by simp)
  refine Lx.tok (space_nameChar (h1 c (by simp))) (r := '(' :: r) ?_ (lx_lp ho)
  have hw := takeWhile_app (w := t) (rest := '(' :: r) (p := Format.nameChar) (fun x hx => h1 x (by simp [hx])) (by simp; decide)
  have hc := h1 c (by simp)
  have hq : ¬(c = '\'' ∨ c = '"') := by
    rintro (rfl | rfl) <;> revert hc <;> clear h1 h2 h0 hd <;> decide
  have hp : Text.parseNat (c :: t) = .error .valueError := by
    unfold Text.parseNat
    rw [if_neg]
    simp [hd]
  change tokAt c (t ++ '(' :: r) = _
  unfold tokAt
  rw [if_neg hq, if_pos hc, hw.1, hw.2]
  unfold wordTok
  rw [hp]
  simp (decide := true) [hd]

/-- A type word with its size. -/
theorem cut_type {w : List Char} (h : Name w) (a : Option Nat) : Cut (w ++ (argText a).toList) (.word w :: argToks a) := by
  cases a with
  | none => simpa [argText, argToks] using cut_word h
  | some n =>
    intro rest out hr ho
    have h1 := cut_nat n (')' :: rest) _ (Ends.rp _) (lx_rp ho)
    have h2 := lx_word_lp h h1
    simpa [argText, argToks, String.toList_append] using h2

theorem cut_append {a b : List Char} {ta tb : List MTok} (ha : Cut a ta) (hb : ∀ rest out, Ends rest → Lx rest out → Ends (b ++ rest) ∧ Lx (b ++ rest) (tb ++ out)) :
    Cut (a ++ b) (ta ++ tb) := by
  intro rest out hr ho
  obtain ⟨h1, h2⟩ := hb rest out hr ho
  have := ha _ _ h1 h2
  simpa using this

theorem words_name : ∀ w ∈ words, Name w.toList := by
  unfold Whole.Name
  decide

theorem ends_null (n : Option Bool) (rest : List Char) (out : List MTok) (hr : Ends rest) (ho : Lx rest out) :
    Ends ((optNull n).toList ++ rest) ∧ Lx ((optNull n).toList ++ rest) (nullToks n ++ out) := by
  have hnull : Name "NULL".toList := by unfold Whole.Name; decide
  have hnot : Name "NOT".toList := by unfold Whole.Name; decide
  cases n with
  | none => exact ⟨hr, ho⟩
  | some b =>
    cases b with
    | true =>
      refine ⟨by intro c hc; left; simpa [optNull, eq_comm] using hc, ?_⟩
      have := (cut_blank (cut_word hnull) rest out hr ho).blank (c := ' ') (by decide)
      simpa [optNull, nullToks] using this
    | false =>
      refine ⟨by intro c hc; left; simpa [optNull, eq_comm] using hc, ?_⟩
      have := (cut_blank ((cut_word hnot).blank (cut_word hnull)) rest out hr ho).blank (c := ' ') (by decide)
      simpa [optNull, nullToks] using this

theorem ends_key (b : Bool) (rest : List Char) (out : List MTok) (hr : Ends rest) (ho : Lx rest out) :
    Ends ((optKey b).toList ++ rest) ∧ Lx ((optKey b).toList ++ rest) (keyToks b ++ out) := by
  have h1 : Name "primary".toList := by unfold Whole.Name; decide
  have h2 : Name "key".toList := by unfold Whole.Name; decide
  cases b with
  | false => exact ⟨hr, ho⟩
  | true =>
    refine ⟨by intro c hc; left; simpa [optKey, eq_comm] using hc, ?_⟩
    have := (((cut_word h1).blank (cut_word h2)) rest out hr ho).blank (c := ' ') (by decide)
    simpa [optKey, keyToks] using this

/-- The text of a column is cut into its tokens. -/
theorem Out.cut {P : Writer} {res : List Char → Bool} {o : Out} (hn : Bare P res o.name) (hw : o.word ∈ words) : Cut o.bcol.text.toList o.toks := by
  have h1 := (cut_word hn.name).blank (cut_type (words_name _ hw) o.arg)
  have h3 := cut_append (a := o.name.toList ++ ' ' :: (o.word.toList ++ (argText o.arg).toList))
    (b := (optNull o.null).toList ++ (optKey o.pk).toList) (tb := nullToks o.null ++ keyToks o.pk) h1 fun rest out hr ho => by
      obtain ⟨h3, h4⟩ := ends_key o.pk rest out hr ho
      have := ends_null o.null _ _ h3 h4
      simpa using this
  simpa [Out.bcol, BCol.text, Out.toks, String.toList_append] using h3

/-! ### Reading its tokens -/

/-- What stands after a column. -/
def After (r : List MTok) : Prop := ∃ r', r = .comma :: r' ∨ r = .rp :: r'

theorem pKw_after {r : List MTok} (h : After r) (k : String) : pKw k r = none := by
  obtain ⟨r', rfl | rfl⟩ := h <;> rfl

theorem pOptions_after {r : List MTok} (h : After r) (n : Nat) (k a : Bool) : pOptions n k a r = (k, a, r) := by
  cases n with
  | zero => rfl
  | succ n => simp [pOptions, pKw_after h]

theorem pOptions_key (b : Bool) {r : List MTok} (h : After r) (n : Nat) (hn : (keyToks b).length ≤ n) : pOptions n false false (keyToks b ++ r) = (b, false, r) := by
  cases b with
  | false => exact pOptions_after h n false false
  | true =>
    obtain ⟨n, rfl⟩ : ∃ k, n = k + 1 := ⟨n - 1, by simp [keyToks] at hn; omega⟩
    have e1 : pKw "NOT" (keyToks true ++ r) = none := rfl
    have e2 : pKw "NULL" (keyToks true ++ r) = none := rfl
    have e3 : (pKw "PRIMARY" (keyToks true ++ r)).bind (pKw "KEY") = some r := rfl
    rw [pOptions, e1, e2, e3]
    exact pOptions_after h n true false

theorem pOptions_read (u : Option Bool) (b : Bool) {r : List MTok} (h : After r) (n : Nat) (hn : (nullToks u ++ keyToks b).length ≤ n) :
    pOptions n false false (nullToks u ++ (keyToks b ++ r)) = (b, false, r) := by
  cases u with
  | none => exact pOptions_key b h n (by simpa [nullToks] using hn)
  | some x =>
    obtain ⟨n, rfl⟩ : ∃ k, n = k + 1 := ⟨n - 1, by cases x <;> simp [nullToks] at hn <;> omega⟩
    have hk : (keyToks b).length ≤ n := by cases x <;> simp [nullToks] at hn <;> omega
    cases x with
    | true =>
      have e1 : pKw "NOT" (nullToks (some true) ++ (keyToks b ++ r)) = none := rfl
      have e2 : pKw "NULL" (nullToks (some true) ++ (keyToks b ++ r)) = some (keyToks b ++ r) := rfl
      rw [pOptions, e1, e2]
      exact pOptions_key b h n hk
    | false =>
      have e1 : (pKw "NOT" (nullToks (some false) ++ (keyToks b ++ r))).bind (pKw "NULL") = some (keyToks b ++ r) := rfl
      rw [pOptions, e1]
      exact pOptions_key b h n hk

theorem pArgs_read (a : Option Nat) (u : Option Bool) (b : Bool) {r : List MTok} (h : After r) :
    pArgs (argToks a ++ (nullToks u ++ (keyToks b ++ r))) = (a.toList, nullToks u ++ (keyToks b ++ r)) := by
  obtain ⟨r', rfl | rfl⟩ := h <;> cases a <;> cases u <;> cases b <;> (try rename_i x; cases x) <;> rfl

theorem Out.read {P : Writer} {res : List Char → Bool} {o : Out} (hn : Bare P res o.name) {ty : MType} (ht : o.type = some ty) {r : List MTok} (h : After r) :
    pCol res (o.toks ++ r) = some (⟨o.name, ty, o.pk, false⟩, r) := by
  have e : o.toks ++ r = .word o.name.toList :: .word o.word.toList :: (argToks o.arg ++ (nullToks o.null ++ (keyToks o.pk ++ r))) := by simp [Out.toks]
  have h1 := pArgs_read o.arg o.null o.pk h
  have h2 := pOptions_read o.null o.pk h (nullToks o.null ++ (keyToks o.pk ++ r)).length (by simp only [List.length_append]; omega)
  have hres := hn.res
  rw [e]
  unfold pCol
  simp only [pName, hres, Bool.false_eq_true, if_false, h1, String.ofList_toList]
  rw [show mtype (String.ofList (o.word.toList.map Char.toUpper)) o.arg.toList = some ty from ht]
  simp only [h2]

/-- Items with something after them, separated by commas. -/
theorem pSep_after {α β : Type} {p : List MTok → Option (β × List MTok)} {f : α → List MTok} {g : α → β} {rest : List MTok} :
    ∀ (l : List α) (n : Nat), l ≠ [] → (∀ a ∈ l, ∀ r, After r → p (f a ++ r) = some (g a, r)) → l.length ≤ n + 1 →
      pSep p n (commaToks (l.map f) ++ .rp :: rest) = some (l.map g, .rp :: rest)
  | [], _, h, _, _ => absurd rfl h
  | [a], n, _, h, _ => by
    have ha := h a (by simp) (.rp :: rest) ⟨_, Or.inr rfl⟩
    cases n with
    | zero => simp [pSep, commaToks, ha]
    | succ n =>
      rw [pSep]
      simp only [List.map_cons, List.map_nil, commaToks, ha]
  | a :: b :: l, 0, _, _, hn => by simp at hn
  | a :: b :: l, n + 1, _, h, hn => by
    have ha := h a (by simp) (.comma :: (commaToks ((b :: l).map f) ++ .rp :: rest)) ⟨_, Or.inl rfl⟩
    have ih := pSep_after (rest := rest) (b :: l) n (by simp) (fun x hx => h x (by simp [hx])) (by simpa using hn)
    have e : commaToks ((a :: b :: l).map f) ++ .rp :: rest = f a ++ .comma :: (commaToks ((b :: l).map f) ++ .rp :: rest) := by simp [commaToks]
    rw [pSep, e, ha]
    simp only
    rw [ih]
    rfl

/-- The texts of columns, separated by commas. -/
theorem lx_commas {P : Writer} {res : List Char → Bool} {r : List Char} {out : List MTok} (hr : Ends r) (ho : Lx r out) : ∀ (os : List Out), os ≠ [] → (∀ o ∈ os, Bare P res o.name ∧ o.word ∈ words) →
    Lx ((String.intercalate "," (os.map fun o => o.bcol.text)).toList ++ r) (commaToks (os.map Out.toks) ++ out)
  | [], h, _ => absurd rfl h
  | [o], _, h => by
    have := Out.cut (h o (by simp)).1 (h o (by simp)).2 r out hr ho
    simpa [commaToks, String.toList_intercalate] using this
  | o :: o' :: os, _, h => by
    have ih := lx_commas hr ho (o' :: os) (by simp) fun x hx => h x (by simp [hx])
    have := Out.cut (h o (by simp)).1 (h o (by simp)).2 _ _ (Ends.comma _) (lx_comma ih)
    simpa [commaToks, String.toList_intercalate, List.intercalate] using this

end EulerDB.Create
