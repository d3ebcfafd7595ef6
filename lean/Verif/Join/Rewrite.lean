/-
C80: what the proxy makes of a query over several tables.
-/
import Verif.Join.Model

namespace EulerDB.Join

open EulerDB EulerDB.Clause EulerDB.Delta EulerDB.Whole

/-! ### What is asked -/

/-- The column is known, can be read (as plaintext or from its symmetric column) and is written without further dots. -/
structure Known (db : Db) (a : Ref) (tm : TableMeta ColMeta) (cm : ColMeta) (b : String) : Prop where
  table : Dict.get? db a.1 = some tm
  col : Dict.get? tm.columns a.2 = some cm
  read : readName a.2 cm = some b
  dot1 : '.' ∉ a.1.toList
  dot2 : '.' ∉ a.2.toList

/-- Two columns that can be compared: both in clear or both encrypted with the same key; both numbers or both texts. -/
def Comparable (cm cm' : ColMeta) : Prop :=
  ((cm.plaintext = true ∧ cm'.plaintext = true) ∨ (cm.plaintext = false ∧ cm'.plaintext = false ∧ cm.key = cm'.key)) ∧ (cm.type = "int" ↔ cm'.type = "int")

mutual
/-- The condition concerns known columns of the tables `ts`, compared with comparable ones. -/
def On.Fits (db : Db) (ts : List String) : On → Prop
  | .eq a b => a.1 ∈ ts ∧ b.1 ∈ ts ∧ ∃ tm cm x tm' cm' x', Known db a tm cm x ∧ Known db b tm' cm' x' ∧ Comparable cm cm'
  | .and l => On.FitAll db ts l
  | .or l => On.FitAll db ts l

def On.FitAll (db : Db) (ts : List String) : List On → Prop
  | [] => True
  | c :: r => c.Fits db ts ∧ On.FitAll db ts r
end

def StepsFit (db : Db) : List String → List Step → Prop
  | _, [] => True
  | prev, s :: r => (∀ k c, s.how = some (k, c) → c.Fits db (prev ++ [s.table])) ∧ StepsFit db (prev ++ [s.table]) r

/-- What is asked of a query. -/
structure Fine (db : Db) (q : Query) : Prop where
  more : q.steps ≠ []
  known : ∀ t ∈ q.tables, ∃ tm, Dict.get? db t = some tm
  once : q.tables.Nodup
  dots : ∀ t ∈ q.tables, '.' ∉ t.toList
  plain : PlainTable q.first ∧ ∀ s ∈ q.steps, s.how = none → PlainTable s.table
  uniform : (∀ s ∈ q.steps, s.how = none) ∨ ∀ s ∈ q.steps, s.how ≠ none
  steps : StepsFit db [q.first] q.steps
  cond : ∀ c ∈ q.cond, c.Fits db q.tables
  refs : ∀ a ∈ q.refs db, a.1 ∈ q.tables ∧ ∃ tm cm b, Known db a tm cm b
  odd : ∀ t ∈ q.tables, ∀ w ∈ ["inner join", "left join", "right join"], pyIn w (.str t) = false
  star : q.items = none → ∀ s ∈ q.steps, s.kind = some .inner → pyIn "join" (.str s.table) = false

/-- The names of the backend: one for every table, without dots. -/
structure Names (db : Db) : Prop where
  tables : ∀ t t' tm tm', Dict.get? db t = some tm → Dict.get? db t' = some tm' → tm.anonymous = tm'.anonymous → t = t'
  anon : ∀ t tm, Dict.get? db t = some tm → '.' ∉ tm.anonymous.toList ∧ tm.anonymous ≠ ""
  keys : ∀ t tm, Dict.get? db t = some tm → (Dict.keys tm.columns).Nodup
  cols : ∀ t tm n cm b, Dict.get? db t = some tm → Dict.get? tm.columns n = some cm → readName n cm = some b → '.' ∉ b.toList

/-! ### As rewritten -/

/-- The column of the backend. -/
def bref (db : Db) (a : Ref) : String := (joinCol db a).getD ""

theorem Known.joinCol {db : Db} {a : Ref} {tm : TableMeta ColMeta} {cm : ColMeta} {b : String} (h : Known db a tm cm b) :
    joinCol db a = some (tm.anonymous ++ "." ++ b) := by
  have := h.read
  unfold readName at this
  simp [Clause.joinCol, h.table, h.col, this]

theorem Known.bref {db : Db} {a : Ref} {tm : TableMeta ColMeta} {cm : ColMeta} {b : String} (h : Known db a tm cm b) :
    bref db a = tm.anonymous ++ "." ++ b := by
  simp [Join.bref, h.joinCol]

mutual
def On.sent (db : Db) : On → Json
  | .eq a b => .dict [("eq", .list [.str (bref db a), .str (bref db b)])]
  | .and l => .dict [("and", .list (On.sents db l))]
  | .or l => .dict [("or", .list (On.sents db l))]

def On.sents (db : Db) : List On → List Json
  | [] => []
  | c :: r => c.sent db :: On.sents db r
end

/-- The table of the backend. -/
def btable (db : Db) (t : String) : String := (anonOf db t).getD ""

def Step.sent (db : Db) (s : Step) : Json :=
  match s.how with
  | none => .str (btable db s.table)
  | some (k, c) => .dict [(k.key, .str (btable db s.table)), ("on", c.sent db)]

def Query.cols (q : Query) (db : Db) : Json :=
  match q.items with
  | none => .list ((q.refs db).map fun a => .str (bref db a))
  | some l => colsOut (l.map (bref db))

def Query.sent (q : Query) (db : Db) : Dict String Json :=
  ("select", q.cols db) ::
    ("from", .list (.str (btable db q.first) :: q.steps.map (Step.sent db))) ::
    (match q.cond with | none => [] | some c => [("where", c.sent db)])

/-- The record of the select list. -/
def pushRefs (db : Db) (s : Sel) : List Ref → Sel
  | [] => s
  | a :: r =>
    match (Dict.get? db a.1).bind fun tm => Dict.get? tm.columns a.2 with
    | some cm => pushRefs db (s.push (dotted a) cm.type (readState cm)) r
    | none => pushRefs db s r

/-! ### Conditions -/

theorem joinEq_known {db : Db} {a a' : Ref} {tm tm' : TableMeta ColMeta} {cm cm' : ColMeta} {b b' : String} (h : Known db a tm cm b) (h' : Known db a' tm' cm' b') :
    joinEq db "symmetric" (.str (dotted a)) (.str (dotted a')) = .ok (.dict [("eq", .list [.str (bref db a), .str (bref db a')])]) := by
  have one : ∀ {a : Ref} {tm : TableMeta ColMeta} {cm : ColMeta} {b : String}, Known db a tm cm b →
      (if cm.plaintext = true then Except.ok a.2 else Dict.getItem cm.encCols "symmetric" : Except PyErr String) = .ok b := by
    intro a tm cm b h
    have := h.read
    unfold readName at this
    by_cases hp : cm.plaintext = true
    · rw [if_pos hp] at this ⊢
      injection this with this
      rw [this]
    · rw [if_neg hp] at this ⊢
      exact getItem_ok.2 this
  have e1 := splitTableCol_dot h.dot1 h.dot2
  have e2 := splitTableCol_dot h'.dot1 h'.dot2
  have t1 : tableOf db a.1 = .ok tm := getItem_ok.2 h.table
  have t2 : tableOf db a'.1 = .ok tm' := getItem_ok.2 h'.table
  have c1 : Dict.getItem tm.columns a.2 = .ok cm := getItem_ok.2 h.col
  have c2 : Dict.getItem tm'.columns a'.2 = .ok cm' := getItem_ok.2 h'.col
  unfold joinEq dotted
  simp only [e1, e2, t1, t2, c1, c2, one h, one h', h.bref, h'.bref]

mutual
theorem on_rewritten {c : Crypto} {db : Db} {ts : List String} {l : List Json} {key : String} : ∀ {o : On}, o.Fits db ts →
    whereRw c db (.list l) "symmetric" key o.json = .ok (o.sent db)
  | .eq a b, h => by
    obtain ⟨_, _, tm, cm, x, tm', cm', x', h1, h2, _⟩ := h
    have := joinEq_known h1 h2
    simp only [On.json, whereRw, whereDict, if_true, whereCols, tableOfJson, this, On.sent]
  | .and os, h => by
    have := ons_rewritten (c := c) (db := db) (ts := ts) (l := l) (os := os) h
    simp (decide := true) only [On.json, whereRw, whereDict, if_false, if_true, this, On.sent]
  | .or os, h => by
    have := ons_rewritten (c := c) (db := db) (ts := ts) (l := l) (os := os) h
    simp (decide := true) only [On.json, whereRw, whereDict, if_false, if_true, this, On.sent]

theorem ons_rewritten {c : Crypto} {db : Db} {ts : List String} {l : List Json} : ∀ {os : List On}, On.FitAll db ts os →
    whereList c db (.list l) "symmetric" (On.jsons os) = .ok (On.sents db os)
  | [], _ => by simp only [On.jsons, whereList, On.sents]
  | o :: os, h => by
    simp only [On.jsons, whereList, On.sents, on_rewritten (c := c) (l := l) (key := "") h.1, ons_rewritten (c := c) (l := l) h.2]
end

/-! ### FROM -/

theorem btable_eq {db : Db} {t : String} {tm : TableMeta ColMeta} (h : Dict.get? db t = some tm) : btable db t = tm.anonymous := by
  simp [btable, anonOf, h]

theorem Kind.key_mem (k : Kind) : k.key ∈ joinList := by cases k <;> decide

theorem Kind.key_on (k : Kind) : k.key ≠ "on" := by cases k <;> decide

theorem Kind.key_value (k : Kind) : k.key ≠ "value" := by cases k <;> decide

theorem step_rewritten {c : Crypto} {db : Db} {ts : List String} {s : Step} (hk : ∃ tm, Dict.get? db s.table = some tm)
    (hf : ∀ k o, s.how = some (k, o) → o.Fits db ts) : fromItem c db s.json = .ok (s.sent db) := by
  obtain ⟨tm, ht⟩ := hk
  have h1 : tableOf db s.table = .ok tm := getItem_ok.2 ht
  have h2 := btable_eq ht
  cases hh : s.how with
  | none => simp [Step.json, Step.sent, hh, fromItem, h1, h2, Except.map]
  | some p =>
    obtain ⟨k, o⟩ := p
    have h3 := on_rewritten (c := c) (l := []) (key := "") (hf k o hh)
    have h4 : "on" ∉ joinList := by decide
    simp only [Step.json, Step.sent, hh, fromItem, joinItems, if_pos k.key_mem, tableOfJson, h1, if_neg h4, if_true, h3, h2]
    simp [Dict.set, k.key_on, Except.map]

theorem steps_rewritten {c : Crypto} {db : Db} : ∀ {l : List Step} {prev : List String}, (∀ s ∈ l, ∃ tm, Dict.get? db s.table = some tm) → StepsFit db prev l →
    fromList c db (l.map Step.json) = .ok (l.map (Step.sent db))
  | [], _, _, _ => rfl
  | s :: l, prev, hk, hf => by
    rw [List.map_cons, fromList, step_rewritten (c := c) (hk s (by simp)) hf.1]
    simp only
    rw [steps_rewritten (c := c) (fun s hs => hk s (by simp [hs])) hf.2]
    simp

theorem from_rewritten {c : Crypto} {db : Db} {q : Query} (h : Fine db q) (nested) (s : Sel) :
    fromOuter c db nested q.from q.from s = .ok (.list (.str (btable db q.first) :: q.steps.map (Step.sent db)), s) := by
  obtain ⟨tm, ht⟩ := h.known q.first (by simp [Query.tables])
  have h1 : tableOf db q.first = .ok tm := getItem_ok.2 ht
  have h2 := btable_eq ht
  have hk : ∀ s ∈ q.steps, ∃ tm, Dict.get? db s.table = some tm := fun s hs => h.known s.table (by simp only [Query.tables, List.mem_cons]; exact Or.inr (List.mem_map_of_mem hs))
  have hl : fromRw c db q.from = .ok (.list (.str (btable db q.first) :: q.steps.map (Step.sent db))) := by
    have hi : fromItem c db (.str q.first) = .ok (.str (btable db q.first)) := by simp [fromItem, h1, h2, Except.map]
    simp [fromRw, Query.from, fromList, hi, steps_rewritten (c := c) hk h.steps, Except.map]
  have h3 := fromItems_eq (nested := nested) hl 0 (.str q.first :: q.steps.map Step.json) s (by
    intro v hv
    rcases List.mem_cons.1 hv with rfl | hv
    · exact h.plain.1
    · obtain ⟨x, hx, rfl⟩ := List.mem_map.1 hv
      cases hh : x.how with
      | none =>
        have := h.plain.2 x hx hh
        simp only [Step.json, hh]
        exact this
      | some p => simp (decide := true) [Step.json, hh, pyIn, Dict.get?_cons, p.1.key_value]) (by simp)
  rw [List.drop_zero] at h3
  have e : fromOuter c db nested q.from q.from s =
      match fromItems c db nested q.from 0 (.str q.first :: q.steps.map Step.json) s with
      | .error e => .error e
      | .ok (xs, s') => .ok (.list xs, s') := rfl
  rw [e, h3]

/-! ### The select list -/

theorem in_step {t : String} {o : Json} (k w : String) : pyIn w (.dict [(k, .str t), ("on", o)]) = (decide (k = w) || decide ("on" = w)) := by
  by_cases e : k = w
  · simp [pyIn, Dict.get?, e]
  · by_cases e' : "on" = w <;> simp [pyIn, Dict.get?, e, e']

/-- The table of a joined table, in the order of utils.py 24-28. -/
theorem descend_origin {k : Kind} {t : String} {o : Json} (ho : ∀ w ∈ ["inner join", "left join", "right join"], pyIn w (.str t) = false) :
    descend ["join", "inner join", "left join", "right join"] (.dict [(k.key, .str t), ("on", o)]) = .ok (.str t) := by
  have h1 := ho "inner join" (by decide)
  have h2 := ho "left join" (by decide)
  have h3 := ho "right join" (by decide)
  have hd := @in_step t o
  cases k <;> simp (decide := true) [descend, hd, Kind.key, pyItem, Dict.getItem, Dict.get?, h1, h2, h3]

/-- The same in the order of `join_list`. -/
theorem descend_star {k : Kind} {t : String} {o : Json} (ho : ∀ w ∈ ["inner join", "left join", "right join"], pyIn w (.str t) = false)
    (hi : k = .inner → pyIn "join" (.str t) = false) : descend joinList (.dict [(k.key, .str t), ("on", o)]) = .ok (.str t) := by
  have h2 := ho "left join" (by decide)
  have h3 := ho "right join" (by decide)
  have hd := @in_step t o
  cases k with
  | inner =>
    have h1 := hi rfl
    simp (decide := true) [joinList, descend, hd, Kind.key, pyItem, Dict.getItem, Dict.get?, h1, h2, h3]
  | _ => simp (decide := true) [joinList, descend, hd, Kind.key, pyItem, Dict.getItem, Dict.get?, h2, h3]

theorem origin_step {s : Step} {name : String} (ho : ∀ w ∈ ["inner join", "left join", "right join"], pyIn w (.str s.table) = false) :
    originOne name s.json = .ok (.str (if name = s.table then s.table else "")) := by
  cases hh : s.how with
  | none => simp [Step.json, hh, originOne]
  | some p => simp only [Step.json, hh, originOne, descend_origin ho]

theorem origin_list {name : String} : ∀ {l : List (Json × String)}, (∀ p ∈ l, originOne name p.1 = .ok (.str (if name = p.2 then p.2 else ""))) → ∀ {r : String},
    (r = name ∨ name ∈ l.map Prod.snd ∧ r = "") → originList name (l.map Prod.fst) (.str r) = .ok (.str name)
  | [], _, r, hr => by
    rcases hr with rfl | ⟨h, _⟩
    · rfl
    · simp at h
  | p :: l, h, r, hr => by
    rw [List.map_cons, originList, h p (by simp)]
    dsimp only
    by_cases e : name = p.2
    · rw [if_pos e]
      by_cases e' : p.2 = ""
      · have : found (.str p.2) = false := by simp [found, e']
        rw [this]
        simp only [Bool.false_eq_true, if_false]
        refine origin_list (fun p hp => h p (by simp [hp])) (.inl ?_)
        rcases hr with hr | ⟨_, hr⟩
        · exact hr
        · rw [hr, e, e']
      · have : found (.str p.2) = true := by simp [found, e']
        rw [this]
        simp only [if_true]
        exact origin_list (fun p hp => h p (by simp [hp])) (.inl e.symm)
    · rw [if_neg e]
      have : found (.str "") = false := by simp [found]
      rw [this]
      simp only [Bool.false_eq_true, if_false]
      refine origin_list (fun p hp => h p (by simp [hp])) ?_
      rcases hr with hr | ⟨hm, hr⟩
      · exact .inl hr
      · refine .inr ⟨?_, hr⟩
        simp only [List.map_cons, List.mem_cons] at hm
        exact hm.resolve_left e

theorem origin_from {db : Db} {q : Query} (h : Fine db q) {t : String} (ht : t ∈ q.tables) : origin t q.from = .ok (.str t) := by
  have := origin_list (name := t) (l := (.str q.first, q.first) :: q.steps.map fun s => (s.json, s.table)) (r := "") (by
    intro p hp
    rcases List.mem_cons.1 hp with rfl | hp
    · simp [originOne]
    · obtain ⟨s, hs, rfl⟩ := List.mem_map.1 hp
      exact origin_step (h.odd s.table (by simp only [Query.tables, List.mem_cons]; exact Or.inr (List.mem_map_of_mem hs)))) (.inr ⟨by
    simpa [Query.tables, List.map_map, Function.comp_def] using ht, rfl⟩)
  simpa [origin, Query.from, List.map_map, Function.comp_def] using this

theorem dotted_star (a : Ref) : dotted a ≠ "*" := by
  intro h
  have := congrArg String.toList h
  have hm : '.' ∈ (dotted a).toList := by simp [dotted]
  rw [this] at hm
  revert hm
  decide

theorem col_rewritten {db : Db} {q : Query} (h : Fine db q) {a : Ref} (ha : a.1 ∈ q.tables) {tm : TableMeta ColMeta} {cm : ColMeta} {b : String} (hk : Known db a tm cm b) (s : Sel) :
    selRw db q.from "symmetric" s (.str (dotted a)) = .ok (.str (bref db a), s.push (dotted a) cm.type (readState cm)) := by
  have e1 : splitTableCol (.str (dotted a)) = .ok (a.1, a.2) := splitTableCol_dot hk.dot1 hk.dot2
  have t1 : tableOfJson db (.str a.1) = .ok tm := getItem_ok.2 hk.table
  have c1 : Dict.getItem tm.columns a.2 = .ok cm := getItem_ok.2 hk.col
  have n1 : (if cm.plaintext = true then Except.ok a.2 else Dict.getItem cm.encCols "symmetric" : Except PyErr String) = .ok b := by
    have := hk.read
    unfold readName at this
    by_cases hp : cm.plaintext = true
    · rw [if_pos hp] at this ⊢
      injection this with this
      rw [this]
    · rw [if_neg hp] at this ⊢
      exact getItem_ok.2 this
  have e : selStr db q.from "symmetric" s (dotted a) = selJoinCol db q.from "symmetric" s (dotted a) := rfl
  rw [selRw, if_neg (dotted_star a), e]
  simp only [selJoinCol, e1, origin_from h ha, t1, c1, n1, ne_eq, not_true_eq_false, if_false, readState, hk.bref]

theorem pushRefs_cons {db : Db} {a : Ref} {tm : TableMeta ColMeta} {cm : ColMeta} {b : String} (hk : Known db a tm cm b) (s : Sel) (r : List Ref) :
    pushRefs db s (a :: r) = pushRefs db (s.push (dotted a) cm.type (readState cm)) r := by
  simp [pushRefs, hk.table, hk.col]

theorem list_rewritten {db : Db} {q : Query} (h : Fine db q) : ∀ {l : List Ref}, (∀ a ∈ l, a.1 ∈ q.tables ∧ ∃ tm cm b, Known db a tm cm b) → ∀ s,
    selList db q.from s (l.map fun a => .dict [("value", .str (dotted a))]) = .ok (l.map fun a => .str (bref db a), pushRefs db s l)
  | [], _, s => by simp [selList, pushRefs]
  | a :: l, hl, s => by
    obtain ⟨ha, tm, cm, b, hk⟩ := hl a (by simp)
    rw [List.map_cons, selList]
    have ih := list_rewritten h (fun a (ha : a ∈ l) => hl a (by simp [ha]))
    simp only [selItem, selValueOf, if_true, col_rewritten h ha hk, ih, pushRefs_cons hk, List.map_cons]

theorem star_prefix {db : Db} {j : Json} {t : String} {tm : TableMeta ColMeta} (ht : Dict.get? db t = some tm) (ha : tm.anonymous ≠ "")
    (hj : j = .str t ∨ ∃ k : Kind, ∃ o, j = .dict [(k.key, .str t), ("on", o)] ∧ descend joinList (.dict [(k.key, .str t), ("on", o)]) = .ok (.str t)) :
    starPrefix db true t j = .ok (tm.anonymous ++ ".") := by
  have t1 : tableOf db t = .ok tm := getItem_ok.2 ht
  have t2 : tableOfJson db (.str t) = .ok tm := t1
  rcases hj with rfl | ⟨k, o, rfl, hd⟩
  · simp [starPrefix, t1, Except.map, ha]
  · simp [starPrefix, hd, t2, Except.map, ha]

theorem star_cols {db : Db} {j : Json} {t : String} {tm : TableMeta ColMeta} (hp : starPrefix db true t j = .ok (tm.anonymous ++ ".")) (ht : Dict.get? db t = some tm) :
    ∀ {d : Dict String ColMeta}, (∀ p ∈ d, ∃ b, Known db (t, p.1) tm p.2 b) → ∀ s,
    starCols db true t j "symmetric" d s = .ok (d.map fun p => .str (bref db (t, p.1)), pushRefs db s (d.map fun p => (t, p.1)))
  | [], _, s => by simp [starCols, pushRefs]
  | (k, v) :: d, hl, s => by
    obtain ⟨b, hk⟩ := hl (k, v) (by simp)
    have hk : Known db (t, k) tm v b := hk
    have n1 : (if v.plaintext = true then Except.ok k else Dict.getItem v.encCols "symmetric" : Except PyErr String) = .ok b := by
      have := hk.read
      unfold readName at this
      by_cases hp : v.plaintext = true
      · rw [if_pos hp] at this ⊢
        injection this with this
        exact congrArg _ this
      · rw [if_neg hp] at this ⊢
        exact getItem_ok.2 this
    have ih := star_cols hp ht (fun p (hp : p ∈ d) => hl p (by simp [hp]))
    rw [starCols, hp]
    simp only [n1, if_true, ih, List.map_cons, pushRefs_cons hk, hk.bref]
    simp [dotted, readState]

theorem pushRefs_append (db : Db) : ∀ (l m : List Ref) (s : Sel), pushRefs db s (l ++ m) = pushRefs db (pushRefs db s l) m
  | [], _, _ => rfl
  | a :: l, m, s => by
    rw [List.cons_append, pushRefs, pushRefs]
    split <;> exact pushRefs_append db l m _

theorem starOf_map {db : Db} {t : String} {tm : TableMeta ColMeta} (ht : Dict.get? db t = some tm) : starOf db t = tm.columns.map fun p => (t, p.1) := by
  simp [starOf, ht, Dict.keys]

theorem star_tables {db : Db} (hn : Names db) : ∀ {l : List (Json × String)},
    (∀ p ∈ l, p.1 = .str p.2 ∨ ∃ k : Kind, ∃ o, p.1 = .dict [(k.key, .str p.2), ("on", o)] ∧ descend joinList (.dict [(k.key, .str p.2), ("on", o)]) = .ok (.str p.2)) →
    (∀ p ∈ l, ∃ tm, Dict.get? db p.2 = some tm) → (∀ p ∈ l, ∀ a ∈ starOf db p.2, ∃ tm cm b, Known db a tm cm b) → ∀ s,
    starTables db true "symmetric" (l.map Prod.fst) s =
      .ok ((l.flatMap fun p => starOf db p.2).map fun a => .str (bref db a), pushRefs db s (l.flatMap fun p => starOf db p.2))
  | [], _, _, _, s => by simp [starTables, pushRefs]
  | (j, t) :: l, hj, ht, hk, s => by
    obtain ⟨tm, ht'⟩ := ht (j, t) (by simp)
    have ht' : Dict.get? db t = some tm := ht'
    have t1 : tableOf db t = .ok tm := getItem_ok.2 ht'
    have hp := star_prefix ht' (hn.anon t tm ht').2 (hj (j, t) (by simp))
    have hc := star_cols hp ht' (d := tm.columns) (by
      intro p hp
      obtain ⟨tm', cm, b, h⟩ := hk (j, t) (by simp) (t, p.1) (by rw [starOf_map ht']; exact List.mem_map_of_mem hp)
      have h1 := h.table
      rw [ht'] at h1
      injection h1 with h1
      subst h1
      have h2 := Dict.get?_of_mem_nodup (hn.keys t tm ht') hp
      have h3 := h.col
      rw [h2] at h3
      injection h3 with h3
      subst h3
      exact ⟨b, h⟩) s
    have ih := star_tables hn (l := l) (fun p hp => hj p (by simp [hp])) (fun p hp => ht p (by simp [hp])) (fun p hp => hk p (by simp [hp]))
    rcases hj (j, t) (by simp) with h | ⟨k, o, h, _⟩
    · have h : j = .str t := h
      subst h
      simp only [List.map_cons, starTables, t1, hc, ih, List.flatMap_cons, starOf_map ht', pushRefs_append, List.map_append, List.map_map, Function.comp_def]
    · have h : j = .dict [(k.key, .str t), ("on", o)] := h
      subst h
      have hs : getNest [(k.key, .str t), ("on", o)] = .str t := by cases k <;> simp (decide := true) [getNest, getTableDict, getTable]
      simp only [List.map_cons, starTables, hs, t1, hc, ih, List.flatMap_cons, starOf_map ht', pushRefs_append, List.map_append, List.map_map, Function.comp_def]

theorem star_rewritten {db : Db} (hn : Names db) {q : Query} (h : Fine db q) (hi : q.items = none) :
    selRw db q.from "symmetric" {} (.str "*") = .ok (.list ((q.refs db).map fun a => .str (bref db a)), pushRefs db {} (q.refs db)) := by
  have hr : q.refs db = q.tables.flatMap (starOf db) := by simp [Query.refs, hi]
  have hm : ∀ s ∈ q.steps, s.table ∈ q.tables := fun s hs => by simp only [Query.tables, List.mem_cons]; exact Or.inr (List.mem_map_of_mem hs)
  have := star_tables hn (l := (.str q.first, q.first) :: q.steps.map fun s => (s.json, s.table)) (by
    intro p hp
    rcases List.mem_cons.1 hp with rfl | hp
    · exact .inl rfl
    · obtain ⟨s, hs, rfl⟩ := List.mem_map.1 hp
      cases hh : s.how with
      | none => exact .inl (by simp [Step.json, hh])
      | some x => exact .inr ⟨x.1, x.2.json, by simp [Step.json, hh], descend_star (h.odd _ (hm s hs)) fun e => h.star hi s hs (by simp [Step.kind, hh, e])⟩) (by
    intro p hp
    rcases List.mem_cons.1 hp with rfl | hp
    · exact h.known _ (by simp [Query.tables])
    · obtain ⟨s, hs, rfl⟩ := List.mem_map.1 hp
      exact h.known _ (hm s hs)) (by
    intro p hp a ha
    refine (h.refs a ?_).2
    rw [hr]
    rcases List.mem_cons.1 hp with rfl | hp
    · exact List.mem_flatMap.2 ⟨_, by simp [Query.tables], ha⟩
    · obtain ⟨s, hs, rfl⟩ := List.mem_map.1 hp
      exact List.mem_flatMap.2 ⟨_, hm s hs, ha⟩) {}
  have hl : (Json.str q.first :: q.steps.map Step.json).length > 1 := by
    have := h.more
    cases hq : q.steps with
    | nil => exact absurd hq this
    | cons _ _ => simp
  have e1 : ((Json.str q.first, q.first) :: q.steps.map fun s => (s.json, s.table)).map Prod.fst = .str q.first :: q.steps.map Step.json := by
    simp [List.map_map, Function.comp_def]
  have e2 : (((Json.str q.first, q.first) :: q.steps.map fun s => (s.json, s.table)).flatMap fun p => starOf db p.2) = q.tables.flatMap (starOf db) := by
    simp [Query.tables, List.flatMap_map]
  rw [e1, e2, ← hr] at this
  rw [selRw, if_pos rfl]
  rw [Query.from]
  generalize Json.str q.first :: q.steps.map Step.json = L at hl this
  unfold selStar
  dsimp only
  rw [decide_eq_true hl, this]

theorem items_rewritten {db : Db} {q : Query} (h : Fine db q) {l : List Ref} (hi : q.items = some l) :
    selRw db q.from "symmetric" {} (colsIn (l.map dotted)) = .ok (colsOut (l.map (bref db)), pushRefs db {} (q.refs db)) := by
  have hr : q.refs db = l := by simp [Query.refs, hi]
  have hl := h.refs
  rw [hr] at hl ⊢
  match l, hl with
  | [], _ => simp [colsIn, colsOut, selRw, selList, pushRefs]
  | [a], hl =>
    obtain ⟨ha, tm, cm, b, hk⟩ := hl a (by simp)
    simp (decide := true) only [List.map_cons, List.map_nil, colsIn, colsOut, selRw, isCountStar, selDict, if_false, funcCipher, Option.getD_none]
    have e := col_rewritten h ha hk {}
    rw [selRw] at e
    rw [e]
    simp [Dict.set, pushRefs, hk.table, hk.col]
  | a :: a' :: r, hl =>
    have e := list_rewritten h hl {}
    have e1 : colsIn ((a :: a' :: r).map dotted) = .list ((a :: a' :: r).map fun a => .dict [("value", .str (dotted a))]) := by
      simp [colsIn, List.map_map, Function.comp_def]
    have e2 : colsOut ((a :: a' :: r).map (bref db)) = .list ((a :: a' :: r).map fun a => .str (bref db a)) := by
      simp [colsOut, List.map_map, Function.comp_def]
    rw [e1, e2, selRw, e]

/-- **The rewriting.** -/
theorem join_rewritten {c : Crypto} {db : Db} (hn : Names db) {q : Query} (h : Fine db q) (fuel : Nat) :
    rewriteQuery c db fuel q.json = .ok (q.sent db, q.from, pushRefs db {} (q.refs db)) := by
  have hf := fun s => from_rewritten (c := c) h (rewriteClause c db fuel) s
  obtain ⟨sel, hsel⟩ : ∃ sel, sel = q.cols db := ⟨_, rfl⟩
  have hc : selRw db q.from "symmetric" {} q.select = .ok (sel, pushRefs db {} (q.refs db)) := by
    cases hi : q.items with
    | none =>
      have := star_rewritten hn h hi
      simp only [Query.select, Query.cols, hi] at hsel ⊢
      rw [this, hsel]
    | some l =>
      have := items_rewritten h hi
      simp only [Query.select, Query.cols, hi] at hsel ⊢
      rw [this, hsel]
  obtain ⟨fr, hfr⟩ : ∃ fr, fr = q.from := ⟨_, rfl⟩
  cases hw : q.cond with
  | none =>
    rw [Query.sent, Query.json, ← hsel, hw]
    rw [← hfr] at hc hf ⊢
    simp (decide := true) [rewriteQuery, findTable, tableKeys, Dict.get?_cons, clauseKeys, clauseLoop, stepKey, Dict.set, Dict.get?, hc, hf]
  | some o =>
    have ho : ∀ key, whereRw c db q.from "symmetric" key o.json = .ok (o.sent db) := fun key => on_rewritten (h.cond o hw)
    rw [Query.sent, Query.json, ← hsel, hw]
    rw [← hfr] at hc hf ho ⊢
    simp (decide := true) [rewriteQuery, findTable, tableKeys, Dict.get?_cons, clauseKeys, clauseLoop, stepKey, Dict.set, Dict.get?, hc, hf, ho]

end EulerDB.Join
