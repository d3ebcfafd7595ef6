import Verif.Clause.WhereProps

/-!
# The record of the select list (C30)

`decrypt` zips the recorded columns and states with the values of a row.  An item of the rewritten select list is aligned with its record if the column that
`decrypt` looks up under the recorded name is the one the item reads, with the recorded cipher.
-/

namespace EulerDB.Clause

open EulerDB EulerDB.Delta EulerDB.Table

/-- The recorded name, type and state of one result column. -/
abbrev Rec := String × String × String

/-- A string of the rewritten list reads the column recorded for it: a plaintext column under its own name, an encrypted one in the column of the recorded cipher. -/
def ReadsCol (db : Db) (table : Json) (s : String) (r : Rec) : Prop :=
  ∃ cm q n, decCol db table r.1 = .ok cm ∧ r.2.1 = cm.type ∧ s = q ++ n ∧
    ((cm.plaintext = true ∧ r.2.2 = "plaintext" ∧ (splitDot r.1).getLast? = some n) ∨ (cm.plaintext = false ∧ Dict.get? cm.encCols r.2.2 = some n))

/-- An item reads its recorded column, bare or under one function. -/
inductive Reads (db : Db) (table : Json) : Json → Rec → Prop
  | col (s : String) (r : Rec) : ReadsCol db table s r → Reads db table (.str s) r
  | fn (f s : String) (r : Rec) : ReadsCol db table s r → Reads db table (.dict [(f, .str s)]) r
  | count : Reads db table (.dict [("count", .str "*")]) ("count", "int", "plaintext")

/-- An item of a select list: a column, a function of a column, `COUNT(*)`. -/
inductive Item where
  | col (n : String)
  | fn (f n : String)
  | countStar

def Item.value : Item → Json
  | .col n => .str n
  | .fn f n => .dict [(f, .str n)]
  | .countStar => .dict [("count", .str "*")]

def Item.json (i : Item) : Json := .dict [("value", i.value)]

/-- Bare names for a single table, names qualified by a table for several. -/
def GoodName (table : Json) (v : String) : Prop :=
  v ≠ "*" ∧ match table with | .list _ => ∃ t n, splitDot v = [t, n] | _ => splitDot v = [v]

def Item.Good (table : Json) : Item → Prop
  | .col n => GoodName table n
  | .fn f n => GoodName table n ∧ f ≠ "add"
  | .countStar => True

/-- The part of the work that concerns one column. -/
theorem selStr_reads {db : Db} {table : Json} {cipher v : String} {s s' : Sel} {j : Json} (hg : GoodName table v)
    (h : selStr db table cipher s v = .ok (j, s')) :
    ∃ x r, j = .str x ∧ ReadsCol db table x r ∧ r.1 = v ∧ s' = s.push r.1 r.2.1 r.2.2 := by
  have one : ∀ t : Json, selCol db t cipher s v = .ok (j, s') → splitDot v = [v] → (∀ d, t ≠ .dict d) → (∀ cm, (match tableOfJson db t with
      | .error e => .error e
      | .ok tm => Dict.getItem tm.columns v : Except PyErr ColMeta) = .ok cm → decCol db table v = .ok cm) →
      ∃ x r, j = .str x ∧ ReadsCol db table x r ∧ r.1 = v ∧ s' = s.push r.1 r.2.1 r.2.2 := by
    intro t h hv _ hdec
    have hsq : splitQual v = .ok ("", v) := by unfold splitQual; rw [hv]
    unfold selCol at h
    rw [hsq] at h
    simp only at h
    cases htm : tableOfJson db t with
    | error e => simp [htm] at h
    | ok tm =>
      simp only [htm] at h hdec
      cases hcm : Dict.getItem tm.columns v with
      | error e => simp [hcm] at h
      | ok cm =>
        simp only [hcm] at h
        have hd := hdec cm hcm
        by_cases hp : cm.plaintext = true
        · simp only [hp, if_true] at h
          injection h with h
          injection h with h1 h2
          subst h1; subst h2
          exact ⟨_, (v, cm.type, "plaintext"), rfl, ⟨cm, _, v, hd, rfl, rfl, Or.inl ⟨hp, rfl, by simp [hv]⟩⟩, rfl, rfl⟩
        · simp only [hp, if_false, Bool.false_eq_true] at h
          cases hb : Dict.getItem cm.encCols cipher with
          | error e => simp [hb] at h
          | ok b =>
            simp only [hb] at h
            injection h with h
            injection h with h1 h2
            subst h1; subst h2
            exact ⟨_, (v, cm.type, cipher), rfl, ⟨cm, _, b, hd, rfl, rfl, Or.inr ⟨by simpa using hp, getItem_ok.1 hb⟩⟩, rfl, rfl⟩
  cases table with
  | list l =>
    obtain ⟨_, t, n, hv⟩ := hg
    simp only [selStr, selJoinCol, splitTableCol, hv] at h
    cases ho : origin t (.list l) with
    | error e => simp [ho] at h
    | ok o =>
      simp only [ho] at h
      cases htm : tableOfJson db o with
      | error e => simp [htm] at h
      | ok tm =>
        have hos : ∃ os, o = .str os := by
          cases o with
          | str os => exact ⟨os, rfl⟩
          | _ => simp [tableOfJson] at htm
        obtain ⟨os, rfl⟩ := hos
        simp only [htm] at h
        cases hcm : Dict.getItem tm.columns n with
        | error e => simp [hcm] at h
        | ok cm =>
          have hd : decCol db (.list l) v = .ok cm := by
            unfold decCol
            simp only [hv, ho, Except.map, htm, hcm]
          simp only [hcm] at h
          by_cases hp : cm.plaintext = true
          · simp only [hp, if_true] at h
            injection h with h
            injection h with h1 h2
            subst h1; subst h2
            exact ⟨_, (v, cm.type, "plaintext"), rfl, ⟨cm, _, n, hd, rfl, rfl, Or.inl ⟨hp, rfl, by simp [hv]⟩⟩, rfl, rfl⟩
          · simp only [hp, if_false, Bool.false_eq_true] at h
            cases hb : Dict.getItem cm.encCols cipher with
            | error e => simp [hb] at h
            | ok b =>
              simp only [hb] at h
              injection h with h
              injection h with h1 h2
              subst h1; subst h2
              exact ⟨_, (v, cm.type, cipher), rfl, ⟨cm, _, b, hd, rfl, rfl, Or.inr ⟨by simpa using hp, getItem_ok.1 hb⟩⟩, rfl, rfl⟩
  | dict d =>
    have hv : splitDot v = [v] := hg.2
    rw [selStr] at h
    apply one (getNest d) h hv
    · intro d' hd
      rw [hd] at h
      unfold selCol at h
      have hsq : splitQual v = .ok ("", v) := by unfold splitQual; rw [hv]
      simp [hsq, tableOfJson] at h
    · intro cm hcm
      unfold decCol
      simp only [hv]
      exact hcm
  | str t => exact one (.str t) (by simpa [selStr] using h) hg.2 (by simp) (by intro cm hcm; unfold decCol; simp only [hg.2]; exact hcm)
  | int z => simp [selStr, selCol, splitQual, hg.2, tableOfJson] at h
  | float q => simp [selStr, selCol, splitQual, hg.2, tableOfJson] at h
  | null => simp [selStr, selCol, splitQual, hg.2, tableOfJson] at h

/-- One item. -/
theorem selRw_reads {db : Db} {table : Json} {cipher : String} {s s' : Sel} {i : Item} {j : Json} (hg : i.Good table)
    (h : selRw db table cipher s i.value = .ok (j, s')) :
    ∃ r, Reads db table j r ∧ s' = s.push r.1 r.2.1 r.2.2 := by
  cases i with
  | col n =>
    simp only [Item.value, selRw, if_neg hg.1] at h
    obtain ⟨x, r, rfl, hr, _, hs⟩ := selStr_reads hg h
    exact ⟨r, .col x r hr, hs⟩
  | fn f n =>
    obtain ⟨hn, hf⟩ := hg
    have hc : isCountStar [(f, .str n)] = false := by simp [isCountStar, hn.1]
    simp only [Item.value, selRw, hc, selDict, if_neg hf, if_neg hn.1, Bool.false_eq_true, if_false] at h
    cases hs : selStr db table ((funcCipher f).getD "symmetric") s n with
    | error e => simp [hs] at h
    | ok p =>
      obtain ⟨j1, s1⟩ := p
      obtain ⟨x, r, rfl, hr, _, hs1⟩ := selStr_reads hn hs
      simp only [hs, Dict.set] at h
      injection h with h
      injection h with h1 h2
      subst h1; subst h2
      exact ⟨r, .fn f x r hr, hs1⟩
  | countStar =>
    have hc : isCountStar [("count", .str "*")] = true := by decide
    simp only [Item.value, selRw, hc, if_true] at h
    injection h with h
    injection h with h1 h2
    subst h1; subst h2
    exact ⟨_, .count, rfl⟩

/-- Adding records to the three lists. -/
def Sel.pushes (s : Sel) (rs : List Rec) : Sel := ⟨s.columns ++ rs.map (·.1), s.types ++ rs.map (·.2.1), s.state ++ rs.map (·.2.2)⟩

theorem selList_reads {db : Db} {table : Json} : ∀ (items : List Item) (s s' : Sel) (js : List Json), (∀ i ∈ items, i.Good table) →
    selList db table s (items.map Item.json) = .ok (js, s') → ∃ rs, List.Forall₂ (Reads db table) js rs ∧ js.length = items.length ∧ s' = s.pushes rs
  | [], s, s', js, _, h => by
    simp only [List.map_nil, selList] at h
    injection h with h
    injection h with h1 h2
    subst h1; subst h2
    exact ⟨[], .nil, rfl, by simp [Sel.pushes]⟩
  | i :: r, s, s', js, hg, h => by
    rw [List.map_cons, selList] at h
    have e : selItem db table s i.json = selRw db table "symmetric" s i.value := by simp [Item.json, selItem, selValueOf]
    rw [e] at h
    cases h1 : selRw db table "symmetric" s i.value with
    | error e => simp [h1] at h
    | ok p =>
      obtain ⟨j, s1⟩ := p
      simp only [h1] at h
      cases h2 : selList db table s1 (r.map Item.json) with
      | error e => simp [h2] at h
      | ok p =>
        obtain ⟨js', s2⟩ := p
        simp only [h2] at h
        injection h with h
        injection h with e1 e2
        subst e1; subst e2
        obtain ⟨rc, hr, hs⟩ := selRw_reads (hg i (by simp)) h1
        obtain ⟨rs, hrs, hl, hs'⟩ := selList_reads r s1 s2 js' (fun i hi => hg i (by simp [hi])) h2
        refine ⟨rc :: rs, .cons hr hrs, by simp [hl], ?_⟩
        rw [hs', hs]
        simp [Sel.pushes, Sel.push]

/-- **C30, partial.** For every accepted select list of columns, functions of columns and COUNT(*), over one table, several joined tables or a nested query, the
three records have one entry for each result column, in order, and the entry names the column that is read, its type and the cipher of the backend column that is
read. Missing: additions, literals and COUNT of a column (below), names qualified by a single table. -/
theorem C30_select_list_aligned_partial (db : Db) (table : Json) (items : List Item) (js : Json) (s' : Sel) (hg : ∀ i ∈ items, i.Good table)
    (h : selRw db table "symmetric" {} (.list (items.map Item.json)) = .ok (js, s')) :
    ∃ l rs, js = .list l ∧ l.length = items.length ∧ List.Forall₂ (Reads db table) l rs ∧
      s'.columns = rs.map (·.1) ∧ s'.types = rs.map (·.2.1) ∧ s'.state = rs.map (·.2.2) := by
  rw [selRw] at h
  cases h1 : selList db table {} (items.map Item.json) with
  | error e => simp [h1] at h
  | ok p =>
    obtain ⟨l, s1⟩ := p
    simp only [h1] at h
    injection h with h
    injection h with e1 e2
    subst e1; subst e2
    obtain ⟨rs, hr, hl, hs⟩ := selList_reads items _ _ _ hg h1
    refine ⟨l, rs, rfl, hl, hr, ?_⟩
    rw [hs]
    simp [Sel.pushes]

/-- **C30, partial: one item.** A select list of one item is a dict for the parser. -/
theorem C30_select_one_aligned_partial (db : Db) (table : Json) (i : Item) (j : Json) (s' : Sel) (hg : i.Good table)
    (h : selRw db table "symmetric" {} i.json = .ok (j, s')) :
    ∃ x r, j = .dict [("value", x)] ∧ Reads db table x r ∧ s' = ⟨[r.1], [r.2.1], [r.2.2]⟩ := by
  have hc : isCountStar [("value", i.value)] = false := by
    cases i <;> simp (decide := true) [Item.value, isCountStar]
  have hf : funcCipher "value" = none := by decide
  have ha : ¬ ("value" = "add") := by decide
  rw [Item.json, selRw, hc] at h
  simp only [Bool.false_eq_true, if_false] at h
  rw [selDict.eq_def] at h
  simp only [if_neg ha, hf, Option.getD_none] at h
  cases h1 : selRw db table "symmetric" {} i.value with
  | error e => simp [h1] at h
  | ok p =>
    obtain ⟨x, s1⟩ := p
    simp only [h1, selDict, Dict.set] at h
    injection h with h
    injection h with e1 e2
    subst e1; subst e2
    obtain ⟨r, hr, hs⟩ := selRw_reads hg h1
    exact ⟨x, r, rfl, hr, by rw [hs]; rfl⟩

/-! ## Failures -/

/-- **C30 fails** for COUNT (and any function without a cipher of its own) of an encrypted column: the state recorded is "symmetric", and the number the
backend returns cannot be decrypted. -/
theorem C30_fails_count_column (c : Crypto) (homDec ev) (db : Db) (t n f b : String) (tm : TableMeta ColMeta) (cm : ColMeta) (s : Sel) (z : Int)
    (ht : Dict.get? db t = some tm) (hc : Dict.get? tm.columns n = some cm) (hp : cm.plaintext = false) (hb : Dict.get? cm.encCols "symmetric" = some b)
    (hn : '.' ∉ n.toList) (hs : n ≠ "*") (hf : funcCipher f = none) (ha : f ≠ "add") :
    selRw db (.str t) "symmetric" s (.dict [(f, .str n)]) = .ok (.dict [(f, .str b)], s.push n cm.type "symmetric") ∧
      decryptVal c homDec ev db (.str t) (.int z) n "symmetric" = .error .typeError := by
  have hsel := selCol_plain (b := b) s ht hc hn (by simp [readName, hp, hb])
  constructor
  · have hcs : isCountStar [(f, .str n)] = false := by simp [isCountStar, hs]
    simp only [selRw, hcs, selDict, if_neg ha, if_neg hs, hf, selStr, Bool.false_eq_true, if_false, Option.getD_none, hsel, Dict.set, readState, hp]
  · have hd : splitDot n = [n] := by
      unfold splitDot
      rw [Text.split_word _ hn]
      simp
    have h1 : tableOf db t = .ok tm := getItem_ok.2 ht
    have h2 : Dict.getItem tm.columns n = .ok cm := getItem_ok.2 hc
    have hdc : decCol db (.str t) n = .ok cm := by
      unfold decCol
      simp only [hd, tableOfJson, h1, h2]
    unfold decryptVal
    rw [if_neg (by simp), hdc]
    simp

/-- **C30 fails** for literals in a select list: a number is replaced by NULL and no entry is recorded for it, so every later column is decrypted with the record of its
right-hand neighbour. -/
theorem C30_fails_literal (db : Db) (table : Json) (z : Int) (items : List Item) (l : List Json) (s' : Sel) (hg : ∀ i ∈ items, i.Good table)
    (h : selList db table {} (.dict [("value", .int z)] :: items.map Item.json) = .ok (l, s')) :
    l.length = items.length + 1 ∧ s'.columns.length = items.length ∧ s'.state.length = items.length := by
  rw [selList] at h
  simp only [selItem, selValueOf, if_true, selRw] at h
  cases h1 : selList db table {} (items.map Item.json) with
  | error e => simp [h1] at h
  | ok p =>
    obtain ⟨l', s1⟩ := p
    simp only [h1] at h
    injection h with h
    injection h with e1 e2
    subst e1; subst e2
    obtain ⟨rs, hr, hl, hs⟩ := selList_reads items _ _ _ hg h1
    have := hr.length_eq
    rw [hs]
    simp [Sel.pushes, hl, ← this]

/-- **C30 fails** for an addition: as the only item it raises IndexError, whatever the columns. -/
theorem C30_fails_add_alone (db : Db) (t a b : String) (tm : TableMeta ColMeta) (s : Sel)
    (ht : Dict.get? db t = some tm) (ha : Readable tm.columns a) (hb : Readable tm.columns b) (hs : s.state = []) (hs' : s.types = []) :
    selRw db (.str t) "symmetric" s (.dict [("add", .list [.str a, .str b])]) = .error .indexError := by
  obtain ⟨cma, xa, hca, hxa⟩ := ha.col
  obtain ⟨cmb, xb, hcb, hxb⟩ := hb.col
  have h1 := selCol_plain s ht hca ha.dot hxa
  have h2 := selCol_plain (s.push a cma.type (readState cma)) ht hcb hb.dot hxb
  have hcs : isCountStar [("add", .list [.str a, .str b])] = false := rfl
  simp only [selRw, hcs, Bool.false_eq_true, if_false]
  rw [selDict.eq_def]
  simp only [if_true, selRw, if_neg ha.star, if_neg hb.star, selStr, h1, h2]
  simp [addEnd, Sel.push, hs, hs']

/-- ... and after another item it leaves one name more than there are result columns. -/
theorem C30_fails_add_names (db : Db) (t x a b : String) (tm : TableMeta ColMeta) (cx ca cb : ColMeta)
    (ht : Dict.get? db t = some tm) (hx : Readable tm.columns x) (ha : Readable tm.columns a) (hb : Readable tm.columns b)
    (hcx : Dict.get? tm.columns x = some cx) (hca : Dict.get? tm.columns a = some ca) (hcb : Dict.get? tm.columns b = some cb)
    (hpx : cx.plaintext = true) (hpa : ca.plaintext = true) (hpb : cb.plaintext = true) :
    ∃ js, selRw db (.str t) "symmetric" {} (.list [.dict [("value", .str x)], .dict [("value", .dict [("add", .list [.str a, .str b])])]]) =
      .ok (.list js, ⟨[x, a, b], [cx.type, ca.type], ["plaintext", "plaintext"]⟩) ∧ js.length = 2 := by
  have h0 := selCol_plain (b := x) {} ht hcx hx.dot (by simp [readName, hpx])
  have h1 := selCol_plain (b := a) ((({} : Sel)).push x cx.type (readState cx)) ht hca ha.dot (by simp [readName, hpa])
  have h2 := selCol_plain (b := b) (((({} : Sel)).push x cx.type (readState cx)).push a ca.type (readState ca)) ht hcb hb.dot (by simp [readName, hpb])
  have hcs : isCountStar [("add", .list [.str a, .str b])] = false := rfl
  refine ⟨[.str x, .dict [("add", .list [.str a, .str b])]], ?_, rfl⟩
  simp only [selRw, selList, selItem, selValueOf, if_true, if_neg hx.star, selStr, h0, hcs, Bool.false_eq_true, if_false]
  rw [selDict.eq_def]
  simp only [if_true, selRw, if_neg ha.star, if_neg hb.star, selStr, h1, h2]
  simp [addEnd, Sel.push, readState, hpx, hpa, hpb, Dict.set, selDict]

/-- **C30 fails** for sums of two encrypted columns: they are refused, so the modulus computed for them (from the first prime only) is never used. -/
theorem C30_fails_add_encrypted (db : Db) (t a b : String) (tm : TableMeta ColMeta) (cb : ColMeta) (s : Sel)
    (ht : Dict.get? db t = some tm) (ha : Readable tm.columns a) (hb : Readable tm.columns b)
    (hcb : Dict.get? tm.columns b = some cb) (hpb : cb.plaintext = false) :
    ∃ e, selRw db (.str t) "symmetric" s (.dict [("add", .list [.str a, .str b])]) = .error e := by
  obtain ⟨cma, xa, hca', hxa⟩ := ha.col
  obtain ⟨cmb, xb, hcb', hxb⟩ := hb.col
  have h1 := selCol_plain s ht hca' ha.dot hxa
  have h2 := selCol_plain (s.push a cma.type (readState cma)) ht hcb' hb.dot hxb
  rw [hcb] at hcb'
  injection hcb' with hcb'
  subst hcb'
  have hcs : isCountStar [("add", .list [.str a, .str b])] = false := rfl
  simp only [selRw, hcs, Bool.false_eq_true, if_false]
  rw [selDict.eq_def]
  simp only [if_true, selRw, if_neg ha.star, if_neg hb.star, selStr, h1, h2]
  have : ∃ e, addEnd db (.str t) (.str xa) (.str xb) ((s.push a cma.type (readState cma)).push b cb.type (readState cb)) [] = .error e := by
    unfold addEnd
    simp only [Sel.push, List.reverse_append, List.reverse_cons, List.reverse_nil, List.nil_append, List.singleton_append, readState, hpb]
    split
    · simp (decide := true)
    · exact ⟨_, rfl⟩
  obtain ⟨e, he⟩ := this
  exact ⟨e, by rw [he]⟩

end EulerDB.Clause
