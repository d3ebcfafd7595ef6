/-
The statements of a client, as the proxy writes them.
-/
import Verif.Whole.Read

namespace EulerDB.Whole

open EulerDB EulerDB.Clause EulerDB.Delta

/-- WHERE as parsed. -/
def whereIn : Option Cond → Dict String Json
  | none => []
  | some x => [("where", x.json)]

/-- WHERE as rewritten. -/
def whereOut : Option W → Dict String Json
  | none => []
  | some x => [("where", x.json)]

/-- The condition sent. -/
def sentW (c : Crypto) (cols : Dict String ColMeta) (w : Option Cond) : Option W := w.map (sent c cols)

/-- WHERE is missing or fits. -/
def TypedW (cols : Dict String ColMeta) (w : Option Cond) : Prop := ∀ x ∈ w, Typed cols x

theorem sentW_ok {P : Writer} {res : List Char → Bool} {c : Crypto} {tm : TableMeta ColMeta} (hn : Named P res tm) {w : Option Cond} (h : TypedW tm.columns w) :
    ∀ x ∈ sentW c tm.columns w, x.Ok P res := by
  intro x hx
  cases w with
  | none => simp [sentW] at hx
  | some y =>
    simp only [sentW, Option.map_some, Option.mem_some_iff] at hx
    subst hx
    exact sent_ok hn y (h y rfl)

/-- The text of WHERE. -/
theorem clauses_where {P : Proxy} {res : List Char → Bool} {c : Crypto} {tm : TableMeta ColMeta} (hn : Named P.w res tm) {w : Option Cond} (h : TypedW tm.columns w)
    (n : Nat) (d : Dict String Json) (hd : Dict.get? d "where" = Dict.get? (whereOut (sentW c tm.columns w)) "where")
    (h1 : Dict.get? d "groupby" = none) (h2 : Dict.get? d "having" = none) :
    Statement.clauses P.leaves (Statement.dispatch P.leaves (n + 1)) d ["where", "groupby", "having"] = .ok (whereToks (sentW c tm.columns w)) := by
  cases w with
  | none =>
    simp [sentW, whereOut] at hd
    simp [Statement.clauses, hd, h1, h2, sentW, whereToks]
  | some x =>
    simp only [sentW, Option.map_some, whereOut, Dict.get?_cons, if_true] at hd
    simp (decide := true) only [Statement.clauses, hd, h1, h2, Statement.clauseToks, if_false, if_true, sent_good hn (h x rfl), Except.map, sentW, Option.map_some,
      whereToks, List.append_nil]

/-- The statement is written as its clauses. -/
theorem text_of_clauses {P : Proxy} {d : Dict String Json} {k : String} {n : Nat} {toks : List Statement.Tok} (hd : P.depth = n + 1)
    (hno : ∀ k ∈ ["alter", "drop", "value", "join", "insert", "orderby", "limit", "offset", "fetch"], Dict.get? d k = none)
    (hk : k ∈ Statement.unorderedClauses) (hs : (Dict.get? d k).isSome = true)
    (hcl : Statement.clauses P.leaves (Statement.dispatch P.leaves n) d Statement.unorderedClauses = .ok toks) :
    P.text d = .ok (Statement.spell toks).toList := by
  have hne : d.isEmpty = false := by
    cases d with
    | nil => simp [Dict.get?] at hs
    | cons _ _ => rfl
  have h1 : Statement.hasAny d Statement.orderedClauses = false := by
    simp [Statement.hasAny, Statement.orderedClauses, Statement.hasKey, hno "orderby" (by decide), hno "limit" (by decide), hno "offset" (by decide),
      hno "fetch" (by decide)]
  have h2 : Statement.hasAny d Statement.unorderedClauses = true := List.any_eq_true.2 ⟨k, hk, hs⟩
  rw [Proxy.text, hno "alter" (by decide)]
  simp only [Statement.format, hd]
  rw [Statement.dispatch]
  simp only [hne, Statement.hasKey, hno "drop" (by decide), hno "value" (by decide), hno "join" (by decide), hno "insert" (by decide), Option.isSome_none,
    Bool.false_eq_true, if_false]
  rw [if_neg (by simp [h1]), if_pos h2, Statement.unorderedQuery, hcl]
  simp [Except.map]

/-- The clauses before WHERE. -/
def before : List String := ["with", "distinct_on", "select_distinct", "select", "delete", "update", "set", "from"]

theorem clauses_append {L : Statement.Leaves} {f : Json → Nat → Except PyErr (List Statement.Tok)} {d : Dict String Json} {t : List Statement.Tok} {m : List String} :
    ∀ {l : List String} {b : List Statement.Tok}, Statement.clauses L f d l = .ok b → Statement.clauses L f d m = .ok t → Statement.clauses L f d (l ++ m) = .ok (b ++ t)
  | [], b, h, h' => by
    rw [Statement.clauses] at h
    injection h with h
    subst h
    exact h'
  | k :: l, b, h, h' => by
    rw [Statement.clauses] at h
    rw [List.cons_append, Statement.clauses]
    cases hg : Dict.get? d k with
    | none =>
      rw [hg] at h
      exact clauses_append h h'
    | some v =>
      rw [hg] at h
      simp only at h ⊢
      cases ht : Statement.clauseToks L f d k v with
      | error e => simp [ht] at h
      | ok u =>
        simp only [ht] at h ⊢
        cases hr : Statement.clauses L f d l with
        | error e => simp [hr] at h
        | ok r =>
          simp only [hr, Except.ok.injEq] at h
          rw [clauses_append hr h', ← h]
          simp

/-! ### DELETE -/

def deleteIn (t : String) (w : Option Cond) : Dict String Json := whereIn w ++ [("delete", .str t)]
def deleteOut (t : String) (w : Option W) : Dict String Json := whereOut w ++ [("delete", .str t)]

theorem delete_rewritten {c : Crypto} {db : Db} {t : String} {tm : TableMeta ColMeta} (ht : Dict.get? db t = some tm) {w : Option Cond} (h : TypedW tm.columns w)
    (fuel : Nat) : rewriteQuery c db fuel (deleteIn t w) = .ok (deleteOut tm.anonymous (sentW c tm.columns w), .str t, {}) := by
  have htab : tableOf db t = .ok tm := getItem_ok.2 ht
  cases w with
  | none =>
    simp (decide := true) [rewriteQuery, deleteIn, deleteOut, whereIn, whereOut, sentW, findTable, tableKeys, Dict.get?_cons, clauseKeys, clauseLoop, stepKey, anonRw,
      tableOfJson, htab, Except.map, Dict.set, Dict.get?]
  | some x =>
    have hw := where_sent (c := c) ht (h x rfl)
    simp (decide := true) [rewriteQuery, deleteIn, deleteOut, whereIn, whereOut, sentW, findTable, tableKeys, Dict.get?_cons, clauseKeys, clauseLoop, stepKey, anonRw,
      tableOfJson, htab, Except.map, Dict.set, Dict.get?, hw]

theorem delete_written {P : Proxy} {res : List Char → Bool} {c : Crypto} {tm : TableMeta ColMeta} (hn : Named P.w res tm) {w : Option Cond}
    (h : TypedW tm.columns w) {n : Nat} (hd : P.depth = n + 2) :
    P.text (deleteOut tm.anonymous (sentW c tm.columns w)) = .ok (Statement.spell (deleteText tm.anonymous (sentW c tm.columns w))).toList := by
  have hk : ∀ k, k ≠ "where" → k ≠ "delete" → Dict.get? (deleteOut tm.anonymous (sentW c tm.columns w)) k = none := by
    intro k h1 h2
    cases w <;> simp [deleteOut, whereOut, sentW, Dict.get?_cons, Dict.get?, Ne.symm h1, Ne.symm h2]
  have hdel : Dict.get? (deleteOut tm.anonymous (sentW c tm.columns w)) "delete" = some (.str tm.anonymous) := by
    cases w <;> simp (decide := true) [deleteOut, whereOut, sentW, Dict.get?_cons]
  have hw : Dict.get? (deleteOut tm.anonymous (sentW c tm.columns w)) "where" = Dict.get? (whereOut (sentW c tm.columns w)) "where" := by
    cases w <;> simp (decide := true) [deleteOut, whereOut, sentW, Dict.get?_cons, Dict.get?]
  have hc := clauses_where hn h n _ hw (hk "groupby" (by decide) (by decide)) (hk "having" (by decide) (by decide))
  refine text_of_clauses (k := "delete") hd (fun k hm => ?_) (by decide) (by simp [hdel]) ?_
  · have := (by decide : ∀ k ∈ ["alter", "drop", "value", "join", "insert", "orderby", "limit", "offset", "fetch"], k ≠ "where" ∧ k ≠ "delete") k hm
    exact hk k this.1 this.2
  · refine clauses_append (l := before) (b := [.kw "DELETE", .kw "FROM", .leaf tm.anonymous]) ?_ hc
    simp (decide := true) [before, Statement.clauses, hk, hdel, Statement.clauseToks, Statement.rawName, Except.map]

/-! ### SELECT -/

/-- The columns as parsed. -/
def colsIn : List String → Json
  | [n] => .dict [("value", .str n)]
  | ns => .list (ns.map fun n => .dict [("value", .str n)])

/-- The columns as rewritten. -/
def colsOut : List String → Json
  | [b] => .dict [("value", .str b)]
  | bs => .list (bs.map .str)

def selectIn (ns : List String) (t : String) (w : Option Cond) : Dict String Json := ("select", colsIn ns) :: ("from", .str t) :: whereIn w
def selectOut (bs : List String) (t : String) (w : Option W) : Dict String Json := ("select", colsOut bs) :: ("from", .str t) :: whereOut w

theorem cols_rewritten {db : Db} {t : String} {tm : TableMeta ColMeta} (ht : Dict.get? db t = some tm) : ∀ {ns : List String},
    (∀ n ∈ ns, Readable tm.columns n) → selRw db (.str t) "symmetric" {} (colsIn ns) = .ok (colsOut (readNames tm.columns ns), pushAll tm.columns {} ns)
  | [], _ => by simp [colsIn, colsOut, selRw, selList, readNames, pushAll]
  | [n], hr => by
    obtain ⟨cm, b, hc, hb⟩ := (hr n (by simp)).col
    have e : readNames tm.columns [n] = [b] := by simp [readNames, hc, hb]
    rw [e, colsIn, colsOut]
    simp (decide := true) only [selRw, isCountStar, selDict, if_false, if_neg (hr n (by simp)).star, selStr, funcCipher, Option.getD_none]
    rw [selCol_plain _ ht hc (hr n (by simp)).dot hb]
    simp [Dict.set, pushAll, hc]
  | n :: m :: ns, hr => by
    have e : colsOut (readNames tm.columns (n :: m :: ns)) = .list ((readNames tm.columns (n :: m :: ns)).map .str) := by simp [readNames, colsOut]
    rw [e, colsIn, selRw, selList_plain ht _ _ hr]
    simp

theorem select_rewritten {c : Crypto} {db : Db} {t : String} {tm : TableMeta ColMeta} (ht : Dict.get? db t = some tm) (hp : PlainTable t) {ns : List String}
    (hr : ∀ n ∈ ns, Readable tm.columns n) {w : Option Cond} (h : TypedW tm.columns w) (fuel : Nat) :
    rewriteQuery c db fuel (selectIn ns t w) =
      .ok (selectOut (readNames tm.columns ns) tm.anonymous (sentW c tm.columns w), .str t, pushAll tm.columns {} ns) := by
  have htab : tableOf db t = .ok tm := getItem_ok.2 ht
  have hc := cols_rewritten ht hr
  have hf : ∀ s, fromOuter c db (rewriteClause c db fuel) (.str t) (.str t) s = .ok (.str tm.anonymous, s) := by
    intro s
    unfold PlainTable at hp
    simp [fromOuter, fromInner, hp, fromRw, htab, Except.map]
  cases w with
  | none =>
    simp (decide := true) [rewriteQuery, selectIn, selectOut, whereIn, whereOut, sentW, findTable, tableKeys, Dict.get?_cons, clauseKeys, clauseLoop, stepKey,
      Dict.set, Dict.get?, hc, hf]
  | some x =>
    have hw := where_sent (c := c) ht (h x rfl)
    simp (decide := true) [rewriteQuery, selectIn, selectOut, whereIn, whereOut, sentW, findTable, tableKeys, Dict.get?_cons, clauseKeys, clauseLoop, stepKey,
      Dict.set, Dict.get?, hc, hf, hw]

theorem name_good {P : Proxy} {res : List Char → Bool} {b : String} (h : Bare P.w res b) (n p : Nat) :
    Statement.dispatch P.leaves (n + 1) (.str b) p = .ok [.leaf b] := by
  refine Statement.dispatch_good (e := .str b) (tx := fun _ => b) ⟨trivial, ?_⟩ n p
  simp [Proxy.leaves, exText, nameText_bare h, Except.map]

theorem cols_written {P : Proxy} {res : List Char → Bool} (n : Nat) : ∀ {bs : List String}, (∀ b ∈ bs, Bare P.w res b) →
    Statement.each (fun j => Statement.dispatch P.leaves (n + 2) j 100) (Statement.listwrap (colsOut bs)) = .ok (bs.map fun b => [.leaf b])
  | [], _ => rfl
  | [b], h => by
    have e : Statement.dispatch P.leaves (n + 2) (.dict [("value", .str b)]) 100 = .ok [.leaf b] := by
      rw [Statement.dispatch]
      simp (decide := true) [Statement.hasKey, Dict.get?, Statement.valueToks, name_good (h b (by simp)) n 100]
    simp only [colsOut, Statement.listwrap, Statement.each, e]
    rfl
  | a :: b :: bs, h => by
    have e := Statement.each_ok (f := fun j => Statement.dispatch P.leaves (n + 2) j 100)
      (g := fun j => match j with | .str s => [Statement.Tok.leaf s] | _ => []) ((a :: b :: bs).map Json.str) (by
        intro j hj
        obtain ⟨s, hs, rfl⟩ := List.mem_map.1 hj
        exact name_good (h s hs) (n + 1) 100)
    simpa [colsOut, Statement.listwrap, Function.comp_def] using e

theorem select_written {P : Proxy} {res : List Char → Bool} {c : Crypto} {tm : TableMeta ColMeta} (hn : Named P.w res tm) {bs : List String}
    (hb : ∀ b ∈ bs, Bare P.w res b) {w : Option Cond} (h : TypedW tm.columns w) {n : Nat} (hd : P.depth = n + 3) :
    P.text (selectOut bs tm.anonymous (sentW c tm.columns w)) = .ok (Statement.spell (selectText bs tm.anonymous (sentW c tm.columns w))).toList := by
  have hk : ∀ k, k ≠ "where" → k ≠ "select" → k ≠ "from" → Dict.get? (selectOut bs tm.anonymous (sentW c tm.columns w)) k = none := by
    intro k h1 h2 h3
    cases w <;> simp [selectOut, whereOut, sentW, Dict.get?_cons, Dict.get?, Ne.symm h1, Ne.symm h2, Ne.symm h3]
  have hsel : Dict.get? (selectOut bs tm.anonymous (sentW c tm.columns w)) "select" = some (colsOut bs) := by
    simp [selectOut, Dict.get?_cons]
  have hfr : Dict.get? (selectOut bs tm.anonymous (sentW c tm.columns w)) "from" = some (.str tm.anonymous) := by
    simp [selectOut, Dict.get?_cons]
  have hw : Dict.get? (selectOut bs tm.anonymous (sentW c tm.columns w)) "where" = Dict.get? (whereOut (sentW c tm.columns w)) "where" := by
    simp (decide := true) [selectOut, Dict.get?_cons]
  have hc := clauses_where hn h (n + 1) _ hw (hk "groupby" (by decide) (by decide) (by decide)) (hk "having" (by decide) (by decide) (by decide))
  have hcw := cols_written n hb
  have hfw : Statement.dispatch P.leaves (n + 2) (.str tm.anonymous) 29 = .ok [.leaf tm.anonymous] := name_good hn.table (n + 1) 29
  refine text_of_clauses (k := "select") hd (fun k hm => ?_) (by decide) (by simp [hsel]) ?_
  · have := (by decide : ∀ k ∈ ["alter", "drop", "value", "join", "insert", "orderby", "limit", "offset", "fetch"], k ≠ "where" ∧ k ≠ "select" ∧ k ≠ "from") k hm
    exact hk k this.1 this.2.1 this.2.2
  · have := clauses_append (l := before)
      (b := .kw "SELECT" :: (Statement.commaSep (bs.map fun s => [.leaf s]) ++ [.kw "FROM", .leaf tm.anonymous])) ?_ hc
    · refine this.trans ?_
      simp [selectText]
    · have hcw' : Statement.clauseToks P.leaves (Statement.dispatch P.leaves (n + 2)) (selectOut bs tm.anonymous (sentW c tm.columns w)) "select" (colsOut bs) =
          .ok (.kw "SELECT" :: Statement.commaSep (bs.map fun s => [.leaf s])) := by
        have h1 := hk "top" (by decide) (by decide) (by decide)
        have h2 := hk "distinct_on" (by decide) (by decide) (by decide)
        simp (decide := true) only [Statement.clauseToks, hcw, h1, h2, Statement.hasKey, ↓reduceIte, Option.isSome_none, Bool.false_eq_true]
      have hfw' : Statement.clauseToks P.leaves (Statement.dispatch P.leaves (n + 2)) (selectOut bs tm.anonymous (sentW c tm.columns w)) "from" (.str tm.anonymous) =
          .ok [.kw "FROM", .leaf tm.anonymous] := by
        simp (decide := true) [Statement.clauseToks, Statement.fromToks, Statement.listwrap, Statement.each, Statement.fromItem, hfw, Statement.commaSep,
          Except.map]
      simp (decide := true) [before, Statement.clauses, hk, hsel, hfr, hcw', hfw']

end EulerDB.Whole
