/-
C88: SELECT, UPDATE and DELETE with LIKE from the parsed statement to the one the backend reads.
-/
import Verif.Like.Send

namespace EulerDB.Like

open EulerDB EulerDB.Clause EulerDB.Delta EulerDB.Whole

theorem clauses_whereL {P : Proxy} {res : List Char → Bool} {b q : String} (hb : Bare P.w res b) (hq : Format.kept q.toList = true) (n : Nat) (d : Dict String Json)
    (hd : Dict.get? d "where" = some (likeJson b q)) (h1 : Dict.get? d "groupby" = none) (h2 : Dict.get? d "having" = none) :
    Statement.clauses P.leaves (Statement.dispatch P.leaves (n + 1)) d ["where", "groupby", "having"] = .ok (whereToksL b q) := by
  simp (decide := true) only [Statement.clauses, hd, h1, h2, Statement.clauseToks, if_false, if_true, like_good hb hq, Except.map, whereToksL, List.append_nil]

/-- A text that only the reader of LIKE understands. -/
theorem read_pieces {res : List Char → Bool} {l : List Statement.Tok} {ts : List MTok} (h : Pieces l ts) :
    readStmt res (Statement.spell l).toList = pStmt res ts ∧ readLike res (Statement.spell l).toList = pStmtL res ts := by
  refine ⟨readStmt_pieces h, ?_⟩
  rw [readLike, h.lx.full]; rfl

/-! ### DELETE -/

def deleteJ (t : String) (j : Json) : Dict String Json := [("where", j), ("delete", .str t)]

theorem delete_rewrittenL {c : Crypto} {db : Db} {t : String} {tm : TableMeta ColMeta} (ht : Dict.get? db t = some tm) {j j' : Json}
    (hw : whereRw c db (.str t) "symmetric" "" j = .ok j') (fuel : Nat) : rewriteQuery c db fuel (deleteJ t j) = .ok (deleteJ tm.anonymous j', .str t, {}) := by
  have htab : tableOf db t = .ok tm := getItem_ok.2 ht
  simp (decide := true) [rewriteQuery, deleteJ, findTable, tableKeys, Dict.get?_cons, clauseKeys, clauseLoop, stepKey, anonRw,
    tableOfJson, htab, Except.map, Dict.set, Dict.get?, hw]

def deleteTextL (t b q : String) : List Statement.Tok := .kw "DELETE" :: .kw "FROM" :: .leaf t :: whereToksL b q

theorem delete_writtenL {P : Proxy} {res : List Char → Bool} {b q t : String} (hb : Bare P.w res b) (hq : Format.kept q.toList = true) {n : Nat} (hd : P.depth = n + 2) :
    P.text (deleteJ t (likeJson b q)) = .ok (Statement.spell (deleteTextL t b q)).toList := by
  have hk : ∀ k, k ≠ "where" → k ≠ "delete" → Dict.get? (deleteJ t (likeJson b q)) k = none := by
    intro k h1 h2
    simp [deleteJ, Dict.get?, Ne.symm h1, Ne.symm h2]
  have hdel : Dict.get? (deleteJ t (likeJson b q)) "delete" = some (.str t) := by simp (decide := true) [deleteJ, Dict.get?_cons]
  have hw : Dict.get? (deleteJ t (likeJson b q)) "where" = some (likeJson b q) := by simp [deleteJ, Dict.get?_cons]
  have hc := clauses_whereL hb hq n _ hw (hk "groupby" (by decide) (by decide)) (hk "having" (by decide) (by decide))
  refine text_of_clauses (k := "delete") hd (fun k hm => ?_) (by decide) (by simp [hdel]) ?_
  · have := (by decide : ∀ k ∈ ["alter", "drop", "value", "join", "insert", "orderby", "limit", "offset", "fetch"], k ≠ "where" ∧ k ≠ "delete") k hm
    exact hk k this.1 this.2
  · refine clauses_append (l := before) (b := [.kw "DELETE", .kw "FROM", .leaf t]) ?_ hc
    simp (decide := true) [before, Statement.clauses, hk, hdel, Statement.clauseToks, Statement.rawName, Except.map]

theorem read_deleteL {P : Writer} {res : List Char → Bool} {t b q : String} (ht : Bare P res t) (hb : Bare P res b) (hq : Format.kept q.toList = true) :
    readStmt res (Statement.spell (deleteTextL t b q)).toList = none ∧ readLike res (Statement.spell (deleteTextL t b q)).toList = some (.delete t b q) := by
  have h := (Pieces.kw (k := "DELETE") (by decide)).append ((Pieces.kw (k := "FROM") (by decide)).append ((Pieces.name ht).append (piecesL hb hq)))
  have h1 := pName_bare ht (whereMToksL b q)
  rw [List.singleton_append] at h1
  rw [deleteTextL]
  refine ⟨(read_pieces h).1.trans ?_, (read_pieces h).2.trans ?_⟩
  · simp only [List.singleton_append]
    rw [pStmt, if_neg (by decide), if_neg (by decide), if_neg (by decide), if_pos (by decide), pDelete, pKw_self "FROM" (by decide)]
    simp only [Option.bind_eq_bind, Option.bind_some, h1, pWhere_none hb, Option.bind_none]
  · simp only [List.singleton_append]
    rw [pStmtL, if_neg (by decide), if_neg (by decide), if_pos (by decide), pDeleteL, pKw_self "FROM" (by decide)]
    simp only [Option.bind_eq_bind, Option.bind_some, h1, pWhereL_read hb]

/-! ### SELECT -/

def selectJ (cols : Json) (t : String) (j : Json) : Dict String Json := [("select", cols), ("from", .str t), ("where", j)]

theorem select_rewrittenL {c : Crypto} {db : Db} {t : String} {tm : TableMeta ColMeta} (ht : Dict.get? db t = some tm) (hp : PlainTable t) {ns : List String}
    (hr : ∀ n ∈ ns, Readable tm.columns n) {j j' : Json} (hw : whereRw c db (.str t) "symmetric" "" j = .ok j') (fuel : Nat) :
    rewriteQuery c db fuel (selectJ (colsIn ns) t j) =
      .ok (selectJ (colsOut (readNames tm.columns ns)) tm.anonymous j', .str t, pushAll tm.columns {} ns) := by
  have htab : tableOf db t = .ok tm := getItem_ok.2 ht
  have hc := cols_rewritten ht hr
  have hf : ∀ s, fromOuter c db (rewriteClause c db fuel) (.str t) (.str t) s = .ok (.str tm.anonymous, s) := by
    intro s
    unfold PlainTable at hp
    simp [fromOuter, fromInner, hp, fromRw, htab, Except.map]
  simp (decide := true) [rewriteQuery, selectJ, findTable, tableKeys, Dict.get?_cons, clauseKeys, clauseLoop, stepKey, Dict.set, Dict.get?, hc, hf, hw]

def selectTextL (ns : List String) (t b q : String) : List Statement.Tok :=
  .kw "SELECT" :: (Statement.commaSep (ns.map fun s => [.leaf s]) ++ .kw "FROM" :: .leaf t :: whereToksL b q)

theorem select_writtenL {P : Proxy} {res : List Char → Bool} {bs : List String} (hbs : ∀ b ∈ bs, Bare P.w res b) {t b q : String} (ht : Bare P.w res t)
    (hb : Bare P.w res b) (hq : Format.kept q.toList = true) {n : Nat} (hd : P.depth = n + 3) :
    P.text (selectJ (colsOut bs) t (likeJson b q)) = .ok (Statement.spell (selectTextL bs t b q)).toList := by
  have hk : ∀ k, k ≠ "where" → k ≠ "select" → k ≠ "from" → Dict.get? (selectJ (colsOut bs) t (likeJson b q)) k = none := by
    intro k h1 h2 h3
    simp [selectJ, Dict.get?, Ne.symm h1, Ne.symm h2, Ne.symm h3]
  have hsel : Dict.get? (selectJ (colsOut bs) t (likeJson b q)) "select" = some (colsOut bs) := by simp [selectJ, Dict.get?_cons]
  have hfr : Dict.get? (selectJ (colsOut bs) t (likeJson b q)) "from" = some (.str t) := by simp (decide := true) [selectJ, Dict.get?_cons]
  have hw : Dict.get? (selectJ (colsOut bs) t (likeJson b q)) "where" = some (likeJson b q) := by simp (decide := true) [selectJ, Dict.get?_cons]
  have hc := clauses_whereL hb hq (n + 1) _ hw (hk "groupby" (by decide) (by decide) (by decide)) (hk "having" (by decide) (by decide) (by decide))
  have hcw := cols_written n hbs
  have hfw : Statement.dispatch P.leaves (n + 2) (.str t) 29 = .ok [.leaf t] := name_good ht (n + 1) 29
  refine text_of_clauses (k := "select") hd (fun k hm => ?_) (by decide) (by simp [hsel]) ?_
  · have := (by decide : ∀ k ∈ ["alter", "drop", "value", "join", "insert", "orderby", "limit", "offset", "fetch"], k ≠ "where" ∧ k ≠ "select" ∧ k ≠ "from") k hm
    exact hk k this.1 this.2.1 this.2.2
  · have := clauses_append (l := before) (b := .kw "SELECT" :: (Statement.commaSep (bs.map fun s => [.leaf s]) ++ [.kw "FROM", .leaf t])) ?_ hc
    · refine this.trans ?_
      simp [selectTextL]
    · have hcw' : Statement.clauseToks P.leaves (Statement.dispatch P.leaves (n + 2)) (selectJ (colsOut bs) t (likeJson b q)) "select" (colsOut bs) =
          .ok (.kw "SELECT" :: Statement.commaSep (bs.map fun s => [.leaf s])) := by
        have h1 := hk "top" (by decide) (by decide) (by decide)
        have h2 := hk "distinct_on" (by decide) (by decide) (by decide)
        simp (decide := true) only [Statement.clauseToks, hcw, h1, h2, Statement.hasKey, ↓reduceIte, Option.isSome_none, Bool.false_eq_true]
      have hfw' : Statement.clauseToks P.leaves (Statement.dispatch P.leaves (n + 2)) (selectJ (colsOut bs) t (likeJson b q)) "from" (.str t) =
          .ok [.kw "FROM", .leaf t] := by
        simp (decide := true) [Statement.clauseToks, Statement.fromToks, Statement.listwrap, Statement.each, Statement.fromItem, hfw, Statement.commaSep,
          Except.map]
      simp (decide := true) [before, Statement.clauses, hk, hsel, hfr, hcw', hfw']

theorem read_selectL {P : Writer} {res : List Char → Bool} {ns : List String} {t b q : String} (h0 : ns ≠ []) (hn : ∀ n ∈ ns, Bare P res n)
    (ht : Bare P res t) (hb : Bare P res b) (hq : Format.kept q.toList = true) :
    readStmt res (Statement.spell (selectTextL ns t b q)).toList = none ∧ readLike res (Statement.spell (selectTextL ns t b q)).toList = some (.select ns t b q) := by
  have h := (Pieces.kw (k := "SELECT") (by decide)).append ((Pieces.sep (f := fun s => [.leaf s]) (g := fun s => [.word s.toList]) (l := ns)
    fun n hn' => Pieces.name (hn n hn')).append ((Pieces.kw (k := "FROM") (by decide)).append ((Pieces.name ht).append (piecesL hb hq))))
  have h1 := pName_bare ht (whereMToksL b q)
  rw [List.singleton_append] at h1
  have h2 := pSep_full (p := pName res) (f := fun s => [.word s.toList]) (g := id) (rest := .word "FROM".toList :: .word t.toList :: whereMToksL b q) (by simp) h0
    (fun n hn' r => pName_bare (hn n hn') r)
  rw [selectTextL]
  refine ⟨(read_pieces (by simpa using h)).1.trans ?_, (read_pieces (by simpa using h)).2.trans ?_⟩
  · rw [pStmt, if_neg (by decide), if_pos (by decide), pSelect]
    simp only [Option.bind_eq_bind]
    erw [h2]
    simp only [Option.bind_some, pKw_self "FROM" (by decide), h1, pWhere_none hb, Option.bind_none]
  · rw [pStmtL, if_pos (by decide), pSelectL]
    simp only [Option.bind_eq_bind]
    erw [h2]
    simp only [Option.bind_some, pKw_self "FROM" (by decide), h1, pWhereL_read hb, List.map_id]

/-! ### UPDATE -/

def updateJ (t : String) (l : Dict String Json) (j : Json) : Dict String Json := [("set", .dict l), ("where", j), ("update", .str t)]

theorem update_rewrittenL {c : Crypto} {db : Db} {t : String} {tm : TableMeta ColMeta} (ht : Dict.get? db t = some tm) {sets : List (String × Val)}
    (hs : ∀ e ∈ sets, ∃ cm, Dict.get? tm.columns e.1 = some cm ∧ Assignable cm e.2) (hd : (sets.flatMap fun e => targets tm.columns e.1).Nodup)
    {j j' : Json} (hw : whereRw c db (.str t) "symmetric" "" j = .ok j') (fuel : Nat) :
    rewriteQuery c db fuel (updateJ t (sets.map fun e => (e.1, e.2.rhs)) j) = .ok (updateJ tm.anonymous (jsons (assignOut c tm.columns sets)) j', .str t, {}) := by
  have htab : tableOf db t = .ok tm := getItem_ok.2 ht
  have hset : setRw c db t (sets.map fun e => (e.1, e.2.rhs)) = .ok (jsons (assignOut c tm.columns sets)) := by
    have := setLoop_out (c := c) (db := db) (t := t) sets [] hs (by simpa using hd)
    rw [setRw, htab]
    simpa using this
  simp (decide := true) [rewriteQuery, updateJ, findTable, tableKeys, Dict.get?_cons, clauseKeys, clauseLoop, stepKey,
    anonRw, tableOfJson, htab, Except.map, Dict.set, Dict.get?, hset, hw]

def updateTextL (t : String) (l : List (String × Rhs)) (b q : String) : List Statement.Tok :=
  .kw "UPDATE" :: .leaf t :: .kw "SET" :: (Statement.commaSep (l.map setToks) ++ whereToksL b q)

theorem update_writtenL {P : Proxy} {res : List Char → Bool} {l : List (String × Rhs)} (hl : ∀ e ∈ l, Bare P.w res e.1) (hr : ∀ e ∈ l, e.2.Ok P.w) {t b q : String}
    (hb : Bare P.w res b) (hq : Format.kept q.toList = true) {n : Nat} (hd : P.depth = n + 2) :
    P.text (updateJ t (jsons l) (likeJson b q)) = .ok (Statement.spell (updateTextL t l b q)).toList := by
  have hk : ∀ k, k ≠ "where" → k ≠ "set" → k ≠ "update" → Dict.get? (updateJ t (jsons l) (likeJson b q)) k = none := by
    intro k h1 h2 h3
    simp [updateJ, Dict.get?, Ne.symm h1, Ne.symm h2, Ne.symm h3]
  have hset : Dict.get? (updateJ t (jsons l) (likeJson b q)) "set" = some (.dict (jsons l)) := by simp [updateJ, Dict.get?_cons]
  have hup : Dict.get? (updateJ t (jsons l) (likeJson b q)) "update" = some (.str t) := by simp (decide := true) [updateJ, Dict.get?_cons]
  have hw : Dict.get? (updateJ t (jsons l) (likeJson b q)) "where" = some (likeJson b q) := by simp (decide := true) [updateJ, Dict.get?_cons]
  have hc := clauses_whereL hb hq n _ hw (hk "groupby" (by decide) (by decide) (by decide)) (hk "having" (by decide) (by decide) (by decide))
  have he : Statement.each (Statement.setItem (Statement.dispatch P.leaves (n + 1))) (jsons l) = .ok (l.map setToks) := by
    clear hk hset hup hw hc
    induction l with
    | nil => rfl
    | cons e l ih =>
      have ih := ih (fun e he => hl e (by simp [he])) (fun e he => hr e (by simp [he]))
      unfold jsons at ih ⊢
      rw [List.map_cons, Statement.each, Statement.setItem, name_good (hl e (by simp)) n 100, rhs_good (hr e (by simp)) n 100]
      simp only [ih]
      rfl
  refine text_of_clauses (k := "update") hd (fun k hm => ?_) (by decide) (by simp [hup]) ?_
  · have := (by decide : ∀ k ∈ ["alter", "drop", "value", "join", "insert", "orderby", "limit", "offset", "fetch"], k ≠ "where" ∧ k ≠ "set" ∧ k ≠ "update") k hm
    exact hk k this.1 this.2.1 this.2.2
  · have := clauses_append (l := before) (b := .kw "UPDATE" :: .leaf t :: .kw "SET" :: Statement.commaSep (l.map setToks)) ?_ hc
    · refine this.trans ?_
      simp [updateTextL]
    · have h1 : Statement.clauseToks P.leaves (Statement.dispatch P.leaves (n + 1)) (updateJ t (jsons l) (likeJson b q)) "set" (.dict (jsons l)) =
          .ok (.kw "SET" :: Statement.commaSep (l.map setToks)) := by
        simp (decide := true) only [Statement.clauseToks, he, ↓reduceIte, Except.map]
      have h2 : Statement.clauseToks P.leaves (Statement.dispatch P.leaves (n + 1)) (updateJ t (jsons l) (likeJson b q)) "update" (.str t) =
          .ok [.kw "UPDATE", .leaf t] := by
        simp (decide := true) [Statement.clauseToks]
      simp (decide := true) [before, Statement.clauses, hk, hset, hup, h1, h2]

theorem read_updateL {P : Writer} {res : List Char → Bool} {l : List (String × Rhs)} {t b q : String} (h0 : l ≠ []) (hn : ∀ e ∈ l, Bare P res e.1)
    (hr : ∀ e ∈ l, e.2.Ok P) (ht : Bare P res t) (hb : Bare P res b) (hq : Format.kept q.toList = true) :
    readStmt res (Statement.spell (updateTextL t l b q)).toList = none ∧
      readLike res (Statement.spell (updateTextL t l b q)).toList = some (.update t (l.map fun e => (e.1, e.2.val)) b q) := by
  have h := (Pieces.kw (k := "UPDATE") (by decide)).append ((Pieces.name ht).append ((Pieces.kw (k := "SET") (by decide)).append
    ((Pieces.sep (l := l) fun e he => Pieces.assign (hn e he) (hr e he)).append (piecesL hb hq))))
  have h1 := pName_bare ht (.word "SET".toList :: (commaToks (l.map setMToks) ++ whereMToksL b q))
  rw [List.singleton_append] at h1
  have h2 := pSep_full (p := pSet res) (f := setMToks) (g := fun e => (e.1, e.2.val)) (rest := whereMToksL b q) (by simp [whereMToksL]) h0
    (fun e he r => pSet_read (hn e he) r)
  rw [updateTextL]
  refine ⟨(read_pieces (by simpa using h)).1.trans ?_, (read_pieces (by simpa using h)).2.trans ?_⟩
  · rw [pStmt, if_neg (by decide), if_neg (by decide), if_pos (by decide), pUpdate]
    simp only [Option.bind_eq_bind]
    erw [h1]
    simp only [Option.bind_some]
    erw [pKw_self "SET" (by decide)]
    simp only [Option.bind_some, h2, pWhere_none hb, Option.bind_none]
  · rw [pStmtL, if_neg (by decide), if_pos (by decide), pUpdateL]
    simp only [Option.bind_eq_bind]
    erw [h1]
    simp only [Option.bind_some]
    erw [pKw_self "SET" (by decide)]
    simp only [Option.bind_some, h2, pWhereL_read hb]

end EulerDB.Like
