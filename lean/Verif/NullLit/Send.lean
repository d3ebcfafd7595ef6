/-
C90: the statements as they are rewritten, written and read.
-/
import Verif.NullLit.Model

namespace EulerDB.NullLit

open EulerDB EulerDB.Clause EulerDB.Delta EulerDB.Whole

/-! ### Conditions -/

/-- A WHERE `j` as rewritten, with its text, its tokens and what the backend reads. -/
structure Part (P : Proxy) (res : List Char → Bool) (j : Option Json) (toks : List Statement.Tok) (mt : List MTok) (out : NWhere) : Prop where
  written : ∀ (n : Nat) (d : Dict String Json), Dict.get? d "where" = j → Dict.get? d "groupby" = none → Dict.get? d "having" = none →
    Statement.clauses P.leaves (Statement.dispatch P.leaves (n + 1)) d ["where", "groupby", "having"] = .ok toks
  pieces : Pieces toks mt
  comma : ∀ r, mt ≠ .comma :: r
  read : pWhereN res mt = some out

/-- WHERE in the statement as parsed or rewritten. -/
def entry : Option Json → Dict String Json
  | none => []
  | some j => [("where", j)]

theorem part_cond {P : Proxy} {res : List Char → Bool} {c : Crypto} {tm : TableMeta ColMeta} (hn : Named P.w res tm) {w : Option Cond} (h : TypedW tm.columns w) :
    Part P res ((sentW c tm.columns w).map W.json) (whereToks (sentW c tm.columns w)) (whereMToks (sentW c tm.columns w))
      (.cond ((sentW c tm.columns w).map W.ex)) := by
  refine ⟨fun n d hd h1 h2 => clauses_where hn h n d ?_ h1 h2, Pieces.where (sentW_ok hn h), where_comma _, ?_⟩
  · rw [hd]
    cases w <;> simp [sentW, whereOut, Dict.get?_cons]
  · rw [pWhereN, pWhere_read (sentW_ok hn h)]

def isText (b : String) (yes : Bool) : List Char := b.toList ++ (if yes then " IS NULL" else " IS NOT NULL").toList

def isToks (b : String) (yes : Bool) : List MTok :=
  .word b.toList :: .word "IS".toList :: ((if yes then [] else [.word "NOT".toList]) ++ [.word "NULL".toList])

theorem isText_toks {w : Writer} {res : List Char → Bool} {b : String} (hb : Bare w res b) (yes : Bool) : Cut (isText b yes) (isToks b yes) := by
  have h1 : Name "IS".toList := by decide
  have h2 : Name "NOT".toList := by decide
  have h3 : Name "NULL".toList := by decide
  cases yes with
  | true => simpa [isText, isToks] using (cut_word hb.name).blank ((cut_word h1).blank (cut_word h3))
  | false => simpa [isText, isToks] using (cut_word hb.name).blank ((cut_word h1).blank ((cut_word h2).blank (cut_word h3)))

theorem is_good {P : Proxy} {res : List Char → Bool} {b : String} (hb : Bare P.w res b) (yes : Bool) (n p : Nat) :
    Statement.dispatch P.leaves (n + 1) (isJson b yes) p = .ok [.leaf (String.ofList (isText b yes))] := by
  refine Statement.dispatch_good (tx := fun _ => String.ofList (isText b yes)) ⟨?_, ?_⟩ n p
  · cases yes <;>
      simp (decide := true) [isJson, Statement.Plain, Statement.hasAny, Statement.hasKey, Statement.stmtKeys, Statement.orderedClauses,
        Statement.unorderedClauses, Dict.get?_cons]
  · have : exText P.w (isJson b yes) 400 = .ok (isText b yes) := by
      cases yes with
      | true =>
        rw [isJson, if_pos rfl, exText, exDict, if_neg (by decide), if_neg (by decide), exOp, show infixOf "missing" = none by decide]
        simp only
        rw [if_neg (by decide), if_pos trivial, exText, nameText_bare hb]
        rfl
      | false =>
        rw [isJson, if_neg (by decide), exText, exDict, if_neg (by decide), if_neg (by decide), exOp, show infixOf "exists" = none by decide]
        simp only
        rw [if_neg (by decide), if_neg (by decide), if_pos trivial, exText, nameText_bare hb]
        rfl
    simp [Proxy.leaves, this, Except.map]

theorem pWhere_stops {res : List Char → Bool} {b : String} (hb : res b.toList = false) (yes : Bool) : pWhere res (.word "WHERE".toList :: isToks b yes) = none := by
  have hd : ∀ (ex : List MTok → Option (MEx × List MTok)) (l : List MTok),
      disj res ex (.word b.toList :: .word "IS".toList :: l) = some (.name b, .word "IS".toList :: l) := by
    intro ex l
    have ha : isKw "AND" "IS".toList = false := by decide
    have ho : isKw "OR" "IS".toList = false := by decide
    simp only [disj, conj, compar, prim, hb, Bool.false_eq_true, if_false, cmpTail, Option.bind_some, List.length_cons, andTail, ha, orTail, ho,
      String.ofList_toList]
  rw [pWhere, pKw_self "WHERE" (by decide)]
  · simp only [isToks, List.length_cons, expr]
    rw [hd]
  · simp

theorem part_is {P : Proxy} {res : List Char → Bool} {b : String} (hb : Bare P.w res b) (yes : Bool) :
    Part P res (some (isJson b yes)) [.kw "WHERE", .leaf (String.ofList (isText b yes))] (.word "WHERE".toList :: isToks b yes) (.isNull b yes) := by
  refine ⟨fun n d hd h1 h2 => ?_, ?_, by simp, ?_⟩
  · simp (decide := true) only [Statement.clauses, hd, h1, h2, Statement.clauseToks, if_false, if_true, is_good hb, Except.map, List.append_nil]
  · have h1 := Pieces.one (t := .leaf (String.ofList (isText b yes))) (ts := isToks b yes) (by simpa [Statement.spell.one] using isText_toks hb yes) (by simp)
    exact (Pieces.kw (k := "WHERE") (by decide)).append h1
  · rw [pWhereN, pWhere_stops hb.res]
    have h1 : isKw "WHERE" "WHERE".toList = true := by decide
    have h2 : isKw "IS" "IS".toList = true := by decide
    have h3 : isKw "NULL" "NULL".toList = true := by decide
    have h4 : isKw "NOT" "NOT".toList = true := by decide
    cases yes with
    | true =>
      simp only [isToks, if_true, List.nil_append, pIs, h1, h2, h3, hb.res, Bool.not_false, Bool.and_self, String.ofList_toList, Option.map_some]
    | false =>
      simp only [isToks, Bool.false_eq_true, if_false, List.singleton_append, pIs, h1, h2, h3, h4, hb.res, Bool.not_false, Bool.and_self, if_true,
        String.ofList_toList, Option.map_some]

def CWhere.json : CWhere → Option Json
  | .cond w => w.map Cond.json
  | .isNull n yes => some (isJson n yes)

/-- The condition that is sent, and the rows it concerns. -/
theorem where_sentN {P : Proxy} {res : List Char → Bool} {t : String} {tm : TableMeta ColMeta} (hn : Named P.w res tm) (ht : Dict.get? P.db t = some tm)
    {w : CWhere} (h : TypedC tm.columns w) :
    ∃ j toks mt out, (∀ x, w.json = some x → ∃ y, j = some y ∧ whereRw P.c P.db (.str t) "symmetric" "" x = .ok y) ∧ (w.json = none → j = none) ∧
      Part P res j toks mt out ∧ ∀ row brow, Nulls.Keeps P.c tm.columns row brow → concernsN out brow = some (chosen w row) := by
  cases w with
  | cond w =>
    refine ⟨_, _, _, _, ?_, ?_, part_cond (c := P.c) hn h, fun row brow hk => hk.concerned hn h⟩
    · intro x hx
      cases w with
      | none => simp [CWhere.json] at hx
      | some y =>
        simp only [CWhere.json, Option.map_some, Option.some.injEq] at hx
        subst hx
        exact ⟨_, rfl, where_sent (c := P.c) ht (h y rfl)⟩
    · intro hx
      cases w with
      | none => rfl
      | some y => simp [CWhere.json] at hx
  | isNull n yes =>
    obtain ⟨cm, hc, hp⟩ := h
    refine ⟨_, _, _, _, ?_, ?_, part_is (hn.plain n cm hc hp) yes, fun row brow hk => ?_⟩
    · intro x hx
      simp only [CWhere.json, Option.some.injEq] at hx
      subst hx
      refine ⟨_, rfl, ?_⟩
      cases yes <;> simp (decide := true) [isJson, whereRw, whereDict]
    · intro hx
      cases hx
    · rw [concernsN, chosen]
      cases hv : Dict.get? row n with
      | none => rw [hk.null n (mem_keys hc) hv n (Nulls.target_plain hc hp)]; rfl
      | some v =>
        rw [hk.holds.plain n v cm hv hc hp]
        cases v <;> rfl

theorem read_piecesN {res : List Char → Bool} {l : List Statement.Tok} {ts : List MTok} (h : Pieces l ts) :
    readN res (Statement.spell l).toList = pStmtN res ts := by
  rw [readN, h.lx.full]; rfl

/-! ### DELETE -/

def deleteJ (t : String) (j : Option Json) : Dict String Json := entry j ++ [("delete", .str t)]

theorem delete_rewrittenN {c : Crypto} {db : Db} {t : String} {tm : TableMeta ColMeta} (ht : Dict.get? db t = some tm) {i j : Option Json}
    (h1 : ∀ x, i = some x → ∃ y, j = some y ∧ whereRw c db (.str t) "symmetric" "" x = .ok y) (h2 : i = none → j = none) (fuel : Nat) :
    rewriteQuery c db fuel (deleteJ t i) = .ok (deleteJ tm.anonymous j, .str t, {}) := by
  have htab : tableOf db t = .ok tm := getItem_ok.2 ht
  cases i with
  | none =>
    rw [h2 rfl]
    simp (decide := true) [rewriteQuery, deleteJ, entry, findTable, tableKeys, Dict.get?_cons, clauseKeys, clauseLoop, stepKey, anonRw,
      tableOfJson, htab, Except.map, Dict.set, Dict.get?]
  | some x =>
    obtain ⟨y, rfl, hw⟩ := h1 x rfl
    simp (decide := true) [rewriteQuery, deleteJ, entry, findTable, tableKeys, Dict.get?_cons, clauseKeys, clauseLoop, stepKey, anonRw,
      tableOfJson, htab, Except.map, Dict.set, Dict.get?, hw]

theorem delete_writtenN {P : Proxy} {res : List Char → Bool} {t : String} {j : Option Json} {toks : List Statement.Tok} {mt : List MTok} {out : NWhere}
    (hp : Part P res j toks mt out) {n : Nat} (hd : P.depth = n + 2) :
    P.text (deleteJ t j) = .ok (Statement.spell (.kw "DELETE" :: .kw "FROM" :: .leaf t :: toks)).toList := by
  have hk : ∀ k, k ≠ "where" → k ≠ "delete" → Dict.get? (deleteJ t j) k = none := by
    intro k h1 h2
    cases j <;> simp [deleteJ, entry, Dict.get?, Ne.symm h1, Ne.symm h2]
  have hdel : Dict.get? (deleteJ t j) "delete" = some (.str t) := by cases j <;> simp (decide := true) [deleteJ, entry, Dict.get?_cons]
  have hw : Dict.get? (deleteJ t j) "where" = j := by cases j <;> simp (decide := true) [deleteJ, entry, Dict.get?_cons]
  have hc := hp.written n _ hw (hk "groupby" (by decide) (by decide)) (hk "having" (by decide) (by decide))
  refine text_of_clauses (k := "delete") hd (fun k hm => ?_) (by decide) (by simp [hdel]) ?_
  · have := (by decide : ∀ k ∈ ["alter", "drop", "value", "join", "insert", "orderby", "limit", "offset", "fetch"], k ≠ "where" ∧ k ≠ "delete") k hm
    exact hk k this.1 this.2
  · refine clauses_append (l := before) (b := [.kw "DELETE", .kw "FROM", .leaf t]) ?_ hc
    simp (decide := true) [before, Statement.clauses, hk, hdel, Statement.clauseToks, Statement.rawName, Except.map]

theorem read_deleteN {P : Proxy} {res : List Char → Bool} {t : String} {j : Option Json} {toks : List Statement.Tok} {mt : List MTok} {out : NWhere}
    (hp : Part P res j toks mt out) (ht : Bare P.w res t) :
    readN res (Statement.spell (.kw "DELETE" :: .kw "FROM" :: .leaf t :: toks)).toList = some (.delete t out) := by
  have h := (Pieces.kw (k := "DELETE") (by decide)).append ((Pieces.kw (k := "FROM") (by decide)).append ((Pieces.name ht).append hp.pieces))
  have h1 := pName_bare ht mt
  rw [List.singleton_append] at h1
  refine (read_piecesN h).trans ?_
  simp only [List.singleton_append]
  rw [pStmtN, if_neg (by decide), if_neg (by decide), if_neg (by decide), if_pos (by decide), pDeleteN, pKw_self "FROM" (by decide)]
  simp only [Option.bind_eq_bind, Option.bind_some, h1, hp.read]

/-! ### SELECT -/

def selectJ (cols : Json) (t : String) (j : Option Json) : Dict String Json := ("select", cols) :: ("from", .str t) :: entry j

theorem select_rewrittenN {c : Crypto} {db : Db} {t : String} {tm : TableMeta ColMeta} (ht : Dict.get? db t = some tm) (hp : PlainTable t) {ns : List String}
    (hr : ∀ n ∈ ns, Readable tm.columns n) {i j : Option Json} (h1 : ∀ x, i = some x → ∃ y, j = some y ∧ whereRw c db (.str t) "symmetric" "" x = .ok y)
    (h2 : i = none → j = none) (fuel : Nat) :
    rewriteQuery c db fuel (selectJ (colsIn ns) t i) =
      .ok (selectJ (colsOut (readNames tm.columns ns)) tm.anonymous j, .str t, pushAll tm.columns {} ns) := by
  have htab : tableOf db t = .ok tm := getItem_ok.2 ht
  have hc := cols_rewritten ht hr
  have hf : ∀ s, fromOuter c db (rewriteClause c db fuel) (.str t) (.str t) s = .ok (.str tm.anonymous, s) := by
    intro s
    unfold PlainTable at hp
    simp [fromOuter, fromInner, hp, fromRw, htab, Except.map]
  cases i with
  | none =>
    rw [h2 rfl]
    simp (decide := true) [rewriteQuery, selectJ, entry, findTable, tableKeys, Dict.get?_cons, clauseKeys, clauseLoop, stepKey, Dict.set, Dict.get?, hc, hf]
  | some x =>
    obtain ⟨y, rfl, hw⟩ := h1 x rfl
    simp (decide := true) [rewriteQuery, selectJ, entry, findTable, tableKeys, Dict.get?_cons, clauseKeys, clauseLoop, stepKey, Dict.set, Dict.get?, hc, hf, hw]

def selectToks (ns : List String) (t : String) (toks : List Statement.Tok) : List Statement.Tok :=
  .kw "SELECT" :: (Statement.commaSep (ns.map fun s => [.leaf s]) ++ .kw "FROM" :: .leaf t :: toks)

theorem select_writtenN {P : Proxy} {res : List Char → Bool} {bs : List String} (hbs : ∀ b ∈ bs, Bare P.w res b) {t : String} (ht : Bare P.w res t)
    {j : Option Json} {toks : List Statement.Tok} {mt : List MTok} {out : NWhere} (hp : Part P res j toks mt out) {n : Nat} (hd : P.depth = n + 3) :
    P.text (selectJ (colsOut bs) t j) = .ok (Statement.spell (selectToks bs t toks)).toList := by
  have hk : ∀ k, k ≠ "where" → k ≠ "select" → k ≠ "from" → Dict.get? (selectJ (colsOut bs) t j) k = none := by
    intro k h1 h2 h3
    cases j <;> simp [selectJ, entry, Dict.get?, Ne.symm h1, Ne.symm h2, Ne.symm h3]
  have hsel : Dict.get? (selectJ (colsOut bs) t j) "select" = some (colsOut bs) := by simp [selectJ, Dict.get?_cons]
  have hfr : Dict.get? (selectJ (colsOut bs) t j) "from" = some (.str t) := by simp (decide := true) [selectJ, Dict.get?_cons]
  have hw : Dict.get? (selectJ (colsOut bs) t j) "where" = j := by cases j <;> simp (decide := true) [selectJ, entry, Dict.get?_cons]
  have hc := hp.written (n + 1) _ hw (hk "groupby" (by decide) (by decide) (by decide)) (hk "having" (by decide) (by decide) (by decide))
  have hcw := cols_written n hbs
  have hfw : Statement.dispatch P.leaves (n + 2) (.str t) 29 = .ok [.leaf t] := name_good ht (n + 1) 29
  refine text_of_clauses (k := "select") hd (fun k hm => ?_) (by decide) (by simp [hsel]) ?_
  · have := (by decide : ∀ k ∈ ["alter", "drop", "value", "join", "insert", "orderby", "limit", "offset", "fetch"], k ≠ "where" ∧ k ≠ "select" ∧ k ≠ "from") k hm
    exact hk k this.1 this.2.1 this.2.2
  · have := clauses_append (l := before) (b := .kw "SELECT" :: (Statement.commaSep (bs.map fun s => [.leaf s]) ++ [.kw "FROM", .leaf t])) ?_ hc
    · refine this.trans ?_
      simp [selectToks]
    · have hcw' : Statement.clauseToks P.leaves (Statement.dispatch P.leaves (n + 2)) (selectJ (colsOut bs) t j) "select" (colsOut bs) =
          .ok (.kw "SELECT" :: Statement.commaSep (bs.map fun s => [.leaf s])) := by
        have h1 := hk "top" (by decide) (by decide) (by decide)
        have h2 := hk "distinct_on" (by decide) (by decide) (by decide)
        simp (decide := true) only [Statement.clauseToks, hcw, h1, h2, Statement.hasKey, ↓reduceIte, Option.isSome_none, Bool.false_eq_true]
      have hfw' : Statement.clauseToks P.leaves (Statement.dispatch P.leaves (n + 2)) (selectJ (colsOut bs) t j) "from" (.str t) =
          .ok [.kw "FROM", .leaf t] := by
        simp (decide := true) [Statement.clauseToks, Statement.fromToks, Statement.listwrap, Statement.each, Statement.fromItem, hfw, Statement.commaSep,
          Except.map]
      simp (decide := true) [before, Statement.clauses, hk, hsel, hfr, hcw', hfw']

theorem read_selectN {P : Proxy} {res : List Char → Bool} {ns : List String} {t : String} {j : Option Json} {toks : List Statement.Tok} {mt : List MTok}
    {out : NWhere} (hp : Part P res j toks mt out) (h0 : ns ≠ []) (hn : ∀ n ∈ ns, Bare P.w res n) (ht : Bare P.w res t) :
    readN res (Statement.spell (selectToks ns t toks)).toList = some (.select ns t out) := by
  have h := (Pieces.kw (k := "SELECT") (by decide)).append ((Pieces.sep (f := fun s => [.leaf s]) (g := fun s => [.word s.toList]) (l := ns)
    fun n hn' => Pieces.name (hn n hn')).append ((Pieces.kw (k := "FROM") (by decide)).append ((Pieces.name ht).append hp.pieces)))
  have h1 := pName_bare ht mt
  rw [List.singleton_append] at h1
  have h2 := pSep_full (p := pName res) (f := fun s => [.word s.toList]) (g := id) (rest := .word "FROM".toList :: .word t.toList :: mt) (by simp) h0
    (fun n hn' r => pName_bare (hn n hn') r)
  rw [selectToks]
  refine (read_piecesN (by simpa using h)).trans ?_
  rw [pStmtN, if_neg (by decide), if_pos (by decide), pSelectN]
  simp only [Option.bind_eq_bind]
  erw [h2]
  simp only [Option.bind_some, pKw_self "FROM" (by decide), h1, hp.read, List.map_id]

/-! ### UPDATE -/

/-- A value as it is sent: a literal of C71 or NULL. -/
abbrev NRhs := Option Rhs

def NRhs.json : NRhs → Json
  | none => Sql.nullJson
  | some r => r.json

def NRhs.text : NRhs → List Char
  | none => "NULL".toList
  | some r => r.text

def NRhs.toks : NRhs → List MTok
  | none => [.word "NULL".toList]
  | some r => r.toks

def NRhs.val : NRhs → DbVal
  | none => .null
  | some r => r.val

def NRhs.Ok (P : Writer) (r : NRhs) : Prop := ∀ x, r = some x → x.Ok P

theorem rhs_goodN {P : Proxy} {r : NRhs} (h : r.Ok P.w) (n p : Nat) : Statement.dispatch P.leaves (n + 1) r.json p = .ok [.leaf (String.ofList r.text)] := by
  cases r with
  | some r => exact rhs_good (h r rfl) n p
  | none =>
    refine Statement.dispatch_good (tx := fun _ => String.ofList (NRhs.text none)) ⟨?_, ?_⟩ n p
    · simp (decide := true) [NRhs.json, Sql.nullJson, Statement.Plain]
    · have : exText P.w Sql.nullJson 400 = .ok "NULL".toList := by rw [Sql.nullJson, exText, exDict, if_neg (by decide), if_pos rfl]
      simp [Proxy.leaves, NRhs.json, this, NRhs.text, Except.map]

def setToksN (e : String × NRhs) : List Statement.Tok := [.leaf e.1, .kw "=", .leaf (String.ofList e.2.text)]
def setMToksN (e : String × NRhs) : List MTok := .word e.1.toList :: .cmp .eq :: e.2.toks

theorem Pieces.assignN {P : Writer} {res : List Char → Bool} {e : String × NRhs} (h1 : Bare P res e.1) (h2 : e.2.Ok P) : Pieces (setToksN e) (setMToksN e) := by
  obtain ⟨n, r⟩ := e
  cases r with
  | some r => exact Pieces.assign (e := (n, r)) h1 (h2 r rfl)
  | none =>
    have h3 : Pieces [.leaf (String.ofList (NRhs.text none))] (NRhs.toks none) := .one (by
      have : Cut "NULL".toList [.word "NULL".toList] := cut_word (by decide)
      simpa [Statement.spell.one, NRhs.text, NRhs.toks] using this) (by simp)
    simpa [setToksN, setMToksN] using (Pieces.name h1).append (Pieces.eq.append h3)

theorem intToks_head (z : Int) (rest : List MTok) : pLitN (intToks z ++ rest) = pLit (intToks z ++ rest) := by
  unfold intToks
  split <;> rfl

theorem pLitN_rhs (r : NRhs) (rest : List MTok) : pLitN (r.toks ++ rest) = some (r.val, rest) := by
  cases r with
  | none =>
    have : isKw "NULL" "NULL".toList = true := by decide
    simp only [NRhs.toks, List.singleton_append, pLitN, this, if_true]
    rfl
  | some r =>
    rw [NRhs.toks, NRhs.val, ← pLit_rhs r rest]
    cases r with
    | int z => exact intToks_head z rest
    | lit s => rfl
    | quoted s => rfl

theorem pSetN_read {P : Writer} {res : List Char → Bool} {e : String × NRhs} (h : Bare P res e.1) (rest : List MTok) :
    pSetN res (setMToksN e ++ rest) = some ((e.1, e.2.val), rest) := by
  have h1 := pName_bare h (.cmp .eq :: (e.2.toks ++ rest))
  rw [List.singleton_append] at h1
  rw [pSetN, setMToksN, List.cons_append, List.cons_append, h1]
  simp only [pLitN_rhs, Option.map_some]

/-- The backend columns written for one assignment. -/
def cellsN (c : Crypto) (cm : ColMeta) (n : String) (v : Option Val) : List (String × NRhs) :=
  if cm.plaintext then [(n, v.map plainRhs)] else cm.encCols.map fun p => (p.2, v.map (setRhs c cm p.1))

def assignOutN (c : Crypto) (cols : Dict String ColMeta) (sets : List (String × Option Val)) : List (String × NRhs) :=
  sets.flatMap fun e => match Dict.get? cols e.1 with | none => [] | some cm => cellsN c cm e.1 e.2

def jsonsN (l : List (String × NRhs)) : Dict String Json := l.map fun e => (e.1, e.2.json)

theorem assignOutN_names (c : Crypto) (cols : Dict String ColMeta) (sets : List (String × Option Val)) :
    (assignOutN c cols sets).map Prod.fst = sets.flatMap fun e => targets cols e.1 := by
  unfold assignOutN
  induction sets with
  | nil => rfl
  | cons e l ih =>
    rw [List.flatMap_cons, List.flatMap_cons, List.map_append, ih]
    congr 1
    unfold targets
    cases Dict.get? cols e.1 with
    | none => rfl
    | some cm =>
      simp only [cellsN]
      split <;> simp [Function.comp_def]

/-- A value fits the column if it is NULL or may be assigned to it. -/
def AssignableN (cm : ColMeta) (v : Option Val) : Prop := ∀ x, v = some x → Assignable cm x

theorem set_leafN {c : Crypto} {db : Db} {t : String} {cm : ColMeta} {v : Option Val} (h : AssignableN cm v) (hp : cm.plaintext = false) {e b : String}
    (hb : (e, b) ∈ cm.encCols) : whereRw c db (.str t) e cm.key (rhsN v) = .ok (NRhs.json (v.map (setRhs c cm e))) := by
  cases v with
  | some v => exact set_leaf (h v rfl) hp hb
  | none => simp (decide := true) [rhsN, Sql.nullJson, whereRw, whereDict, NRhs.json]

theorem setColsN_out {c : Crypto} {db : Db} {t : String} {cm : ColMeta} {v : Option Val} (h : AssignableN cm v) (hp : cm.plaintext = false) :
    ∀ (l : Dict String String) (acc : Dict String Json), (∀ p ∈ l, p ∈ cm.encCols) → (acc.map Prod.fst ++ l.map Prod.snd).Nodup →
    setCols c db t cm.key (rhsN v) l acc = .ok (acc ++ jsonsN (l.map fun p => (p.2, v.map (setRhs c cm p.1))))
  | [], acc, _, _ => by simp [setCols, jsonsN]
  | (e, b) :: l, acc, hl, hn => by
    rw [setCols, set_leafN h hp (hl (e, b) (by simp))]
    simp only
    have h1 : b ∉ acc.map Prod.fst := by
      intro hm
      rw [List.nodup_append] at hn
      exact hn.2.2 b hm b (by simp) rfl
    rw [set_append h1, setColsN_out h hp l _ (fun p hp => hl p (by simp [hp]))]
    · simp [jsonsN]
    · simpa [List.append_assoc] using hn

theorem setLoopN_out {c : Crypto} {db : Db} {t : String} {cols : Dict String ColMeta} : ∀ (sets : List (String × Option Val)) (acc : Dict String Json),
    (∀ e ∈ sets, ∃ cm, Dict.get? cols e.1 = some cm ∧ AssignableN cm e.2) → (acc.map Prod.fst ++ sets.flatMap fun e => targets cols e.1).Nodup →
    setLoop c db t cols (sets.map fun e => (e.1, rhsN e.2)) acc = .ok (acc ++ jsonsN (assignOutN c cols sets))
  | [], acc, _, _ => by simp [setLoop, jsonsN, assignOutN]
  | (n, v) :: l, acc, hs, hn => by
    obtain ⟨cm, hc, hv⟩ := hs (n, v) (by simp)
    have hs' : ∀ e ∈ l, ∃ cm, Dict.get? cols e.1 = some cm ∧ AssignableN cm e.2 := fun e he => hs e (by simp [he])
    have ht : targets cols n = if cm.plaintext then [n] else cm.encCols.map Prod.snd := by simp [targets, hc]
    have ho : assignOutN c cols ((n, v) :: l) = cellsN c cm n v ++ assignOutN c cols l := by simp [assignOutN, hc]
    have hpj : NRhs.json (v.map plainRhs) = rhsN v := by cases v <;> simp [NRhs.json, rhsN, plainRhs_json]
    rw [List.map_cons, setLoop, getItem_ok.2 hc, ho]
    rw [List.flatMap_cons, ht] at hn
    simp only
    by_cases hp : cm.plaintext = true
    · rw [if_pos hp] at hn ⊢
      have h1 : n ∉ acc.map Prod.fst := by
        intro hm
        rw [List.nodup_append] at hn
        exact hn.2.2 n hm n (by simp) rfl
      rw [set_append h1, setLoopN_out l _ hs']
      · simp [jsonsN, cellsN, hp, hpj]
      · simpa [List.append_assoc] using hn
    · rw [if_neg hp] at hn ⊢
      have hp' : cm.plaintext = false := by simpa using hp
      rw [setColsN_out hv hp' cm.encCols acc (fun _ h => h)]
      · simp only
        rw [setLoopN_out l _ hs']
        · simp [jsonsN, cellsN, hp, Function.comp_def]
        · simpa [jsonsN, List.append_assoc, Function.comp_def] using hn
      · rw [← List.append_assoc] at hn
        exact (List.nodup_append.1 hn).1

def updateJ (t : String) (l : Dict String Json) (j : Option Json) : Dict String Json := ("set", .dict l) :: (entry j ++ [("update", .str t)])

theorem update_rewrittenN {c : Crypto} {db : Db} {t : String} {tm : TableMeta ColMeta} (ht : Dict.get? db t = some tm) {sets : List (String × Option Val)}
    (hs : ∀ e ∈ sets, ∃ cm, Dict.get? tm.columns e.1 = some cm ∧ AssignableN cm e.2) (hd : (sets.flatMap fun e => targets tm.columns e.1).Nodup)
    {i j : Option Json} (h1 : ∀ x, i = some x → ∃ y, j = some y ∧ whereRw c db (.str t) "symmetric" "" x = .ok y) (h2 : i = none → j = none) (fuel : Nat) :
    rewriteQuery c db fuel (updateJ t (sets.map fun e => (e.1, rhsN e.2)) i) =
      .ok (updateJ tm.anonymous (jsonsN (assignOutN c tm.columns sets)) j, .str t, {}) := by
  have htab : tableOf db t = .ok tm := getItem_ok.2 ht
  have hset : setRw c db t (sets.map fun e => (e.1, rhsN e.2)) = .ok (jsonsN (assignOutN c tm.columns sets)) := by
    have := setLoopN_out (c := c) (db := db) (t := t) sets [] hs (by simpa using hd)
    rw [setRw, htab]
    simpa using this
  cases i with
  | none =>
    rw [h2 rfl]
    simp (decide := true) [rewriteQuery, updateJ, entry, findTable, tableKeys, Dict.get?_cons, clauseKeys, clauseLoop, stepKey,
      anonRw, tableOfJson, htab, Except.map, Dict.set, Dict.get?, hset]
  | some x =>
    obtain ⟨y, rfl, hw⟩ := h1 x rfl
    simp (decide := true) [rewriteQuery, updateJ, entry, findTable, tableKeys, Dict.get?_cons, clauseKeys, clauseLoop, stepKey,
      anonRw, tableOfJson, htab, Except.map, Dict.set, Dict.get?, hset, hw]

def updateToks (t : String) (l : List (String × NRhs)) (toks : List Statement.Tok) : List Statement.Tok :=
  .kw "UPDATE" :: .leaf t :: .kw "SET" :: (Statement.commaSep (l.map setToksN) ++ toks)

theorem update_writtenN {P : Proxy} {res : List Char → Bool} {l : List (String × NRhs)} (hl : ∀ e ∈ l, Bare P.w res e.1) (hr : ∀ e ∈ l, e.2.Ok P.w) {t : String}
    {j : Option Json} {toks : List Statement.Tok} {mt : List MTok} {out : NWhere} (hp : Part P res j toks mt out) {n : Nat} (hd : P.depth = n + 2) :
    P.text (updateJ t (jsonsN l) j) = .ok (Statement.spell (updateToks t l toks)).toList := by
  have hk : ∀ k, k ≠ "where" → k ≠ "set" → k ≠ "update" → Dict.get? (updateJ t (jsonsN l) j) k = none := by
    intro k h1 h2 h3
    cases j <;> simp [updateJ, entry, Dict.get?, Ne.symm h1, Ne.symm h2, Ne.symm h3]
  have hset : Dict.get? (updateJ t (jsonsN l) j) "set" = some (.dict (jsonsN l)) := by simp [updateJ, Dict.get?_cons]
  have hup : Dict.get? (updateJ t (jsonsN l) j) "update" = some (.str t) := by cases j <;> simp (decide := true) [updateJ, entry, Dict.get?_cons]
  have hw : Dict.get? (updateJ t (jsonsN l) j) "where" = j := by cases j <;> simp (decide := true) [updateJ, entry, Dict.get?_cons]
  have hc := hp.written n _ hw (hk "groupby" (by decide) (by decide) (by decide)) (hk "having" (by decide) (by decide) (by decide))
  have he : Statement.each (Statement.setItem (Statement.dispatch P.leaves (n + 1))) (jsonsN l) = .ok (l.map setToksN) := by
    clear hk hset hup hw hc
    induction l with
    | nil => rfl
    | cons e l ih =>
      have ih := ih (fun e he => hl e (by simp [he])) (fun e he => hr e (by simp [he]))
      unfold jsonsN at ih ⊢
      rw [List.map_cons, Statement.each, Statement.setItem, name_good (hl e (by simp)) n 100, rhs_goodN (hr e (by simp)) n 100]
      simp only [ih]
      rfl
  refine text_of_clauses (k := "update") hd (fun k hm => ?_) (by decide) (by simp [hup]) ?_
  · have := (by decide : ∀ k ∈ ["alter", "drop", "value", "join", "insert", "orderby", "limit", "offset", "fetch"], k ≠ "where" ∧ k ≠ "set" ∧ k ≠ "update") k hm
    exact hk k this.1 this.2.1 this.2.2
  · have := clauses_append (l := before) (b := .kw "UPDATE" :: .leaf t :: .kw "SET" :: Statement.commaSep (l.map setToksN)) ?_ hc
    · refine this.trans ?_
      simp [updateToks]
    · have h1 : Statement.clauseToks P.leaves (Statement.dispatch P.leaves (n + 1)) (updateJ t (jsonsN l) j) "set" (.dict (jsonsN l)) =
          .ok (.kw "SET" :: Statement.commaSep (l.map setToksN)) := by
        simp (decide := true) only [Statement.clauseToks, he, ↓reduceIte, Except.map]
      have h2 : Statement.clauseToks P.leaves (Statement.dispatch P.leaves (n + 1)) (updateJ t (jsonsN l) j) "update" (.str t) =
          .ok [.kw "UPDATE", .leaf t] := by
        simp (decide := true) [Statement.clauseToks]
      simp (decide := true) [before, Statement.clauses, hk, hset, hup, h1, h2]

theorem read_updateN {P : Proxy} {res : List Char → Bool} {l : List (String × NRhs)} {t : String} {j : Option Json} {toks : List Statement.Tok} {mt : List MTok}
    {out : NWhere} (hp : Part P res j toks mt out) (h0 : l ≠ []) (hn : ∀ e ∈ l, Bare P.w res e.1) (hr : ∀ e ∈ l, e.2.Ok P.w) (ht : Bare P.w res t) :
    readN res (Statement.spell (updateToks t l toks)).toList = some (.update t (l.map fun e => (e.1, e.2.val)) out) := by
  have h := (Pieces.kw (k := "UPDATE") (by decide)).append ((Pieces.name ht).append ((Pieces.kw (k := "SET") (by decide)).append
    ((Pieces.sep (l := l) fun e he => Pieces.assignN (hn e he) (hr e he)).append hp.pieces)))
  have h1 := pName_bare ht (.word "SET".toList :: (commaToks (l.map setMToksN) ++ mt))
  rw [List.singleton_append] at h1
  have h2 := pSep_full (p := pSetN res) (f := setMToksN) (g := fun e => (e.1, e.2.val)) (rest := mt) hp.comma h0
    (fun e he r => pSetN_read (hn e he) r)
  rw [updateToks]
  refine (read_piecesN (by simpa using h)).trans ?_
  rw [pStmtN, if_neg (by decide), if_neg (by decide), if_pos (by decide), pUpdateN]
  simp only [Option.bind_eq_bind]
  erw [h1]
  simp only [Option.bind_some]
  erw [pKw_self "SET" (by decide)]
  simp only [Option.bind_some, h2, hp.read]

end EulerDB.NullLit
