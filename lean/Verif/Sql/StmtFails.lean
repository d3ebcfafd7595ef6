/-
C70 and C68: statements that are read as something else than they spell, or not at all.
-/
import Verif.Sql.StmtProps
import Verif.Parse.Level

namespace EulerDB.Sql

open EulerDB EulerDB.Parse

/-! ### Examples of spelled statements -/

theorem gap_space : Gap [' '] := .white (by decide) .nil

theorem after_space (d : Edge) : After d [' '] := ⟨gap_space, fun _ h => by simp at h⟩

/-- ` a = 1`. -/
theorem spells_eq (env : Env) : Spells env .lit " a = 1".toList (.call "eq" [.name "a", .int 1]) := by
  refine ⟨1, .inl ⟨[.val (.name "a"), .bin .eq, .val (.int 1)], ?_, rfl⟩⟩
  have ha : SpAtom env (SpExpr env 0) .name ['a'] (.name "a") :=
    .name (SpName.mk (p := ['a']) (n := ['a']) (t := []) (m := []) (.plain ⟨by decide, 'a', [], rfl, by decide⟩) (by decide +kernel) .nil)
  have h1 : SpAtom env (SpExpr env 0) .lit ['1'] (.int 1) := SpAtom.int (ds := ['1']) (by simp) (by decide)
  exact SpRun.cons (t := " a".toList) (g := [' ']) (w := ['=']) (u := " 1".toList) (m := [.val (.name "a")]) (l := [.val (.int 1)])
    (SpOperand.atom (g := [' ']) gap_space ha) gap_space (fun c hc => by simp at hc; subst hc; exact ⟨by decide, fun _ => by decide, fun _ => by decide⟩)
    (SpOp.sym (w := "=") (by decide) (by decide)) (.one (SpOperand.atom (g := [' ']) gap_space h1))

/-- ` WHERE a = 1`. -/
theorem where_eq (env : Env) (d : Edge) : SpWhere env d " WHERE a = 1".toList (some (.call "eq" [.name "a", .int 1])) :=
  SpWhere.given (g := [' ']) (w := "WHERE".toList) (t := " a = 1".toList) (e := []) gap_space
    (fun c hc => by simp at hc; subst hc; exact ⟨by decide, fun _ => by decide, fun _ => by decide⟩) rfl (by decide) (spells_eq env) ⟨.gap .nil, fun _ => by simp⟩

theorem name_t (no : List String) (h : ∀ w ∈ no, ¬ Word w ['t']) : SpName no ['t'] ['t'] :=
  SpName.mk (p := ['t']) (n := ['t']) (t := []) (m := []) (.plain ⟨by decide, 't', [], rfl, by decide⟩) h .nil

example (env : Env) : SpDelete env "DELETE FROM t WHERE a = 1".toList ['t'] (some (.call "eq" [.name "a", .int 1])) :=
  .mk (s1 := " FROM t WHERE a = 1".toList) (s2 := " t WHERE a = 1".toList) (s3 := " WHERE a = 1".toList) ⟨[], "DELETE".toList, .nil, rfl, by decide, rfl⟩
    ⟨[' '], "FROM".toList, gap_space, rfl, by decide, rfl⟩
    ⟨[' '], ['t'], gap_space, name_t _ (by decide +kernel), fun c hc => by simp at hc; subst hc; decide, by decide, rfl⟩ (where_eq env .name)

/-- ` b`. -/
theorem spells_name (env : Env) : Spells env .name " b".toList (.name "b") := by
  refine ⟨1, .inl ⟨[.val (.name "b")], .one ?_, rfl⟩⟩
  have hb : SpAtom env (SpExpr env 0) .name ['b'] (.name "b") :=
    .name (SpName.mk (p := ['b']) (n := ['b']) (t := []) (m := []) (.plain ⟨by decide, 'b', [], rfl, by decide⟩) (by decide +kernel) .nil)
  exact SpOperand.atom (g := [' ']) gap_space hb

/-- ` 1`. -/
theorem spells_one (env : Env) {g : List Char} (hg : Gap g) : Spells env .lit (g ++ ['1']) (.int 1) := by
  refine ⟨1, .inl ⟨[.val (.int 1)], .one ?_, rfl⟩⟩
  exact SpOperand.atom (g := g) hg (SpAtom.int (ds := ['1']) (by simp) (by decide))

example (env : Env) : SpUpdate env "UPDATE t SET b = 1 WHERE a = 1".toList ['t'] [("b", .int 1)] (some (.call "eq" [.name "a", .int 1])) :=
  .mk (s1 := " t SET b = 1 WHERE a = 1".toList) (s2 := " SET b = 1 WHERE a = 1".toList) (t := " b = 1".toList) (u := " WHERE a = 1".toList)
    ⟨[], "UPDATE".toList, .nil, rfl, by decide, rfl⟩
    ⟨[' '], ['t'], gap_space, name_t _ (by decide +kernel), fun c hc => by simp at hc; subst hc; decide, by decide, rfl⟩
    ⟨[' '], "SET".toList, gap_space, rfl, by decide, rfl⟩
    (.one (SpAssign.mk (g := [' ']) (t := ['b']) (h := [' ']) (u := " 1".toList) (n := ['b']) gap_space
      (SpName.mk (p := ['b']) (n := ['b']) (t := []) (m := []) (.plain ⟨by decide, 'b', [], rfl, by decide⟩) (by decide +kernel) .nil)
      (after_space .name) (spells_one env gap_space)))
    (where_eq env .lit)

example (env : Env) : SpInsert env "INSERT INTO t VALUES (1)".toList ['t'] [] [[.int 1]] :=
  .mk (s1 := " INTO t VALUES (1)".toList) (s2 := " t VALUES (1)".toList) (s3 := " VALUES (1)".toList) (s4 := " VALUES (1)".toList) (t := " (1)".toList)
    (e := []) ⟨[], "INSERT".toList, .nil, rfl, by decide, rfl⟩ ⟨[' '], "INTO".toList, gap_space, rfl, by decide, rfl⟩
    ⟨[' '], ['t'], gap_space, name_t _ (by decide +kernel), fun c hc => by simp at hc; subst hc; decide, by decide, rfl⟩ .absent
    ⟨[' '], "VALUES".toList, gap_space, rfl, by decide, rfl⟩
    (.one ⟨rfl, .lit, [' '], ['1'], [], gap_space, .one (spells_one env .nil), ⟨.nil, fun _ => by simp⟩, rfl⟩) ⟨.gap .nil, fun _ => by simp⟩

theorem not_opens {w : String} {s : List Char} (hw : Wordy w.toList) (hne : w.toList ≠ []) (h : kw w s = none) : ¬ Opens w s := by
  rw [← kw_opens hw hne, h]; simp

example (env : Env) : SpSelect env "SELECT b FROM t WHERE a = 1".toList [.dict [("value", .str "b")]] [.str "t"]
    (some (.call "eq" [.name "a", .int 1])) :=
  .mk (t := " b".toList) (u := " FROM t WHERE a = 1".toList) (v := " t".toList) (x := " WHERE a = 1".toList) (d := .name) (e := .name)
    ⟨[], "SELECT".toList, .nil, rfl, by decide, rfl⟩ (not_opens (by decide) (by decide) (by decide +kernel)) (.one (.plain (spells_name env) rfl))
    (fun c hc => by simp at hc; subst hc; exact ⟨by decide, fun _ => by decide, fun _ => by decide⟩) ⟨[' '], "FROM".toList, gap_space, rfl, by decide, rfl⟩
    (.one (SpTable.plain (g := [' ']) (t := ['t']) (n := ['t']) gap_space (name_t _ (by decide +kernel)))) (where_eq env .name)

/-! ### What the proxy takes for a comment -/

/-- Two dashes after a number or string: the proxy reads an UPDATE that ends there, without the WHERE that MySQL sees. -/
theorem C68_fails_update (env : Env) (space : Char → Bool) {sql s s1 s2 t b n : List Char} {l : List (String × V)} {c : Char} (ht : Trimmed space sql s)
    (h1 : Kw "update" s s1) (h2 : Nm reservedWords n s1 s2) (h3 : Kw "set" s2 (t ++ '-' :: '-' :: c :: b)) (h4 : SpList (SpAssign env) .lit t l)
    (hl : (l.map Prod.fst).Nodup) (hb : '\n' ∉ c :: b) (hd : dashEnd (c :: b) = false) :
    parse env space sql = .json (.dict [("set", .dict (l.map fun p => (p.1, scrub p.2))), ("update", .str (strOf n))]) ∧
      mskip ('-' :: '-' :: c :: b) = some ('-' :: '-' :: c :: b) :=
  ⟨C70_update_partial env space ht (.mk h1 h2 h3 h4 (.absent ⟨.dashes .nil hb, fun h => by cases h⟩)) hl, (C68_fails_dashes c b hb hd).2⟩

/-- Two dashes after the first condition: the rest of the condition is lost. -/
theorem C68_fails_delete (env : Env) (space : Char → Bool) {sql s s1 s2 s3 g k t b n : List Char} {v : V} {c : Char} (ht : Trimmed space sql s)
    (h1 : Kw "delete" s s1) (h2 : Kw "from" s1 s2) (h3 : Nm reservedWords n s2 s3) (h4 : s3 = g ++ (k ++ (t ++ '-' :: '-' :: c :: b))) (hg : Gap g)
    (hs : Sep .name (g ++ k)) (hk : Word "where" k) (hb' : boundary t = true) (hv : Spells env .lit t v) (hb : '\n' ∉ c :: b) (hd : dashEnd (c :: b) = false) :
    parse env space sql = .json (.dict [("where", scrub v), ("delete", .str (strOf n))]) ∧
      mskip ('-' :: '-' :: c :: b) = some ('-' :: '-' :: c :: b) := by
  subst h4
  exact ⟨C70_delete_partial env space ht (.mk h1 h2 h3 (.given hg hs hk hb' hv ⟨.dashes .nil hb, fun h => by cases h⟩)), (C68_fails_dashes c b hb hd).2⟩

/-- A condition in `/*! .. */`, which MySQL executes: to the proxy the whole table is deleted. -/
theorem C68_fails_hidden (env : Env) (space : Char → Bool) {sql s s1 s2 b n : List Char} (ht : Trimmed space sql s) (h1 : Kw "delete" s s1)
    (h2 : Kw "from" s1 s2) (h3 : Nm reservedWords n s2 (' ' :: '/' :: '*' :: '!' :: (b ++ ['*', '/']))) (hb : closed (b ++ ['*']) = false) :
    parse env space sql = .json (.dict [("delete", .str (strOf n))]) ∧
      mskip ('/' :: '*' :: '!' :: (b ++ ['*', '/'])) = some ('/' :: '*' :: '!' :: (b ++ ['*', '/'])) := by
  refine ⟨C70_delete_partial env space ht (.mk h1 h2 h3 (.absent ⟨.gap ?_, fun _ => by simp⟩)), (C68_fails_executed b [] hb).2⟩
  exact .white (by decide) (Gap.block (b := '!' :: b) (g := []) (by simpa [closed] using hb) .nil)

/-! ### Words -/

/-- The options of a SELECT that the grammar does not know. -/
def selectOptions : List String :=
  ["SQL_NO_CACHE", "SQL_CALC_FOUND_ROWS", "SQL_SMALL_RESULT", "SQL_BIG_RESULT", "SQL_BUFFER_RESULT", "HIGH_PRIORITY", "STRAIGHT_JOIN", "DISTINCTROW"]

/-- An option is taken for a column and the column for its alias. -/
theorem C70_fails_option (env : Env) (space : Char → Bool) {sql a : List Char} {w : String} (hw : w ∈ selectOptions) (ha : Plain a)
    (hno : ∀ v ∈ noAliases, ¬ Word v a) (ht : Trimmed space sql ("SELECT ".toList ++ (w.toList ++ ' ' :: (a ++ " FROM t".toList)))) :
    parse env space sql = .json (.dict [("select", .dict [("value", .str w), ("name", .str (strOf a))]), ("from", .str "t")]) := by
  have hp : Plain w.toList ∧ (∀ v ∈ noNames, ¬ Word v w.toList) ∧ w ≠ "*" := by
    refine ⟨⟨?_, ?_⟩, ?_, ?_⟩
    · clear ht; revert hw; revert w; decide
    · have : ∀ w ∈ selectOptions, ∃ c, w.toList.head? = some c ∧ c.isDigit = false := by decide
      obtain ⟨c, h1, h2⟩ := this w hw
      exact ⟨c, w.toList.tail, by cases hx : w.toList with | nil => rw [hx] at h1; cases h1 | cons y z => rw [hx] at h1; simp at h1; rw [h1]; rfl, h2⟩
    · clear ht; revert hw; revert w; decide +kernel
    · clear ht; revert hw; revert w; decide
  have hname : SpName noNames w.toList w.toList := by
    have := SpName.mk (t := []) (m := []) (.plain hp.1) hp.2.1 .nil
    simpa using this
  have hal : SpName noAliases a a := by
    have := SpName.mk (t := []) (m := []) (.plain ha) hno .nil
    simpa using this
  have hsp : Spells env .name (' ' :: w.toList) (.name w) := by
    refine ⟨1, .inl ⟨[.val (.name w)], .one ?_, rfl⟩⟩
    have := SpAtom.name (env := env) (Ex := SpExpr env 0) hname
    rw [show strOf w.toList = w from String.ofList_toList] at this
    exact SpOperand.atom (g := [' ']) gap_space this
  have hitem : SpItem env .name (' ' :: w.toList ++ ' ' :: a) (.dict [("value", .str w), ("name", .str (strOf a))]) := by
    refine .named hsp (SpAlias.bare (g := [' ']) (t := a) (by simp) (after_space .name) hal) ?_
    rw [columnJson, if_neg hp.2.2]
    rfl
  refine C70_select_partial env space (w := none) (cols := [_]) (tables := [_]) ht (.mk (t := ' ' :: w.toList ++ ' ' :: a) (u := " FROM t".toList) (v := " t".toList)
    (x := []) (d := .name) (e := .name) ⟨[], "SELECT".toList, .nil, rfl, rfl, ?_⟩ ?_ (.one hitem)
    (fun c hc => by simp at hc; subst hc; exact ⟨by decide, fun _ => by decide, fun _ => by decide⟩) ⟨[' '], "FROM".toList, gap_space, rfl, by decide, rfl⟩
    (.one (SpTable.plain (g := [' ']) (t := ['t']) (n := ['t']) gap_space (name_t _ (by decide +kernel)))) (.absent ⟨.gap .nil, fun _ => by simp⟩))
  · simp
  · refine not_opens (by decide) (by decide) ?_
    have htop : ∀ v ∈ ["top"], ¬ Word v w.toList := (by decide +kernel : ∀ w ∈ selectOptions, ∀ v ∈ ["top"], ¬ Word v w.toList) w hw
    have hB : Begins ["top"] (' ' :: w.toList ++ ' ' :: a ++ " FROM t".toList) := by
      have h := begins_word (no := ["top"]) (n := w.toList) (r := ' ' :: (a ++ " FROM t".toList)) hp.1.1 (by obtain ⟨_, c, r, h, _⟩ := hp.1; rw [h]; simp) rfl htop
      have := h.gap gap_space
      simpa using this
    exact hB.kw (by decide) (by decide)

/-- Names in MySQL that the grammar reserves. -/
def lostNames : List String := ["end", "offset", "nocase", "minus", "full", "within"]

/-- A table with such a name cannot be used. -/
theorem C70_fails_reserved (env : Env) (space : Char → Bool) {sql s s1 s2 s3 : List Char} {w : String} (hw : w ∈ lostNames) (ht : Trimmed space sql s)
    (h1 : Kw "delete" s s1) (h2 : Kw "from" s1 s2) (h3 : Kw w s2 s3) : parse env space sql = .rejected := by
  have hn : varName s2 = .fail := by
    obtain ⟨a, b, c⟩ : Wordy w.toList ∧ w.toList ≠ [] ∧ w ∈ reservedWords := by revert hw; clear h3; revert w; decide
    rw [varName, h3.any a b c]; rfl
  have : statement env s = .fail := by
    rw [statement, h1.other (by decide) (by decide) (by decide), h1.lit (by decide) (by decide) "(" (d := '(') (l := []) rfl (by decide),
      h1.other (by decide) (by decide) (by decide), h1.other (by decide) (by decide) (by decide), h1.other (by decide) (by decide) (by decide)]
    simp only [Option.isSome_none, Bool.or_self, Bool.false_eq_true, if_false]
    rw [deleteStmt, h1.read (by decide) (by decide)]
    simp only
    rw [h2.read (by decide) (by decide)]
    simp only [hn]
  rw [parse, ht.strip, this]

/-- A column assigned twice: both values are kept, in a list. -/
theorem C70_fails_twice (k : String) (v w : V) : setJson [(k, v), (k, w)] = .dict [(k, listJson (scrubs [v, w]))] := by
  simp [setJson, setDict, addTo]

/-! ### A dash between names -/

theorem simpleTail_dash {b : List Char} (r : List Char) (hb : ∀ c ∈ b.head?, dashSide c = true) (hbn : b ≠ []) : ∀ (a : List Char) (p : Char), Wordy a →
    (∀ c, (p :: a).getLast? = some c → dashSide c = true) → '-' ∈ (simpleTail p (a ++ '-' :: (b ++ r))).1
  | [], p, _, h => by
    obtain ⟨c, b', rfl⟩ := List.exists_cons_of_ne_nil hbn
    have hp := h p rfl
    have hc := hb c (by simp)
    rw [List.nil_append, simpleTail, if_neg (by decide), if_pos ⟨rfl, hp, by simp [hc]⟩]
    simp
  | x :: a, p, hw, h => by
    rw [List.cons_append, simpleTail, if_pos (identChar_of_key (hw x (by simp)))]
    refine List.mem_cons_of_mem _ (simpleTail_dash r hb hbn a x (fun c hc => hw c (by simp [hc])) fun c hc => h c ?_)
    rw [List.getLast?_cons_cons]; exact hc

/-- `a-b`, the difference of two columns, is no name, and no expression. -/
theorem C70_fails_dash (env : Env) (n : Nat) {a b g : List Char} (r : List Char) (ha : Plain a) (hno : ∀ w ∈ noNames, ¬ Word w a)
    (hal : ∀ c, a.getLast? = some c → c.isDigit = false) (hb : Plain b) (hg : Gap g) : expr env (n + 1) (g ++ (a ++ '-' :: (b ++ r))) = .fail := by
  obtain ⟨hw, c, a', rfl, hcd⟩ := ha
  have hk : keyChar c = true := hw c (by simp)
  have hne : ∀ d, keyChar d = false → c ≠ d := fun d hd hx => by rw [← hx, hk] at hd; cases hd
  obtain ⟨s, hs⟩ : ∃ s, s = g ++ (c :: a' ++ '-' :: (b ++ r)) := ⟨_, rfl⟩
  have hB : Begins noNames s := by rw [hs]; exact (begins_word hw (by simp) (by rfl) hno).gap hg
  have hskip : skip s = c :: (a' ++ '-' :: (b ++ r)) := by rw [hs, hg.skip]; exact skip_solid (solidChar_of_key hk) _
  have hpre : ∀ n, prefixes n s = ([], s)
    | 0 => rfl
    | n + 1 => by
      rw [prefixes, lit_ne "-" (d := '-') (l := []) rfl hskip (hne _ (by decide)), lit_ne "~" (d := '~') (l := []) rfl hskip (hne _ (by decide)),
        hB.kw (by decide) (by decide)]
  have hident : identAt (skip s) = .fail := by
    have hdash : '-' ∈ (simpleTail c (a' ++ '-' :: (b ++ r))).1 := by
      obtain ⟨hbw, d, b', rfl, hd⟩ := hb
      refine simpleTail_dash r ?_ (by simp) a' c (fun x hx => hw x (by simp [hx])) ?_
      · intro x hx
        simp at hx
        subst hx
        have := hbw d (by simp)
        have h2 : d ≠ ' ' := by rintro rfl; exact absurd this (by decide)
        simp [dashSide, hd, h2]
      · intro x hx
        have h1 := hal x hx
        have h2 := hw x (List.mem_of_getLast? hx)
        have h3 : x ≠ ' ' := by rintro rfl; exact absurd h2 (by decide)
        simp [dashSide, h1, h3]
    rw [hskip, identAt, part, if_neg (hne _ (by decide)), if_neg (hne _ (by decide)), simple,
      if_pos (by simp [firstChar, identChar_of_key hk, hcd]), if_pos hdash]
  have hatom : atom env (expr env n) s = .fail := by
    rw [atom, hB.kw (by decide) (by decide), hB.anyKw (by decide), hskip]
    simp only [Bool.false_eq_true, if_false]
    rw [if_neg (hne _ (by decide)), if_neg (hne _ (by decide)), if_neg (by rintro (h | h); exact hne _ (by decide) h; exact hne _ (by decide) h),
      if_neg (by rintro (h | h | h | h); (rw [h] at hcd; cases hcd); exact hne _ (by decide) h; exact hne _ (by decide) h; exact hne _ (by decide) h),
      nameOrCall, hident]
  rw [← hs, expr, lit_ne "*" (d := '*') (l := []) rfl hskip (hne _ (by decide)), run, modified, hpre, hatom]

/-- Such a column of a SELECT: the statement is rejected. -/
theorem C70_fails_dash_select (env : Env) (space : Char → Bool) {sql s a b g : List Char} (r : List Char) (ht : Trimmed space sql s)
    (h1 : Kw "select" s (g ++ (a ++ '-' :: (b ++ r)))) (ha : Plain a) (hno : ∀ w ∈ "top" :: noNames, ¬ Word w a)
    (hal : ∀ c, a.getLast? = some c → c.isDigit = false) (hb : Plain b) (hg : Gap g) : parse env space sql = .rejected := by
  have hB : Begins ("top" :: noNames) (g ++ (a ++ '-' :: (b ++ r))) :=
    (begins_word ha.1 (by obtain ⟨_, c, r, h, _⟩ := ha; rw [h]; simp) (by rfl) hno).gap hg
  have hx := C70_fails_dash env s.length r ha (fun w hw => hno w (by simp [hw])) hal hb hg
  have : statement env s = .fail := by
    rw [statement, h1.other (by decide) (by decide) (by decide), h1.lit (by decide) (by decide) "(" (d := '(') (l := []) rfl (by decide),
      h1.any (by decide) (by decide) (by decide)]
    simp only [Option.isSome_none, Bool.or_self, Bool.false_eq_true, if_false, if_true]
    rw [selectStmt, h1.read (by decide) (by decide)]
    simp only [hB.anyKw (ws := ["distinct", "top"]) (by decide), Bool.false_eq_true, if_false, listOf, selectColumn, hx]
  rw [parse, ht.strip, this]

example : Plain "total".toList ∧ (∀ w ∈ "top" :: noNames, ¬ Word w "total".toList) ∧ (∀ c, "total".toList.getLast? = some c → c.isDigit = false) :=
  ⟨⟨by decide, 't', "otal".toList, rfl, by decide⟩, by decide +kernel, by decide⟩

/-! ### Trees -/

/-- The tree of a run whose operators nest by level is the tree that was meant. -/
theorem C70_tree_partial {l : List F} {e : T} (h : runItems 0 l = flat e) (he : WL e) : runV l = treeV (runVals l) e := by
  rw [runV, h, makeTree_flat he]; rfl

example : runItems 0 [.val (.name "a"), .bin .add, .val (.name "b"), .bin .mul, .val (.int 2)] =
    flat (.bin .add (.atom "0") (.bin .mul (.atom "1") (.atom "2"))) := rfl

end EulerDB.Sql
