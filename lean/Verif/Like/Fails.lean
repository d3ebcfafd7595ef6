/-
C88: what is refused, what is found wrongly, and a session.
-/
import Verif.Like.Props

namespace EulerDB.Like

open EulerDB EulerDB.Clause EulerDB.Delta EulerDB.Whole

/-! ### What is refused -/

theorem where_refused {c : Crypto} {db : Db} {t n p : String} {tm : TableMeta ColMeta} {cm : ColMeta} (ht : Dict.get? db t = some tm)
    (hc : Dict.get? tm.columns n = some cm) (hp : cm.plaintext = false) (h : Dict.get? cm.encCols "fuzzy" = none ∨ ∃ w ∈ Fuzzy.words p.toList, w.length < 3) :
    ∃ e, whereRw c db (.str t) "symmetric" "" (likeJson n p) = .error e := by
  cases hj : whereRw c db (.str t) "symmetric" "" (likeJson n p) with
  | error e => exact ⟨e, rfl⟩
  | ok j =>
    obtain ⟨b, q, hb, hq, _⟩ := C27_like_partial c db t n p tm cm j ht hc hp hj
    rcases h with h | ⟨w, hw, h3⟩
    · rw [h] at hb; cases hb
    · exfalso
      cases hx : Fuzzy.likeRewrite c.alnum (c.aes cm.key) p.toList with
      | error e => simp [Crypto.like, hx, Except.map] at hq
      | ok r =>
        have := (Fuzzy.C08_pattern_accepted_iff c.alnum (c.aes cm.key) p.toList).1 ⟨r, hx⟩ w hw
        omega

/-- **C88, refusals.** If the column is encrypted and has no fuzzy column, or a word of the pattern has fewer than three characters, the DELETE is refused: nothing is
deleted. -/
theorem C88_delete_refused {P : Proxy} {res : List Char → Bool} {sch : Nulls.Schema} {st : Tables} {sql : List Char} {t n p : String} {tm : TableMeta ColMeta}
    {cm : ColMeta} (hs : Says P.env P.space sql (.delete t n p)) (ht : Dict.get? P.db t = some tm) (hc : Dict.get? tm.columns n = some cm)
    (hp : cm.plaintext = false) (h : Dict.get? cm.encCols "fuzzy" = none ∨ ∃ w ∈ Fuzzy.words p.toList, w.length < 3) : serve P res sch st sql = none := by
  have hpar := parsed_says hs (u := .delete t n p) trivial
  obtain ⟨e, he⟩ := where_refused (c := P.c) ht hc hp h
  have htab : tableOf P.db t = .ok tm := getItem_ok.2 ht
  have : ∃ e, rewriteQuery P.c P.db P.fuel (deleteJ t (likeJson n p)) = .error e := by
    simp (decide := true) [rewriteQuery, deleteJ, findTable, tableKeys, Dict.get?_cons, clauseKeys, clauseLoop, stepKey, anonRw,
      tableOfJson, htab, Except.map, Dict.set, Dict.get?, he]
  obtain ⟨e, he⟩ := this
  have : P.send sql = .error e := by
    rw [LUStmt.json] at hpar
    simp [Proxy.send, hpar, he]
  simp [serve, this]

theorem C88_select_refused {P : Proxy} {res : List Char → Bool} {sch : Nulls.Schema} {st : Tables} {sql : List Char} {t n p : String} {ns : List String}
    {tm : TableMeta ColMeta} {cm : ColMeta} (hs : Says P.env P.space sql (.select t ns n p)) (ht : Dict.get? P.db t = some tm) (hpl : PlainTable t) (hns : ns ≠ [])
    (hr : ∀ n ∈ ns, Readable tm.columns n) (hc : Dict.get? tm.columns n = some cm)
    (hp : cm.plaintext = false) (h : Dict.get? cm.encCols "fuzzy" = none ∨ ∃ w ∈ Fuzzy.words p.toList, w.length < 3) : serve P res sch st sql = none := by
  have hpar := parsed_says hs (u := .select t ns n p) hns
  obtain ⟨e, he⟩ := where_refused (c := P.c) ht hc hp h
  have htab : tableOf P.db t = .ok tm := getItem_ok.2 ht
  have hcr := cols_rewritten ht hr
  have hf : ∀ s, fromOuter P.c P.db (rewriteClause P.c P.db P.fuel) (.str t) (.str t) s = .ok (.str tm.anonymous, s) := by
    intro s
    unfold PlainTable at hpl
    simp [fromOuter, fromInner, hpl, fromRw, htab, Except.map]
  have : ∃ e, rewriteQuery P.c P.db P.fuel (selectJ (colsIn ns) t (likeJson n p)) = .error e := by
    simp (decide := true) [rewriteQuery, selectJ, findTable, tableKeys, Dict.get?_cons, clauseKeys, clauseLoop, stepKey, Dict.set, Dict.get?, hcr, hf, he]
  obtain ⟨e, he⟩ := this
  have : P.send sql = .error e := by
    rw [LUStmt.json] at hpar
    simp [Proxy.send, hpar, he]
  simp [serve, this]

/-! ### What fails -/

/-- **C88 fails for NOT LIKE:** it is sent with the client's column and the pattern as they were written. -/
theorem C88_fails_not_like (c : Crypto) (db : Db) (t n p : String) :
    whereRw c db (.str t) "symmetric" "" (.dict [("not_like", .list [.str n, Json.lit p])]) = .ok (.dict [("not_like", .list [.str n, Json.lit p])]) :=
  C27_fails_other_operators c db _ _ _ _ _ (by decide)

section
variable {c : Crypto} (hN : c.alnum '\x00' = false) {db : Db} {t n : String} {tm : TableMeta ColMeta} {cm : ColMeta} (ht : Dict.get? db t = some tm)
  (hc : Dict.get? tm.columns n = some cm) (hp : cm.plaintext = false)
include hN ht hc hp

/-- **C88 fails for alphanumeric words in other texts:** `LIKE '%world%'` does not find `hello world`. -/
theorem C88_fails_hello_world (hsp : c.alnum ' ' = false) (hw : ∀ x ∈ "world".toList, c.alnum x = true) {row : PRow}
    (hv : Dict.get? row n = some (.text "hello world")) : meant t n "%world%" row = true ∧ found c db t n "%world%" row = false := by
  have hm : meant t n "%world%" row = true := by
    rw [meant, hv]
    simp only [Val.str]
    decide
  refine ⟨hm, ?_⟩
  rw [C88_one_word hN ht hc hp (p := "%world%") (w := "world".toList) (by decide) (by decide) (by decide) hv]
  have h1 : Fuzzy.strAlnum c.alnum (Val.text "hello world").str = false := by
    simp [Val.str, Fuzzy.strAlnum, hsp]
  have h2 : Fuzzy.strAlnum c.alnum "world".toList = true := by
    rw [Fuzzy.strAlnum, Bool.and_eq_true, List.all_eq_true]
    exact ⟨by decide, hw⟩
  rw [h1, h2]
  simp

/-- **C88 fails for `_`:** it is encrypted as a character of the word, so that `LIKE 'a_c'` does not find `abc`. -/
theorem C88_fails_underscore {row : PRow} (hv : Dict.get? row n = some (.text "abc")) :
    meant t n "a_c" row = true ∧ found c db t n "a_c" row = false := by
  constructor
  · rw [meant, hv]
    simp only [Val.str]
    decide
  · rw [← Bool.not_eq_true]
    intro hf
    obtain ⟨v, hv', h⟩ := C88_words_occur_partial hN ht hc hp hf
    rw [hv] at hv'
    injection hv' with hv'
    subst hv'
    have hw := h "a_c".toList (by decide)
    have : '_' ∈ "abc".toList := hw.subset (by decide)
    revert this
    decide

/-- **C88 fails for words that overlap:** `LIKE '%abc%bcd%'` finds `abcd`. -/
theorem C88_fails_overlap (ha : ∀ x ∈ "abcd".toList, c.alnum x = true) {row : PRow} (hv : Dict.get? row n = some (.text "abcd")) :
    meant t n "%abc%bcd%" row = false ∧ found c db t n "%abc%bcd%" row = true := by
  obtain ⟨h1, q, e, hq, he, hl⟩ := Fuzzy.C09_fails_overlap c.alnum hN ha (c.aes cm.key)
  obtain ⟨q', e', hq', he', hf⟩ := found_enc (c := c) ht hc hp (p := "%abc%bcd%") (by decide) hv
  rw [hq] at hq'
  injection hq' with hq'
  have : Fuzzy.fuzzyEncrypt c.alnum (c.aes cm.key) "abcd".toList = .ok e' := he'
  rw [he] at this
  injection this with this
  refine ⟨?_, by rw [hf, ← hq', ← this]; exact hl⟩
  rw [meant, hv]
  exact h1

end

/-! ### A session -/

instance : DecidablePred Format.pyPlain := fun c => by unfold Format.pyPlain; infer_instance

/-- Column `a` is encrypted and can be searched, column `b` is not encrypted. -/
def demoL : TableMeta ColMeta :=
  ⟨"table_0", [("a", ⟨false, "varchar(20)", "k", [("fuzzy", "a_f"), ("symmetric", "a_s")], none, none, none⟩), ("b", ⟨true, "int", "", [], none, none, none⟩)], none⟩

def proxyL (env : Sql.Env) (space : Char → Bool) (w : Writer) (repr : Json → String) : Proxy :=
  { demoProxy env space w repr with db := [("t", demoL)], c := { demoCrypto with alnum := Char.isAlphanum } }

def namesL : List String := ["table_0", "a_f", "a_s", "b"]

def schemaL : Nulls.Schema := fun t => if t = "table_0" then some ["a_f", "a_s", "b"] else none

theorem bareL {w : Writer} {res : List Char → Bool} (h : ∀ s ∈ namesL, w.kw s.toList = false ∧ res s.toList = false) : ∀ s ∈ namesL, Bare w res s := by
  intro s hs
  have hc : ∀ s ∈ namesL, (∀ c ∈ s.toList, c.isAlphanum = true ∨ c = '_') ∧ (∀ c ∈ s.toList.head?, Format.letter c = true) ∧ s.toList ≠ [] := by decide
  obtain ⟨h1, h2, h3⟩ := hc s hs
  exact ⟨h1, h2, h3, (h s hs).1, (h s hs).2⟩

theorem tabL {env : Sql.Env} {space : Char → Bool} {w : Writer} {repr : Json → String} {t : String} {tm : TableMeta ColMeta}
    (h : Dict.get? (proxyL env space w repr).db t = some tm) : t = "t" ∧ tm = demoL := by
  have := Dict.mem_of_get? h
  simpa [proxyL] using this

theorem colL {n : String} {cm : ColMeta} (h : Dict.get? demoL.columns n = some cm) :
    (n = "a" ∧ cm = ⟨false, "varchar(20)", "k", [("fuzzy", "a_f"), ("symmetric", "a_s")], none, none, none⟩) ∨ (n = "b" ∧ cm = ⟨true, "int", "", [], none, none, none⟩) := by
  have := Dict.mem_of_get? h
  simpa [demoL] using this

theorem soundL {env : Sql.Env} {space : Char → Bool} {w : Writer} {repr : Json → String} {res : List Char → Bool}
    (h : ∀ s ∈ namesL, w.kw s.toList = false ∧ res s.toList = false) : Sound (proxyL env space w repr) res where
  depth := ⟨0, rfl⟩
  hom := by intro k z; simp [proxyL, demoProxy, demoCrypto]
  tables := by
    intro t t' tm tm' h1 h2 _
    rw [(tabL h1).1, (tabL h2).1]
  named := by
    intro t tm h1
    obtain ⟨rfl, rfl⟩ := tabL h1
    have hb := bareL h
    refine ⟨hb _ (by decide), ?_, ?_⟩
    · intro n cm hc hp
      rcases colL hc with ⟨rfl, rfl⟩ | ⟨rfl, rfl⟩
      · cases hp
      · exact hb _ (by decide)
    · intro n cm hc hp e b he
      rcases colL hc with ⟨rfl, rfl⟩ | ⟨rfl, rfl⟩
      · simp only [List.mem_cons, Prod.mk.injEq, List.not_mem_nil, or_false] at he
        rcases he with ⟨rfl, rfl⟩ | ⟨rfl, rfl⟩
        · exact hb _ (by decide)
        · exact hb _ (by decide)
      · cases hp
  known := by
    intro t tm h1 n cm hc hp
    obtain ⟨rfl, rfl⟩ := tabL h1
    rcases colL hc with ⟨rfl, rfl⟩ | ⟨rfl, rfl⟩
    · decide
    · cases hp
  stored := by
    intro t tm h1 n cm hc hp
    obtain ⟨rfl, rfl⟩ := tabL h1
    rcases colL hc with ⟨rfl, rfl⟩ | ⟨rfl, rfl⟩
    · simp
    · cases hp
  names := by
    intro t tm h1
    obtain ⟨rfl, rfl⟩ := tabL h1
    decide

theorem shapedL (env : Sql.Env) (space : Char → Bool) (w : Writer) (repr : Json → String) : Nulls.Shaped (proxyL env space w repr) schemaL := by
  intro t tm h
  obtain ⟨rfl, rfl⟩ := tabL h
  refine ⟨["a_f", "a_s", "b"], rfl, fun b => ?_⟩
  rw [show (∃ n ∈ Dict.keys demoL.columns, b ∈ targets demoL.columns n) ↔ b ∈ (Dict.keys demoL.columns).flatMap (targets demoL.columns) from List.mem_flatMap.symm,
    show (Dict.keys demoL.columns).flatMap (targets demoL.columns) = ["a_f", "a_s", "b"] from by decide]

open Sql in
/-- A text in single quotes. -/
theorem spells_str (env : Env) {g : List Char} (hg : Gap g) {s : List Char} (hs : ∀ c ∈ s, Format.pyPlain c ∧ c ≠ '\'') :
    Spells env .shut (g ++ '\'' :: (s ++ ['\''])) (.lit (strOf s)) := by
  refine ⟨1, .inl ⟨[.val (.lit (strOf s))], .one ?_, rfl⟩⟩
  have h1 : Format.written (s.map Format.Part.ch) = s := by simp [Format.written, List.flatMap_map, Format.Part.text]
  have h2 : Format.meant (s.map Format.Part.ch) = s := by simp [Format.meant, List.flatMap_map, Format.Part.value]
  have := SpAtom.str (env := env) (Ex := SpExpr env 0) (l := s.map Format.Part.ch) (by
    intro p hp
    obtain ⟨c, hc, rfl⟩ := List.mem_map.1 hp
    exact hs c hc)
  rw [h1, h2] at this
  exact SpOperand.atom hg this

open Sql in
theorem spells_like (env : Env) {s : List Char} (hs : ∀ c ∈ s, Format.pyPlain c ∧ c ≠ '\'') :
    Spells env .shut (" a LIKE '".toList ++ (s ++ ['\''])) (.call "like" [.name "a", .lit (strOf s)]) := by
  refine ⟨1, .inl ⟨[.val (.name "a"), .bin .like, .val (.lit (strOf s))], ?_, rfl⟩⟩
  have ha : SpAtom env (SpExpr env 0) .name ['a'] (.name "a") :=
    .name (SpName.mk (p := ['a']) (n := ['a']) (t := []) (m := []) (.plain ⟨by decide, 'a', [], rfl, by decide⟩) (by decide +kernel) .nil)
  have h1 : Format.written (s.map Format.Part.ch) = s := by simp [Format.written, List.flatMap_map, Format.Part.text]
  have h2 : Format.meant (s.map Format.Part.ch) = s := by simp [Format.meant, List.flatMap_map, Format.Part.value]
  have hl := SpAtom.str (env := env) (Ex := SpExpr env 0) (l := s.map Format.Part.ch) (by
    intro p hp
    obtain ⟨c, hc, rfl⟩ := List.mem_map.1 hp
    exact hs c hc)
  rw [h1, h2] at hl
  exact SpRun.cons (t := " a".toList) (g := [' ']) (w := "LIKE".toList) (u := ' ' :: '\'' :: (s ++ ['\''])) (m := [.val (.name "a")]) (l := [.val (.lit (strOf s))])
    (SpOperand.atom (g := [' ']) gap_space ha) gap_space (fun c hc => by simp at hc; subst hc; exact ⟨by decide, fun _ => by decide, fun _ => by decide⟩)
    (SpOp.word (ws := ["like"]) (by decide) (.one (by decide)) (by rfl) (fun h => absurd h (by decide))) (.one (SpOperand.atom (g := [' ']) gap_space hl))

open Sql in
theorem says_like (env : Env) {s : List Char} (hs : ∀ c ∈ s, Format.pyPlain c ∧ c ≠ '\'') (htop : kw "top" (" b FROM t WHERE a LIKE '".toList ++ (s ++ ['\''])) = none) :
    Says env spc ("SELECT b FROM t WHERE a LIKE '".toList ++ (s ++ ['\''])) (.select "t" ["b"] "a" (strOf s)) := by
  refine Says.select (ns := ["b"]) (t := "t") (v := .call "like" [.name "a", .lit (strOf s)]) (trimmed_self fun c hc => ?_) ?_ rfl
  · rw [← List.append_assoc, List.getLast?_concat] at hc
    injection hc with hc
    subst hc
    decide
  have hw : SpWhere env .name (" WHERE a LIKE '".toList ++ (s ++ ['\''])) (some (.call "like" [.name "a", .lit (strOf s)])) := by
    have := SpWhere.given (g := [' ']) (w := "WHERE".toList) (e := []) (d := .name) gap_space
      (fun c hc => by simp at hc; subst hc; exact ⟨by decide, fun _ => by decide, fun _ => by decide⟩) rfl (by rfl) (spells_like env hs)
      ⟨.gap .nil, fun _ => by simp⟩
    simpa using this
  exact .mk (t := " b".toList) (u := " FROM t WHERE a LIKE '".toList ++ (s ++ ['\''])) (v := " t".toList) (x := " WHERE a LIKE '".toList ++ (s ++ ['\''])) (d := .name) (e := .name)
    ⟨[], "SELECT".toList, .nil, rfl, by rfl, rfl⟩ (not_opens (by decide) (by decide) htop) (.one (.plain (spells_name env) rfl))
    (fun c hc => by simp at hc; subst hc; exact ⟨by decide, fun _ => by decide, fun _ => by decide⟩) ⟨[' '], "FROM".toList, gap_space, rfl, by rfl, rfl⟩
    (.one (SpTable.plain (g := [' ']) (t := ['t']) (n := ['t']) gap_space (name_t _ (by decide +kernel)))) hw

open Sql in
theorem says_hello (env : Env) :
    Says env spc "INSERT INTO t (a, b) VALUES ('hello world', 1)".toList (.plain (.insert "t" [("a", .text "hello world"), ("b", .int 1)])) := by
  refine Says.plain ?_
  refine Whole.Says.insert (n := ['t']) (cols := [['a'], ['b']]) (vs := [.lit "hello world", .int 1]) (trimmed_self fun c hc => by simp at hc; subst hc; decide) ?_ rfl rfl
  have ha : SpName reservedWords ['a'] ['a'] := SpName.mk (t := []) (m := []) (.plain ⟨by decide, 'a', [], rfl, by decide⟩) (by decide +kernel) .nil
  have hb : SpName reservedWords ['b'] ['b'] := SpName.mk (t := []) (m := []) (.plain ⟨by decide, 'b', [], rfl, by decide⟩) (by decide +kernel) .nil
  have h0 : ∀ d, After d [] := fun d => ⟨.nil, fun _ => by simp⟩
  exact .mk (s1 := " INTO t (a, b) VALUES ('hello world', 1)".toList) (s2 := " t (a, b) VALUES ('hello world', 1)".toList)
    (s3 := " (a, b) VALUES ('hello world', 1)".toList) (s4 := " VALUES ('hello world', 1)".toList) (t := " ('hello world', 1)".toList) (e := [])
    ⟨[], "INSERT".toList, .nil, rfl, by decide, rfl⟩ ⟨[' '], "INTO".toList, gap_space, rfl, by decide, rfl⟩
    ⟨[' '], ['t'], gap_space, name_t _ (by decide +kernel), fun c hc => by simp at hc; subst hc; decide, by decide, rfl⟩
    (.given (g := [' ']) (t := "a, b".toList) (h := []) gap_space
      (SpList.cons (t := ['a']) (g := []) (u := " b".toList) ⟨rfl, [], ['a'], .nil, ha, rfl⟩ (h0 _) (.one ⟨rfl, [' '], ['b'], gap_space, hb, rfl⟩)) (h0 _))
    ⟨[' '], "VALUES".toList, gap_space, rfl, by decide, rfl⟩
    (.one ⟨rfl, .lit, [' '], "'hello world', 1".toList, [], gap_space,
      SpList.cons (t := "'hello world'".toList) (g := []) (u := " 1".toList) (spells_str env .nil (s := "hello world".toList) (by decide)) (h0 _)
        (.one (spells_one env gap_space)), h0 _, rfl⟩)
    ⟨.gap .nil, fun _ => by simp⟩

def stmtsL : List LUStmt :=
  [.plain (.insert "t" [("a", .text "hello world"), ("b", .int 1)]), .select "t" ["b"] "a" "%lo wo%", .select "t" ["b"] "a" "%world%"]

theorem fineL (env : Sql.Env) (space : Char → Bool) (w : Writer) (repr : Json → String) : ∀ u ∈ stmtsL, Fine (proxyL env space w repr).db u := by
  have hb : Readable demoL.columns "b" := ⟨by simp, by decide, _, _, rfl, rfl⟩
  have hsel : ∀ p : String, (∀ w ∈ Fuzzy.words p.toList, 3 ≤ w.length) → Fine (proxyL env space w repr).db (.select "t" ["b"] "a" p) := by
    intro p hp
    refine ⟨demoL, rfl, by simp [PlainTable, pyIn, isSub]; decide, by simp, ?_, ⟨_, rfl, (fun h => by cases h), fun _ => ⟨⟨_, rfl⟩, hp⟩⟩⟩
    intro n hn
    simp only [List.mem_singleton] at hn
    subst hn
    exact hb
  intro u hu
  simp only [stmtsL, List.mem_cons, List.not_mem_nil, or_false] at hu
  rcases hu with rfl | rfl | rfl
  · refine ⟨demoL, rfl, by simp, by decide, ?_⟩
    intro e he
    simp only [List.mem_cons, List.not_mem_nil, or_false] at he
    rcases he with rfl | rfl
    · refine ⟨_, rfl, ⟨by decide, by decide, by decide, by simp [Aes.EndsInNul]⟩, ?_, fun s _ h => by cases h⟩
      intro enc h
      simp only [Dict.keys, List.map_cons, List.map_nil, List.mem_cons, List.not_mem_nil, or_false] at h
      rcases h with rfl | rfl <;> simp
    · refine ⟨_, rfl, rfl, ?_, fun s h => by cases h⟩
      intro enc h
      simp [Dict.keys] at h
  · exact hsel _ (by decide)
  · exact hsel _ (by decide)

/-- The row that was inserted is found by `%lo wo%` and missed by `%world%`. -/
example (env : Sql.Env) (w : Writer) (repr : Json → String) (res : List Char → Bool) (h : ∀ s ∈ namesL, w.kw s.toList = false ∧ res s.toList = false) :
    ∃ bst', session (proxyL env spc w repr) res schemaL [("table_0", [])]
      ["INSERT INTO t (a, b) VALUES ('hello world', 1)".toList, "SELECT b FROM t WHERE a LIKE '%lo wo%'".toList, "SELECT b FROM t WHERE a LIKE '%world%'".toList] =
        some (bst', [[], [[.int 1]], []]) := by
  have hR : Nulls.Rel (proxyL env spc w repr) [("t", [])] [("table_0", [])] :=
    fun t tm ht => by obtain ⟨rfl, rfl⟩ := tabL ht; exact ⟨[], [], rfl, rfl, .nil⟩
  obtain ⟨bst', hs, _⟩ := C88_session_partial (soundL (env := env) (space := spc) (repr := repr) h) (shapedL env spc w repr) hR (us := stmtsL)
    (.cons (says_hello env) (.cons (says_like env (s := "%lo wo%".toList) (by decide) (by decide +kernel))
      (.cons (says_like env (s := "%world%".toList) (by decide) (by decide +kernel)) .nil))) (fineL env spc w repr)
  refine ⟨bst', ?_⟩
  have e : (psession (found (proxyL env spc w repr).c (proxyL env spc w repr).db) [("t", [])] stmtsL).2 = [[], [[.int 1]], []] := by
    show (psession (found { demoCrypto with alnum := Char.isAlphanum } [("t", demoL)]) [("t", [])] stmtsL).2 = _
    decide +kernel
  rw [e] at hs
  exact hs

end EulerDB.Like
