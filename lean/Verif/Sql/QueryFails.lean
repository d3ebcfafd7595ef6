/-
C86: a spelled query, and a join whose condition is lost.
-/
import Verif.Sql.QueryExtends
import Verif.Sql.StmtFails

namespace EulerDB.Sql

open EulerDB EulerDB.Parse

theorem sep_space (d : Edge) (r : List Char) : Sep d (' ' :: r) := fun c hc => by
  simp at hc; subst hc; exact ⟨by decide, fun _ => by decide, fun _ => by decide⟩

/-! ### A spelled query -/

def demoQuery : String := "SELECT DISTINCT b FROM t JOIN t ON a = 1 WHERE a = 1 GROUP BY b HAVING a = 1 ORDER BY b DESC LIMIT 1 OFFSET 1;"

def demoText : List Char := "SELECT DISTINCT b FROM t JOIN t ON a = 1 WHERE a = 1 GROUP BY b HAVING a = 1 ORDER BY b DESC LIMIT 1 OFFSET 1".toList

def demoParts : Parts where
  distinct := true
  cols := [.dict [("value", .str "b")]]
  tables := [.str "t"]
  joins := [.dict [("join", .str "t"), ("on", .dict [("eq", .list [.str "a", .int 1])])]]
  cond := some (.call "eq" [.name "a", .int 1])
  group := [.dict [("value", .str "b")]]
  having := some (.call "eq" [.name "a", .int 1])
  order := [.dict [("value", .str "b"), ("sort", .str "desc")]]
  limit := some (.int 1)
  offset := some (.int 1)

theorem table_t : SpTable .name " t".toList (.str "t") := SpTable.plain (g := [' ']) (t := ['t']) (n := ['t']) gap_space (name_t _ (by decide +kernel))

theorem nat_one : SpNat " 1".toList 1 := ⟨[' '], ['1'], gap_space, by decide, by decide, rfl, rfl⟩

theorem join_json : demoParts.joins = [.dict [(" ".intercalate ["join"], .str "t"), ("on", scrub (.call "eq" [.name "a", .int 1]))]] := by
  rw [show " ".intercalate ["join"] = "join" by decide]
  rfl

theorem demo_head (env : Env) : SpHead env demoText demoParts .lit " ORDER BY b DESC LIMIT 1 OFFSET 1".toList := by
  refine SpHead.mk (d := .name) (e1 := .name) (e2 := .lit) (e3 := .lit) (e4 := .name)
    (s1 := " DISTINCT b FROM t JOIN t ON a = 1 WHERE a = 1 GROUP BY b HAVING a = 1 ORDER BY b DESC LIMIT 1 OFFSET 1".toList) (t := " b".toList)
    (u := " FROM t JOIN t ON a = 1 WHERE a = 1 GROUP BY b HAVING a = 1 ORDER BY b DESC LIMIT 1 OFFSET 1".toList) (v := " t".toList)
    (x1 := " JOIN t ON a = 1 WHERE a = 1 GROUP BY b HAVING a = 1 ORDER BY b DESC LIMIT 1 OFFSET 1".toList)
    (x2 := " WHERE a = 1 GROUP BY b HAVING a = 1 ORDER BY b DESC LIMIT 1 OFFSET 1".toList)
    (x3 := " GROUP BY b HAVING a = 1 ORDER BY b DESC LIMIT 1 OFFSET 1".toList)
    (x4 := " HAVING a = 1 ORDER BY b DESC LIMIT 1 OFFSET 1".toList)
    ⟨[], "SELECT".toList, .nil, rfl, by decide, rfl⟩
    (.yes ⟨[' '], "DISTINCT".toList, gap_space, rfl, by decide, rfl⟩ (not_opens (by decide) (by decide) (by decide +kernel)))
    (.one (.plain (spells_name env) rfl)) (sep_space _ _) ⟨[' '], "FROM".toList, gap_space, rfl, by decide, rfl⟩ (.one table_t) ?_ ?_ ?_ ?_
  · rw [join_json]
    exact SpJoins.cond (u := " t".toList) (e := .name) (r := " ON a = 1 WHERE a = 1 GROUP BY b HAVING a = 1 ORDER BY b DESC LIMIT 1 OFFSET 1".toList)
      (ws := ["join"]) (w := "on") (y := " a = 1".toList) (by decide) (sep_space _ _) ⟨[' '], "JOIN".toList, gap_space, .one rfl, by decide, rfl⟩
      (not_opens (by decide) (by decide) (by decide +kernel)) table_t (sep_space _ _) (.inl rfl) ⟨[' '], "ON".toList, gap_space, rfl, by decide, rfl⟩
      (spells_eq env) .nil
  · exact SpOpt.given (u := " a = 1".toList) (sep_space _ _) ⟨[' '], "WHERE".toList, gap_space, rfl, by decide, rfl⟩ (spells_eq env)
  · exact SpGroup.given (u := " b".toList) (sep_space _ _)
      ⟨[' '], "GROUP BY".toList, gap_space, .cons (w := "group") (ws := ["by"]) (t := "GROUP".toList) (g := [' ']) (u := "BY".toList) rfl (by decide) (by decide) (.one rfl),
        by decide, rfl⟩
      (.one ⟨_, spells_name env, rfl⟩)
  · exact SpOpt.given (u := " a = 1".toList) (sep_space _ _) ⟨[' '], "HAVING".toList, gap_space, rfl, by decide, rfl⟩ (spells_eq env)

theorem demo_spelled (env : Env) : SpQuery env demoText demoParts :=
  SpQuery.mk (demo_head env) (y := " LIMIT 1 OFFSET 1".toList) (e := .lit)
    (SpOrder.given (u := " b DESC".toList) (sep_space _ _)
      ⟨[' '], "ORDER BY".toList, gap_space, .cons (w := "order") (ws := ["by"]) (t := "ORDER".toList) (g := [' ']) (u := "BY".toList) rfl (by decide) (by decide) (.one rfl),
        by decide, rfl⟩
      (.one (SpSort.dir (t := " b".toList) (g := [' ']) (k := "DESC".toList) (spells_name env) gap_space (sep_space _ _) (.inr rfl) rfl)))
    (SpLimit.both (u := " 1".toList) (r := " OFFSET 1".toList) (x := " 1".toList) (e := []) (sep_space _ _) ⟨[' '], "LIMIT".toList, gap_space, rfl, by decide, rfl⟩ nat_one
      (sep_space _ _) ⟨[' '], "OFFSET".toList, gap_space, rfl, by decide, rfl⟩ nat_one ⟨.gap .nil, fun _ => by simp⟩)

theorem demo_trimmed (space : Char → Bool) (h1 : space ';' = false) (h2 : space '1' = false) : Trimmed space demoQuery.toList demoText where
  last := fun c hc => by
    have : demoText.getLast? = some '1' := by decide +kernel
    rw [this] at hc
    injection hc with hc
    subst hc
    exact ⟨h2, by decide⟩
  semi := h1
  split := ⟨[';'], [], by decide +kernel, by simp, by simp⟩

/-- The query is read as it is meant. -/
example (env : Env) (space : Char → Bool) (h1 : space ';' = false) (h2 : space '1' = false) : parseQ env space demoQuery.toList =
    .json (.dict [("select_distinct", .dict [("value", .str "b")]),
      ("from", .list [.str "t", .dict [("join", .str "t"), ("on", .dict [("eq", .list [.str "a", .int 1])])]]),
      ("where", .dict [("eq", .list [.str "a", .int 1])]), ("groupby", .dict [("value", .str "b")]), ("having", .dict [("eq", .list [.str "a", .int 1])]),
      ("orderby", .dict [("value", .str "b"), ("sort", .str "desc")]), ("limit", .int 1), ("offset", .int 1)]) :=
  C86_query_partial env space (demo_trimmed space h1 h2) (demo_spelled env)

/-! ### NATURAL JOIN -/

/-- NATURAL after a table is its alias. -/
theorem natural_alias {g t n h k : List Char} (hg : Gap g) (hn : SpName ("stack" :: reservedWords) t n) (hh : After .name h) (hne : h ≠ [])
    (hk : Word "natural" k) : SpTable .name (g ++ (t ++ (h ++ k))) (.dict [("value", .str (strOf n)), ("name", .str (strOf k))]) := by
  refine .named hg hn (.bare hne hh ?_)
  have hw : Wordy k := wordy_of hk (by decide)
  have hkn : k ≠ [] := ne_nil_of hk (by decide)
  obtain ⟨c, k', rfl⟩ := List.exists_cons_of_ne_nil hkn
  have hc : c.isDigit = false := by
    unfold Word at hk
    simp only [List.map_cons] at hk
    have h1 : c.toLower = 'n' := (List.cons.inj (hk.trans (show "natural".toList = 'n' :: "atural".toList from rfl))).1
    cases hd : c.isDigit with
    | false => rfl
    | true =>
      rcases toLower_cases c with h | h
      · rw [h] at h1; subst h1; exact absurd hd (by decide)
      · simp only [Char.isDigit, Char.isUpper, Bool.and_eq_true, decide_eq_true_eq, ge_iff_le] at hd h
        have h2 := hd.2
        have h3 := h.1
        exact absurd (UInt32.le_trans h3 h2) (by decide)
  have := SpName.mk (no := noAliases) (p := c :: k') (n := c :: k') (t := []) (m := []) (.plain ⟨hw, c, k', rfl, hc⟩)
    (fun w hm => not_word hk ((show ∀ w ∈ noAliases, "natural".toList ≠ w.toList by decide +kernel) w hm)) .nil
  simpa using this

/-- **C86 fails** for NATURAL JOIN: the word is read as an alias, and the tables are joined without a condition. -/
theorem C86_fails_natural (env : Env) (space : Char → Bool) {sql t n u m : List Char} (hn : SpName ("stack" :: reservedWords) t n)
    (hm : SpName ("stack" :: reservedWords) u m) (ht : Trimmed space sql ("SELECT b FROM ".toList ++ (t ++ (" NATURAL JOIN ".toList ++ u)))) :
    parseQ env space sql = .json (.dict [("select", .dict [("value", .str "b")]),
      ("from", .list [.dict [("value", .str (strOf n)), ("name", .str "NATURAL")], .dict [("join", .str (strOf m))]])]) := by
  have hL : ¬ Opens "lateral" (" ".toList ++ u ++ []) := by
    refine not_opens (by decide) (by decide) ?_
    rw [List.append_assoc]
    have := (begins_name (ws := ["lateral"]) hm (by decide) (r := []) (fun c hc => by simp at hc)).gap gap_space
    exact this.kw (w := "lateral") (by decide) (by decide)
  have hq : SpQuery env ("SELECT b FROM ".toList ++ (t ++ (" NATURAL JOIN ".toList ++ u)))
      ⟨false, [.dict [("value", .str "b")]], [.dict [("value", .str (strOf n)), ("name", .str "NATURAL")]], [.dict [("join", .str (strOf m))]], none, [], none, [],
        none, none⟩ := by
    refine .mk (d := .name) (e := .name) (x := []) (y := []) ?_ .absent (.absent ⟨.gap .nil, fun _ => by simp⟩)
    refine SpHead.mk (d := .name) (e1 := .name) (e2 := .name) (e3 := .name) (e4 := .name) (s1 := " b FROM ".toList ++ (t ++ (" NATURAL JOIN ".toList ++ u))) (t := " b".toList)
      (u := " FROM ".toList ++ (t ++ (" NATURAL JOIN ".toList ++ u))) (v := " ".toList ++ (t ++ (" ".toList ++ "NATURAL".toList))) (x1 := " JOIN ".toList ++ u) (x2 := []) (x3 := [])
      (x4 := []) ⟨[], "SELECT".toList, .nil, rfl, ?_, ?_⟩ (.no ?_) (.one (.plain (spells_name env) rfl)) (sep_space _ _) ⟨[' '], "FROM".toList, gap_space, rfl, ?_, ?_⟩
      (.one (natural_alias (n := n) gap_space hn ⟨gap_space, fun _ => by simp⟩ (by simp) rfl)) ?_ .absent .absent .absent
    · rfl
    · simp
    · refine not_opens (by decide) (by decide) ?_
      have hf : First (" b".toList ++ (" FROM ".toList ++ (t ++ (" NATURAL JOIN ".toList ++ u)))) ['b'] (" FROM ".toList ++ (t ++ (" NATURAL JOIN ".toList ++ u))) :=
        (first_word (n := ['b']) (by decide) (by decide) rfl).gap gap_space
      exact (hf.kw (w := "top") (by decide)).trans (if_neg (by decide))
    · rfl
    · simp
    · rw [show "join" = " ".intercalate ["join"] by decide]
      refine SpJoins.plain (ws := ["join"]) (u := " ".toList ++ u) (r := []) (e := .name) (by decide) (sep_space _ _) ⟨[' '], "JOIN".toList, gap_space, .one rfl, ?_, ?_⟩ hL
        (.plain gap_space hm) .nil
      · rfl
      · simp
  exact C86_query_partial env space ht hq

example : SpName ("stack" :: reservedWords) ['t'] ['t'] := name_t _ (by decide +kernel)

end EulerDB.Sql
