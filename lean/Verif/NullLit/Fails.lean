/-
C90: how NULL is spelled, and where it is refused or misunderstood.
-/
import Verif.NullLit.Props

namespace EulerDB.NullLit

open EulerDB EulerDB.Clause EulerDB.Delta EulerDB.Whole

/-! ### How it is spelled -/

section
open Sql
variable {env : Env} {m : Nat} {t g1 g2 g3 w u : List Char} {n : List Char}

/-- `n IS NULL`. -/
theorem C90_is (h1 : Gap g1) (ht : SpName noNames t n) (h2 : Gap g2) (hs : Sep .name (g2 ++ w)) (hw : Word "is" w) (h3 : Gap g3) (hu : Word "null" u)
    (hb : boundary (g3 ++ u) = true) (hn : ¬ Opens "not" (g3 ++ u)) :
    ∃ v, Spells env .lit (g1 ++ t ++ g2 ++ w ++ (g3 ++ u)) v ∧ SaysC (some v) (.isNull (strOf n) true) :=
  ⟨.call "missing" [.name (strOf n)], ⟨1, .inl ⟨[.val (.name (strOf n))] ++ .bin .is :: [.val .null],
    .cons (.atom h1 (.name ht)) h2 hs (.word (ws := ["is"]) (by decide) (.one hw) hb fun _ => hn) (.one (.atom h3 (.null hu))), rfl⟩⟩, rfl⟩

/-- `n IS NOT NULL`. -/
theorem C90_is_not (h1 : Gap g1) (ht : SpName noNames t n) (h2 : Gap g2) (hs : Sep .name (g2 ++ w)) (hw : Words ["is", "not"] w) (h3 : Gap g3) (hu : Word "null" u)
    (hb : boundary (g3 ++ u) = true) : ∃ v, Spells env .lit (g1 ++ t ++ g2 ++ w ++ (g3 ++ u)) v ∧ SaysC (some v) (.isNull (strOf n) false) :=
  ⟨.call "exists" [.name (strOf n)], ⟨1, .inl ⟨[.val (.name (strOf n))] ++ .bin .isNot :: [.val .null],
    .cons (.atom h1 (.name ht)) h2 hs (.word (ws := ["is", "not"]) (by decide) hw hb fun h => absurd h (by decide)) (.one (.atom h3 (.null hu))), rfl⟩⟩, rfl⟩

/-- `n = NULL` and `n <> NULL` are the same to the parser as `n IS NULL` and `n IS NOT NULL`. -/
theorem C90_equals (h1 : Gap g1) (ht : SpName noNames t n) (h2 : Gap g2) (h3 : Gap g3) (hu : Word "null" u) :
    (Sep .name (g2 ++ "=".toList) → ∃ v, Spells env .lit (g1 ++ t ++ g2 ++ "=".toList ++ (g3 ++ u)) v ∧ SaysC (some v) (.isNull (strOf n) true)) ∧
    (Sep .name (g2 ++ "<>".toList) → ∃ v, Spells env .lit (g1 ++ t ++ g2 ++ "<>".toList ++ (g3 ++ u)) v ∧ SaysC (some v) (.isNull (strOf n) false)) := by
  refine ⟨fun hs => ⟨.call "missing" [.name (strOf n)], ⟨1, .inl ⟨[.val (.name (strOf n))] ++ .bin .eq :: [.val .null],
    .cons (.atom h1 (.name ht)) h2 hs (.sym (w := "=") (by decide) fun h => absurd h (by decide)) (.one (.atom h3 (.null hu))), rfl⟩⟩, rfl⟩,
    fun hs => ⟨.call "exists" [.name (strOf n)], ⟨1, .inl ⟨[.val (.name (strOf n))] ++ .bin .neq :: [.val .null],
    .cons (.atom h1 (.name ht)) h2 hs (.sym (w := "<>") (by decide) fun h => absurd h (by decide)) (.one (.atom h3 (.null hu))), rfl⟩⟩, rfl⟩⟩

end

/-! ### A comparison with NULL -/

theorem forall₂_count {P : Proxy} {pst pst' : PTables} {bst : Tables} {t : String} {tm : TableMeta ColMeta} (ht : Dict.get? P.db t = some tm)
    (h : Nulls.Rel P pst bst) (h' : Nulls.Rel P pst' bst) {rows rows' : List PRow} (hr : Dict.get? pst t = some rows) (hr' : Dict.get? pst' t = some rows') :
    rows.length = rows'.length := by
  obtain ⟨r1, b1, e1, e2, e3⟩ := h t tm ht
  obtain ⟨r2, b2, f1, f2, f3⟩ := h' t tm ht
  rw [hr] at e1
  rw [hr'] at f1
  rw [e2] at f2
  injection e1 with e1
  injection f1 with f1
  injection f2 with f2
  subst e1 f1 f2
  rw [e3.length_eq, f3.length_eq]

/-- **C90 fails for a comparison with NULL.** It is never true in SQL, and a DELETE with it deletes nothing; but `WHERE n = NULL` deletes through the proxy all rows
whose `n` is NULL, and `WHERE n <> NULL` all others (`yes` is false). -/
theorem C90_fails_equals {P : Proxy} {res : List Char → Bool} (hP : Sound P res) {sch : Nulls.Schema} (hS : Nulls.Shaped P sch) {pst : PTables} {bst : Tables}
    (hR : Nulls.Rel P pst bst) {sql s t : List Char} {n : String} {yes : Bool} (ht : Sql.Trimmed P.space sql s)
    (h : Sql.SpDelete P.env s t (some (Sql.binV (if yes then .eq else .neq) (.name n) .null))) {tm : TableMeta ColMeta} {cm : ColMeta}
    (hm : Dict.get? P.db (Sql.strOf t) = some tm) (hc : Dict.get? tm.columns n = some cm) (hp : cm.plaintext = true) {rows : List PRow}
    (hrows : Dict.get? pst (Sql.strOf t) = some rows) (hx : ∃ row ∈ rows, (Dict.get? row n).isNone = yes) :
    ∃ bst', serve P res sch bst sql = some (bst', []) ∧ Nulls.Rel P (Dict.set pst (Sql.strOf t) (rows.filter fun row => (Dict.get? row n).isNone != yes)) bst' ∧
      ¬ Nulls.Rel P pst bst' := by
  have hsays : Says P.env P.space sql (.delete (Sql.strOf t) (.isNull n yes)) := .delete ht h (by cases yes <;> rfl)
  obtain ⟨bst', h1, h2⟩ := C90_statement_partial hP hS hR hsays ⟨tm, hm, cm, hc, hp⟩
  have he : (pexec pst (.delete (Sql.strOf t) (.isNull n yes))).1 =
      Dict.set pst (Sql.strOf t) (rows.filter fun row => (Dict.get? row n).isNone != yes) := by
    rw [pexec, hrows]
    rfl
  rw [he] at h2
  refine ⟨bst', h1, h2, fun h3 => ?_⟩
  have hl := forall₂_count hm h3 h2 hrows (Dict.get?_set_self _ _ _)
  obtain ⟨row, hr, hn⟩ := hx
  have : (rows.filter fun row => (Dict.get? row n).isNone != yes).length < rows.length := by
    refine lt_of_le_of_ne (List.length_filter_le ..) fun he => ?_
    rw [List.length_filter_eq_length_iff] at he
    have := he row hr
    rw [hn] at this
    simp at this
  exact absurd hl (Nat.ne_of_gt this)

/-! ### IS NULL over an encrypted column -/

theorem changeBy_none {f : Whole.Row → Option Bool} {g : Whole.Row → Option Whole.Row} {rows : List Whole.Row} {row : Whole.Row} (h : row ∈ rows) (hf : f row = none) :
    Like.changeBy f g rows = none := by
  induction rows with
  | nil => cases h
  | cons r rows ih =>
    rw [Like.changeBy]
    rcases List.mem_cons.1 h with rfl | h
    · rw [hf]
    · rw [ih h]
      cases f r <;> rfl

/-- **C90 fails for IS NULL over an encrypted column:** the statement is sent with the client's name of the column, which the backend does not know; it refuses the
statement (here as soon as the table has a row). -/
theorem C90_fails_is_null {P : Proxy} {res : List Char → Bool} (hP : Sound P res) {sch : Nulls.Schema} {pst : PTables} {bst : Tables} (hR : Nulls.Rel P pst bst)
    {sql : List Char} {t n : String} {yes : Bool} (hs : Says P.env P.space sql (.delete t (.isNull n yes))) {tm : TableMeta ColMeta}
    (hm : Dict.get? P.db t = some tm) (hn : Bare P.w res n) (hno : ∀ m ∈ Dict.keys tm.columns, n ∉ targets tm.columns m) {rows : List PRow}
    (hrows : Dict.get? pst t = some rows) (hne : rows ≠ []) :
    (∃ text, P.send sql = .ok (text, .str t, {}) ∧ readN res text = some (.delete tm.anonymous (.isNull n yes))) ∧ serve P res sch bst sql = none := by
  obtain ⟨d, hd⟩ := hP.depth
  obtain ⟨rows', brows, hp, hb, hrel⟩ := hR t tm hm
  rw [hrows] at hp
  injection hp with hp
  subst hp
  have hpar := parsed_says hs trivial
  have hw : whereRw P.c P.db (.str t) "symmetric" "" (isJson n yes) = .ok (isJson n yes) := by
    cases yes <;> simp (decide := true) [isJson, whereRw, whereDict]
  have h1 := delete_rewrittenN (c := P.c) hm (i := some (isJson n yes)) (j := some (isJson n yes)) (fun x hx => by
    injection hx with hx
    subst hx
    exact ⟨_, rfl, hw⟩) (fun h => by cases h) P.fuel
  have h2 := delete_writtenN (t := tm.anonymous) (part_is hn yes) (n := d + 1) hd
  have h3 := read_deleteN (t := tm.anonymous) (part_is hn yes) (hP.named t tm hm).table
  generalize (Statement.spell _).toList = text at h2 h3
  have hsend : P.send sql = .ok (text, .str t, {}) := by
    rw [Proxy.send, hpar]
    simp only [NUStmt.json, CWhere.json, h1, h2]
  refine ⟨⟨_, hsend, h3⟩, ?_⟩
  obtain ⟨brow, hbm, hk⟩ : ∃ brow ∈ brows, ∃ row, Nulls.Keeps P.c tm.columns row brow := by
    cases hrel with
    | nil => exact absurd rfl hne
    | cons h _ => exact ⟨_, by simp, _, h⟩
  obtain ⟨row, hk⟩ := hk
  have hg : Dict.get? brow n = none := by
    refine (Dict.get?_eq_none_iff _ _).2 fun hx => ?_
    obtain ⟨m, hm', hx⟩ := hk.only n hx
    exact hno m hm' hx
  unfold serve
  rw [hsend]
  simp only [h3, execN, hb]
  rw [changeBy_none hbm (by rw [concernsN, hg]; rfl)]
  rfl

/-! ### INSERT of NULL -/

def insertN (t : String) (row : List (String × Option Val)) : Dict String Json :=
  [("columns", .list (row.map fun e => .str e.1)), ("query", .dict [("select", .list (row.map fun e => .dict [("value", rhsN e.2)]))]), ("insert", .str t)]

theorem insertN_isInsert (t : String) (row : List (String × Option Val)) :
    IsInsert (insertN t row) t (row.map fun e => .str e.1) (row.map fun e => .dict [("value", rhsN e.2)]) := by
  refine ⟨by simp [insertN, Dict.get?_cons], by simp [insertN, Dict.get?_cons], by simp [insertN, Dict.get?_cons], ?_⟩
  intro k _ h1 h2 h3
  simp [insertN, Dict.get?_cons, Ne.symm h1, Ne.symm h2, Ne.symm h3]

/-- A statement with at least two columns is parsed like this. -/
theorem insertN_parsed {P : Proxy} {sql s t : List Char} {cols : List (List Char)} {vs : List Sql.V} {row : List (String × Option Val)} (ht : Sql.Trimmed P.space sql s)
    (h : Sql.SpInsert P.env s t cols [vs]) (h1 : cols.map Sql.strOf = row.map Prod.fst) (h2 : vs.map Sql.scrub = row.map fun e => rhsN e.2) (hl : 2 ≤ row.length) :
    P.parsed sql = .ok (insertN (Sql.strOf t) row) := by
  have hes : Sql.insertEntries (cols.map Sql.strOf) [vs] =
      .ok [("columns", .list (row.map fun e => .str e.1)), ("query", .dict [("select", .list (row.map fun e => .dict [("value", rhsN e.2)]))])] [] := by
    have hj : (vs.map fun v => Json.dict [("value", Sql.scrub v)]) = row.map fun e => .dict [("value", rhsN e.2)] := by
      have := congrArg (List.map fun j => Json.dict [("value", j)]) h2
      simpa [Function.comp_def] using this
    obtain ⟨e1, e2, r, rfl⟩ : ∃ e1 e2 r, row = e1 :: e2 :: r := by
      match row, hl with
      | e1 :: e2 :: r, _ => exact ⟨e1, e2, r, rfl⟩
    match vs, h2, hj with
    | [_], h2, _ => simp at h2
    | v1 :: v2 :: vs, _, hj =>
      rw [Sql.insertEntries, h1]
      simp only [Sql.rowJson]
      rw [hj]
      simp [Sql.listJson, Function.comp_def]
  have hp := Sql.C70_insert_partial P.env P.space ht h hes
  obtain ⟨u, v, rfl, _, _⟩ := ht.split
  cases h with
  | mk h1 _ _ _ _ _ _ => exact parsed_of (no_alter _ (by simp) h1) hp

def nullItem : Json := .dict [("value", Sql.nullJson)]

theorem encryptAll_dicts {c : Crypto} {cm : ColMeta} {v : Json} : ∀ {l : List String} {xs : List Json}, (∀ e ∈ l, e ∈ knownCiphers) → encryptAll c cm v l = .ok xs →
    ∀ x ∈ xs, Statement.isDict x = true
  | [], xs, _, h => by
    rw [encryptAll] at h
    injection h with h
    subst h
    simp
  | e :: l, xs, hk, h => by
    rw [encryptAll] at h
    cases h1 : encryptValue c cm v e with
    | error x => simp [h1] at h
    | ok y =>
      cases h2 : encryptAll c cm v l with
      | error x => simp [h1, h2] at h
      | ok ys =>
        simp only [h1, h2, Except.ok.injEq] at h
        subst h
        intro x hx
        rcases List.mem_cons.1 hx with rfl | hx
        · have he := hk e (by simp)
          simp only [knownCiphers, List.mem_cons, List.not_mem_nil, or_false] at he
          unfold encryptValue at h1
          simp only at h1
          split at h1
          · cases h1
          · split at h1
            · cases h1
            · rename_i w' _
              rcases he with rfl | rfl | rfl | rfl <;> simp (decide := true) only [if_true, if_false] at h1
              · cases hz : pyInt w' with
                | error x => simp [hz] at h1
                | ok z =>
                  simp only [hz] at h1
                  cases ho : c.opeEnc cm.key z with
                  | error x => simp [ho, Except.map] at h1
                  | ok o => simp only [ho, Except.map, Except.ok.injEq] at h1; subst h1; rfl
              · cases hz : pyStr c w' with
                | error x => simp [hz] at h1
                | ok z =>
                  simp only [hz] at h1
                  cases ho : c.sym cm.key z with
                  | error x => simp [ho, Except.map] at h1
                  | ok o => simp only [ho, Except.map, Except.ok.injEq] at h1; subst h1; rfl
              · cases hz : pyStr c w' with
                | error x => simp [hz] at h1
                | ok z =>
                  simp only [hz] at h1
                  cases ho : c.fuzzy cm.key z with
                  | error x => simp [ho, Except.map] at h1
                  | ok o => simp only [ho, Except.map, Except.ok.injEq] at h1; subst h1; rfl
              · cases hk : cm.homKey with
                | none => simp [hk] at h1
                | some k =>
                  simp only [hk] at h1
                  cases hz : pyInt w' with
                  | error x => simp [hz] at h1
                  | ok z => simp only [hz, Except.ok.injEq] at h1; subst h1; rfl
        · exact encryptAll_dicts (fun e he => hk e (by simp [he])) h2 x hx

/-- NULL is refused or handed on. -/
theorem values_null {c : Crypto} {cols : Dict String ColMeta}
    (hk : ∀ n cm, Dict.get? cols n = some cm → cm.plaintext = false → cm.encCols ≠ [] ∧ ∀ e ∈ Dict.keys cm.encCols, e ∈ knownCiphers) :
    ∀ {row : List (String × Option Val)} {r : List Json}, valuesLoop c cols (row.map fun e => .str e.1) (row.map fun e => .dict [("value", rhsN e.2)]) = .ok r →
      (∀ x ∈ r, Statement.isDict x = true) ∧ ((∃ e ∈ row, e.2 = none) → nullItem ∈ r)
  | [], r, h => by
    simp only [List.map_nil, valuesLoop] at h
    injection h with h
    subst h
    simp
  | (n, v) :: row, r, h => by
    rw [List.map_cons, List.map_cons, valuesLoop] at h
    cases hc : Dict.get? cols n with
    | none =>
      have : colOfJson cols (.str n) = .error .keyError := by simp [colOfJson, Dict.getItem, hc]
      simp [this] at h
    | some cm =>
      have g : colOfJson cols (.str n) = .ok cm := getItem_ok.2 hc
      have hv : pyItem "value" (.dict [("value", rhsN v)]) = .ok (rhsN v) := rfl
      simp only [g, hv] at h
      by_cases hp : cm.plaintext = true
      · simp only [hp, if_true] at h
        cases hr : valuesLoop c cols (row.map fun e => .str e.1) (row.map fun e => .dict [("value", rhsN e.2)]) with
        | error x => simp [hr] at h
        | ok r' =>
          simp only [hr, Except.ok.injEq] at h
          subst h
          obtain ⟨h1, h2⟩ := values_null hk hr
          refine ⟨?_, ?_⟩
          · intro x hx
            rcases List.mem_append.1 hx with hx | hx
            · simp only [List.mem_singleton] at hx
              subst hx
              rfl
            · exact h1 x hx
          · rintro ⟨e, he, hen⟩
            rcases List.mem_cons.1 he with rfl | he
            · simp only at hen
              subst hen
              simp [nullItem, rhsN]
            · exact List.mem_append.2 (.inr (h2 ⟨e, he, hen⟩))
      · have hp' : cm.plaintext = false := by simpa using hp
        obtain ⟨hne, hkn⟩ := hk n cm hc hp'
        simp only [hp', Bool.false_eq_true, if_false] at h
        cases hx : encryptAll c cm (rhsN v) (Dict.keys cm.encCols) with
        | error x => simp [hx] at h
        | ok xs =>
          cases hr : valuesLoop c cols (row.map fun e => .str e.1) (row.map fun e => .dict [("value", rhsN e.2)]) with
          | error x => simp [hx, hr] at h
          | ok r' =>
            simp only [hx, hr, Except.ok.injEq] at h
            subst h
            obtain ⟨h1, h2⟩ := values_null hk hr
            refine ⟨?_, ?_⟩
            · intro x hm
              rcases List.mem_append.1 hm with hm | hm
              · exact encryptAll_dicts hkn hx x hm
              · exact h1 x hm
            · rintro ⟨e, he, hen⟩
              rcases List.mem_cons.1 he with rfl | he
              · simp only at hen
                subst hen
                obtain ⟨⟨e, b⟩, l, hl⟩ : ∃ p l, cm.encCols = p :: l := by
                  cases hx : cm.encCols with
                  | nil => exact absurd hx hne
                  | cons p l => exact ⟨p, l, rfl⟩
                rw [hl, Dict.keys, List.map_cons, encryptAll, show rhsN none = .dict [("null", .dict [])] from rfl, C25_fails_null] at hx
                cases hx
              · exact List.mem_append.2 (.inr (h2 ⟨e, he, hen⟩))

/-- **C90 fails for INSERT:** with NULL among the values an INSERT is refused, whatever the columns. -/
theorem C90_fails_insert {P : Proxy} {res : List Char → Bool} (hP : Sound P res) {sql : List Char} {t : String} {row : List (String × Option Val)}
    (hs : P.parsed sql = .ok (insertN t row)) (hx : ∃ e ∈ row, e.2 = none) : ∃ e, P.send sql = .error e := by
  obtain ⟨d, hd⟩ := hP.depth
  rw [Proxy.send, hs]
  simp only
  cases hr : rewriteQuery P.c P.db P.fuel (insertN t row) with
  | error e => exact ⟨e, rfl⟩
  | ok r =>
    obtain ⟨json', table, s⟩ := r
    obtain ⟨tm, bcols, bvals, h1, _, h3, h4, h5, h6⟩ := insert_spec (insertN_isInsert t row) hr
    obtain ⟨_, hk⟩ := rewriteQuery_spec hr
    have hgone : ∀ k, k ≠ "insert" → k ≠ "columns" → k ≠ "query" → Dict.get? json' k = none := by
      intro k k1 k2 k3
      have : Dict.get? (insertN t row) k = none := by simp [insertN, Dict.get?_cons, Ne.symm k1, Ne.symm k2, Ne.symm k3]
      by_cases hm : k ∈ clauseKeys
      · exact ((hk k).2 hm).1 this
      · rw [(hk k).1 hm]; exact this
    obtain ⟨hdict, hnull⟩ := values_null (fun n cm hc hp => ⟨hP.stored t tm h1 n cm hc hp, hP.known t tm h1 n cm hc hp⟩) h3
    have hkeys : Statement.InsertKeys json' tm.anonymous := ⟨h4, fun k hm => by
      have := (by decide : ∀ k ∈ ["drop", "value", "join", "overwrite", "if exists"], k ≠ "insert" ∧ k ≠ "columns" ∧ k ≠ "query") k hm
      exact hgone k this.1 this.2.1 this.2.2⟩
    obtain ⟨e, he⟩ := Statement.each_error (f := Statement.queryValue P.leaves (d + 3)) (a := nullItem) (e := .keyError)
      (by simp [nullItem, Sql.nullJson, Statement.queryValue, pyItem, Dict.getItem, Dict.get?_cons, Statement.literalText, Statement.leafOf, Except.map]) (hnull hx)
    have hv := hgone "values" (by decide) (by decide) (by decide)
    have hall : bvals.all Statement.isDict = true := List.all_eq_true.2 hdict
    have : ∃ e, Statement.insertToks P.leaves (Statement.dispatch P.leaves (d + 2)) (d + 3) json' = .error e := by
      unfold Statement.insertToks
      cases hcols : Statement.each (fun j => Statement.dispatch P.leaves (d + 2) j 100) bcols with
      | error x => exact ⟨x, by simp [h4, h5, Statement.rawName, pyIter, hcols, Bind.bind, Except.bind]⟩
      | ok x => exact ⟨e, by simp [h4, h5, h6, hv, Statement.rawName, pyIter, hcols, hall, he, pyIn, pyItem, Dict.getItem, Dict.get?, Bind.bind, Except.bind]⟩
    obtain ⟨e, he⟩ := this
    refine ⟨e, ?_⟩
    have ht : P.text json' = .error e := by
      unfold Proxy.text
      rw [hgone "alter" (by decide) (by decide) (by decide), hd, Statement.format_insert hkeys, he]
      rfl
    simp only [ht]

/-! ### A session -/

section
open Sql

theorem name_b : SpName noNames ['b'] ['b'] := SpName.mk (p := ['b']) (n := ['b']) (t := []) (m := []) (.plain ⟨by decide, 'b', [], rfl, by decide⟩) (by decide +kernel) .nil

theorem spells_null (env : Env) {g : List Char} (hg : Gap g) : Spells env .lit (g ++ "NULL".toList) .null :=
  ⟨1, .inl ⟨[.val .null], .one (SpOperand.atom (g := g) hg (.null (by decide))), rfl⟩⟩

theorem where_null (env : Env) (d : Edge) : ∃ v, SpWhere env d " WHERE b IS NULL".toList (some v) ∧ SaysC (some v) (.isNull "b" true) := by
  obtain ⟨v, h1, h2⟩ := C90_is (env := env) (t := ['b']) (w := "IS".toList) (u := "NULL".toList) gap_space name_b gap_space
    (by intro c hc; cases hc; decide) (by decide) gap_space (by decide) (by decide) (not_opens (by decide) (by decide) (by decide +kernel))
  exact ⟨v, SpWhere.given (g := [' ']) (w := "WHERE".toList) (t := " b IS NULL".toList) (e := []) gap_space
    (fun c hc => by simp at hc; subst hc; exact ⟨by decide, fun _ => by decide, fun _ => by decide⟩) rfl (by decide) h1 ⟨.gap .nil, fun _ => by simp⟩, h2⟩

theorem says_set (env : Env) : Says env spc "UPDATE t SET b = NULL WHERE a = 1".toList (.update "t" [("b", none)] (.cond (some (.eqInt "a" 1)))) := by
  refine Says.update (t := ['t']) (l := [("b", .null)]) (v := some (.call "eq" [.name "a", .int 1])) (trimmed_self fun c hc => by simp at hc; subst hc; decide) ?_ rfl rfl
  exact .mk (s1 := " t SET b = NULL WHERE a = 1".toList) (s2 := " SET b = NULL WHERE a = 1".toList) (t := " b = NULL".toList) (u := " WHERE a = 1".toList)
    ⟨[], "UPDATE".toList, .nil, rfl, by decide, rfl⟩
    ⟨[' '], ['t'], gap_space, name_t _ (by decide +kernel), fun c hc => by simp at hc; subst hc; decide, by decide, rfl⟩
    ⟨[' '], "SET".toList, gap_space, rfl, by decide, rfl⟩
    (.one (SpAssign.mk (g := [' ']) (t := ['b']) (h := [' ']) (u := " NULL".toList) (n := ['b']) gap_space
      (SpName.mk (p := ['b']) (n := ['b']) (t := []) (m := []) (.plain ⟨by decide, 'b', [], rfl, by decide⟩) (by decide +kernel) .nil)
      (after_space .name) (spells_null env gap_space)))
    (where_eq env .lit)

theorem says_null (env : Env) : Says env spc "SELECT b FROM t WHERE b IS NULL".toList (.select "t" ["b"] (.isNull "b" true)) := by
  obtain ⟨v, hv, hs⟩ := where_null env .name
  refine Says.select (ns := ["b"]) (t := "t") (v := some v) (trimmed_self fun c hc => by simp at hc; subst hc; decide) ?_ hs
  exact .mk (t := " b".toList) (u := " FROM t WHERE b IS NULL".toList) (v := " t".toList) (x := " WHERE b IS NULL".toList) (d := .name) (e := .name)
    ⟨[], "SELECT".toList, .nil, rfl, by decide, rfl⟩ (not_opens (by decide) (by decide) (by decide +kernel)) (.one (.plain (spells_name env) rfl))
    (fun c hc => by simp at hc; subst hc; exact ⟨by decide, fun _ => by decide, fun _ => by decide⟩) ⟨[' '], "FROM".toList, gap_space, rfl, by decide, rfl⟩
    (.one (SpTable.plain (g := [' ']) (t := ['t']) (n := ['t']) gap_space (name_t _ (by decide +kernel)))) hv

end

def stmtsN : List NUStmt :=
  [.insert "t" [("a", .int 1), ("b", .int 1)], .update "t" [("b", none)] (.cond (some (.eqInt "a" 1))), .select "t" ["b"] (.isNull "b" true)]

theorem fineN (env : Sql.Env) (space : Char → Bool) (w : Writer) (repr : Json → String) : ∀ u ∈ stmtsN, Fine (Nulls.proxy3 env space w repr).db u := by
  intro u hu
  simp only [stmtsN, List.mem_cons, List.not_mem_nil, or_false] at hu
  rcases hu with rfl | rfl | rfl
  · exact Nulls.fine3 env space w repr (.insert "t" [("a", .int 1), ("b", .int 1)]) (by simp [Nulls.stmts3])
  · refine ⟨Nulls.demo3, rfl, by simp, by decide, ?_, ?_⟩
    · intro e he
      simp only [List.mem_singleton] at he
      subst he
      exact ⟨_, rfl, fun v hv => by cases hv⟩
    · intro x hx
      simp only [Option.mem_some_iff] at hx
      subst hx
      exact ⟨_, rfl, rfl, fun _ => ⟨by simp [Clause.Int64], _, rfl⟩⟩
  · refine ⟨Nulls.demo3, rfl, by simp [PlainTable, pyIn, isSub]; decide, by simp, ?_, _, rfl, rfl⟩
    intro n hn
    simp only [List.mem_singleton] at hn
    subst hn
    exact ⟨by simp, by decide, _, _, rfl, rfl⟩

/-- A value is inserted, set to NULL and found by IS NULL. -/
example (env : Sql.Env) (w : Writer) (repr : Json → String) (res : List Char → Bool) (h : ∀ s ∈ Nulls.names3, w.kw s.toList = false ∧ res s.toList = false) :
    ∃ bst', session (Nulls.proxy3 env spc w repr) res Nulls.schema3 [("table_0", [])]
      ["INSERT INTO t (a, b) VALUES (1, 1)".toList, "UPDATE t SET b = NULL WHERE a = 1".toList, "SELECT b FROM t WHERE b IS NULL".toList] =
        some (bst', [[], [], [[.null]]]) := by
  obtain ⟨bst', h1, _⟩ := C90_session_partial (Nulls.sound3 (env := env) (space := spc) (repr := repr) h) (Nulls.shaped3 env spc w repr) (pst := [("t", [])])
    (bst := [("table_0", [])]) (fun t tm ht => by obtain ⟨rfl, rfl⟩ := Nulls.tab3 ht; exact ⟨[], [], rfl, rfl, .nil⟩) (us := stmtsN)
    (.cons (.insert (says_insert env)) (.cons (says_set env) (.cons (says_null env) .nil))) (fineN env spc w repr)
  exact ⟨bst', h1⟩

end EulerDB.NullLit
