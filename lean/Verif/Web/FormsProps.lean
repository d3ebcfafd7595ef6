import Verif.Web.Forms

/-!
# Schema listing, query results and creation forms (C45, C49, C50)
-/

namespace EulerDB.Web

open EulerDB EulerDB.Clause

/-! ### C45 -/

/-- The metadata rows of a list of tables: one row per column, grouped by table. -/
def tableRows (ts : List (String × List (String × ColInfo))) : List SchemaRow := ts.flatMap fun t => t.2.map fun c => (t.1, [c])

/-- A column of type varchar or int is shown by its name, marked if it is encrypted. -/
def shown (c : String × ColInfo) : String × JType := (if c.2.plaintext then c.1 else c.1 ++ " *", if c.2.type = "varchar" then .varchar else .integer)

theorem formatCol_one (c : String × ColInfo) (h : c.2.type = "varchar" ∨ c.2.type = "int") : formatCol [c] none = some (shown c) := by
  obtain ⟨k, v⟩ := c
  rcases h with h | h <;> simp only at h <;> simp [formatCol, h, shown]

theorem schemaLoop_table (n : String) (cs : List (String × ColInfo)) (rest : List SchemaRow) (res : List ShownTable) (acc : List ShownCol) :
    schemaLoop (cs.map (fun c => (n, [c])) ++ rest) res (some (n, acc)) = schemaLoop rest res (some (n, acc ++ cs.map fun c => formatCol [c] none)) := by
  induction cs generalizing acc with
  | nil => simp
  | cons c cs ih => simp [schemaLoop, ih]

theorem schemaLoop_tables (ts : List (String × List (String × ColInfo))) (n : String) (acc : List ShownCol) (res : List ShownTable)
    (he : ∀ t ∈ ts, t.2 ≠ []) (hn : (n :: ts.map Prod.fst).Nodup) :
    schemaLoop (tableRows ts) res (some (n, acc)) = res ++ some (n, acc) :: ts.map fun t => some (t.1, t.2.map fun c => formatCol [c] none) := by
  induction ts generalizing n acc res with
  | nil => simp [tableRows, schemaLoop]
  | cons t ts ih =>
    obtain ⟨m, cs⟩ := t
    cases cs with
    | nil => exact absurd rfl (he (m, []) (by simp))
    | cons c cs =>
      have hmn : m ≠ n := by rintro rfl; simp at hn
      have e : tableRows ((m, c :: cs) :: ts) = (m, [c]) :: (cs.map (fun c => (m, [c])) ++ tableRows ts) := by simp [tableRows]
      rw [e, schemaLoop]
      simp only [Option.getD_some, if_neg hmn]
      rw [schemaLoop_table, ih _ _ _ (fun t ht => he t (by simp [ht])) (List.nodup_cons.1 hn).2]
      simp

/-- Whatever the types, there is one entry per table, in order, with one item per column. -/
theorem C45_tables_partial (ts : List (String × List (String × ColInfo))) (h0 : ts ≠ []) (he : ∀ t ∈ ts, t.2 ≠ []) (hn : (ts.map Prod.fst).Nodup) :
    schemaFormat (tableRows ts) = ts.map fun t => some (t.1, t.2.map fun c => formatCol [c] none) := by
  cases ts with
  | nil => exact absurd rfl h0
  | cons t ts =>
    obtain ⟨m, cs⟩ := t
    cases cs with
    | nil => exact absurd rfl (he (m, []) (by simp))
    | cons c cs =>
      have e : tableRows ((m, c :: cs) :: ts) = (m, [c]) :: (cs.map (fun c => (m, [c])) ++ tableRows ts) := by simp [tableRows]
      rw [schemaFormat, e, schemaLoop]
      simp only [Option.getD_none, if_true]
      rw [schemaLoop_table, schemaLoop_tables _ _ _ _ (fun t ht => he t (by simp [ht])) hn]
      simp

/-- If all columns are of type varchar or int, the listing shows each table once, in order, with exactly its columns. -/
theorem C45_listing_partial (ts : List (String × List (String × ColInfo))) (h0 : ts ≠ []) (he : ∀ t ∈ ts, t.2 ≠ []) (hn : (ts.map Prod.fst).Nodup)
    (hty : ∀ t ∈ ts, ∀ c ∈ t.2, c.2.type = "varchar" ∨ c.2.type = "int") :
    schemaFormat (tableRows ts) = ts.map fun t => some (t.1, t.2.map fun c => some (shown c)) := by
  rw [C45_tables_partial ts h0 he hn]
  apply List.map_congr_left
  intro t ht
  congr 2
  apply List.map_congr_left
  intro c hc
  exact formatCol_one c (hty t ht c hc)

/-- The property fails for every column of another type: it is shown as an empty item, its name is lost. -/
theorem C45_fails_types (t n : String) (v : ColInfo) (h : v.type ≠ "varchar" ∧ v.type ≠ "int") : schemaFormat [(t, [(n, v)])] = [some (t, [none])] := by
  simp [schemaFormat, schemaLoop, formatCol, h]

/-- It fails without tables: one empty table is listed. -/
theorem C45_fails_empty : schemaFormat [] = [none] := rfl

/-- It fails for tables that come in several groups: they are listed several times.  (The query orders by name, but MySQL orders names that differ in case or
accents together.) -/
theorem C45_fails_interleaved (a b : String) (hab : a ≠ b) (x y z : Dict String ColInfo) :
    schemaFormat [(a, x), (b, y), (a, z)] = [some (a, [formatCol x none]), some (b, [formatCol y none]), some (a, [formatCol z none])] := by
  simp [schemaFormat, schemaLoop, hab, Ne.symm hab]

/-- It fails for every data source: the metadata are stored under the name of the database, but looked up under `host:port/database`, so nothing is found and one
empty table is listed. -/
theorem C45_fails_database_name (stored : List (List Char × SchemaRow)) (hs : ∀ e ∈ stored, '/' ∉ e.1) (host d : List Char) :
    schemaFormat (schemaRows stored ("jdbc:mysql://".toList ++ host ++ '/' :: d)) = [none] := by
  have e : schemaRows stored ("jdbc:mysql://".toList ++ host ++ '/' :: d) = [] := by
    have h1 : ("jdbc:mysql://".toList ++ host ++ '/' :: d).drop 13 = host ++ '/' :: d := by
      rw [List.append_assoc, List.drop_append_of_le_length (by decide)]
      have : List.drop 13 "jdbc:mysql://".toList = [] := by decide
      rw [this, List.nil_append]
    unfold schemaRows
    rw [h1, List.map_eq_nil_iff, List.filter_eq_nil_iff]
    intro x hx he
    simp only [decide_eq_true_eq] at he
    exact hs x hx (by rw [he]; simp)
  rw [e]; rfl

example : schemaFormat (tableRows [("t", [("id", ⟨"int", true⟩), ("name", ⟨"varchar", false⟩)]), ("u", [("x", ⟨"int", false⟩)])])
    = [some ("t", [some ("id", .integer), some ("name *", .varchar)]), some ("u", [some ("x *", .integer)])] := by decide

/-! ### C49 -/

theorem formatRow_nodup (l : List (String × OutVal)) (d : Dict String OutVal) (h : (Dict.keys d ++ l.map Prod.fst).Nodup) : formatRow l d = d ++ l := by
  induction l generalizing d with
  | nil => simp [formatRow]
  | cons e l ih =>
    obtain ⟨k, v⟩ := e
    have hk : Dict.get? d k = none := by
      rw [Dict.get?_eq_none_iff]
      intro hm
      rw [List.nodup_append] at h
      exact h.2.2 k hm k (by simp) rfl
    rw [formatRow, Dict.set_of_none _ _ _ hk, ih]
    · simp
    · simpa [Dict.keys] using h

theorem formatRow_keys_nodup (l : List (String × OutVal)) (d : Dict String OutVal) (h : (Dict.keys d).Nodup) : (Dict.keys (formatRow l d)).Nodup := by
  induction l generalizing d with
  | nil => exact h
  | cons e l ih => obtain ⟨k, v⟩ := e; exact ih _ (Dict.nodup_set h)

theorem map_fst_zip {α β : Type} (a : List α) (b : List β) (h : a.length = b.length) : (a.zip b).map Prod.fst = a := List.map_fst_zip (by omega)

/-- With distinct column names every row is returned complete: each column with the value of that column. -/
theorem C49_rows_partial (names types : List String) (result : List (List OutVal)) (h0 : result ≠ []) (ht : names.length = types.length) (hn : names.Nodup)
    (hr : ∀ r ∈ result, r.length = names.length) :
    formatResult names types result = some ((names.zip types).map fun e => buildCol e.1 e.2, result.map fun r => names.zip r) := by
  cases result with
  | nil => exact absurd rfl h0
  | cons first rest =>
    have hl : ¬ (names.length < first.length) := by rw [hr first (by simp)]; omega
    simp only [formatResult, map_fst_zip _ _ ht, if_neg hl]
    congr 2
    apply List.map_congr_left
    intro r h
    have := formatRow_nodup (names.zip r) [] (by simp only [Dict.keys, List.map_nil, List.nil_append]; rw [map_fst_zip _ _ (hr r h).symm]; exact hn)
    simpa using this

/-- The property fails for every list of columns in which a name occurs twice: no row has all of them. -/
theorem C49_fails_duplicate (names : List String) (hn : ¬ names.Nodup) (row : List OutVal) : Dict.keys (formatRow (names.zip row) []) ≠ names := by
  intro h
  apply hn
  rw [← h]
  exact formatRow_keys_nodup _ _ (by simp [Dict.keys])

/-- Which value is lost: the first. -/
theorem C49_fails_duplicate_value (n : String) (ty : List String) (hty : ty.length = 2) (a b : OutVal) :
    (formatResult [n, n] ty [[a, b]]).map Prod.snd = some [[(n, b)]] := by
  obtain ⟨x, y, rfl⟩ := List.length_eq_two.1 hty
  simp [formatResult, formatRow, Dict.set]

/-- It fails for rows wider than the list of columns: all names are replaced by null0, null1, …. -/
theorem C49_fails_wide (names types : List String) (first : List OutVal) (rest : List (List OutVal)) (h : names.length < first.length) :
    ∃ cols data, formatResult names types (first :: rest) = some (cols, data) ∧ cols.map Prod.fst = (List.range first.length).map nullName := by
  have hl : ((names.zip types).map Prod.fst).length < first.length := by simp only [List.length_map, List.length_zip]; omega
  refine ⟨_, _, by simp only [formatResult, if_pos hl]; rfl, ?_⟩
  rw [List.map_map]
  have : ((List.range first.length).map nullName).length = first.length := by simp
  refine Eq.trans ?_ (map_fst_zip _ _ this)
  apply List.map_congr_left
  intro e _
  rfl

/-- The announced type is wrong for every type other than varchar and int: such columns are announced as integers. -/
theorem C49_fails_type (n ty : String) (h : ty ≠ "varchar") (v : OutVal) : (formatResult [n] [ty] [[v]]).map Prod.fst = some [(n, .integer)] := by
  simp [formatResult, buildCol, h]

/-- An empty result is answered without columns. -/
theorem C49_empty (names types : List String) : formatResult names types [] = none := rfl

example : formatResult ["id", "name"] ["int", "varchar"] [[.int 1, .text "a"], [.int 2, .null]]
    = some ([("id", .integer), ("name", .varchar)], [[("id", .int 1), ("name", .text "a")], [("id", .int 2), ("name", .null)]]) := by
  rw [C49_rows_partial ["id", "name"] ["int", "varchar"] _ (by simp) rfl (by decide) (by simp)]
  simp [buildCol]

/-! ### C50 -/

/-- The length that counts: it is used only if it is positive and the type is not INT. -/
def formLen (toInt : List Char → Except PyErr Int) (c : FormCol) : Option (List Char) :=
  match toInt c.length with
  | .ok n => if 0 < n ∧ lowerIs c.type "int".toList = false then some c.length else none
  | .error _ => none

/-- `name type` or `name type(length)`. -/
def colText (name type : List Char) (len : Option (List Char)) : List Char :=
  name ++ ' ' :: (type ++ (match len with | some l => '(' :: (l ++ [')']) | none => []))

/-- The definition entered in a line of the form. -/
def formText (toInt : List Char → Except PyErr Int) (c : FormCol) : List Char := colText c.name c.type (formLen toInt c)

/-- The options entered in a line of the form. -/
def formOpt (c : FormCol) : Option FormOpt := if lowerIs c.encryption "true".toList then some ⟨lowerIs c.fuzzy "true".toList, c.token⟩ else none

theorem formPart_ok {toInt : List Char → Except PyErr Int} {c : FormCol} {n : Int} (h : toInt c.length = .ok n) : formPart toInt c = .ok (formText toInt c) := by
  simp only [formPart, h, formText, formLen, colText]
  split <;> simp

/-- The options after the given lines. -/
def addOpts (opts : Dict (List Char) FormOpt) (cols : List FormCol) : Dict (List Char) FormOpt :=
  cols.foldl (fun o c => match formOpt c with | some x => Dict.set o c.name x | none => o) opts

theorem formLoop_ok {toInt : List Char → Except PyErr Int} (cols : List FormCol) (h : ∀ c ∈ cols, ∃ n, toInt c.length = .ok n) (more : List FormCol)
    (parts : List (List Char)) (opts : Dict (List Char) FormOpt) :
    formLoop toInt cols.length (cols ++ more) parts opts = .ok (parts ++ cols.map (formText toInt), addOpts opts cols) := by
  induction cols generalizing parts opts with
  | nil => simp [formLoop, addOpts]
  | cons c cols ih =>
    obtain ⟨n, hn⟩ := h c (by simp)
    simp only [List.length_cons, List.cons_append, formLoop, formPart_ok hn]
    rw [ih fun c hc => h c (by simp [hc])]
    simp only [List.append_assoc, List.map_cons, List.singleton_append, addOpts, List.foldl_cons, formOpt]
    split <;> rfl

theorem addOpts_get_other (cols : List FormCol) (opts : Dict (List Char) FormOpt) (n : List Char) (h : n ∉ cols.map FormCol.name) :
    Dict.get? (addOpts opts cols) n = Dict.get? opts n := by
  induction cols generalizing opts with
  | nil => rfl
  | cons c cols ih =>
    simp only [List.map_cons, List.mem_cons, not_or] at h
    simp only [addOpts, List.foldl_cons]
    have := ih (match formOpt c with | some x => Dict.set opts c.name x | none => opts) h.2
    simp only [addOpts] at this
    rw [this]
    split
    · rw [Dict.get?_set_ne _ h.1]
    · rfl

theorem addOpts_get (cols : List FormCol) (opts : Dict (List Char) FormOpt) (hn : (cols.map FormCol.name).Nodup) (ho : ∀ c ∈ cols, Dict.get? opts c.name = none)
    (c : FormCol) (hc : c ∈ cols) : Dict.get? (addOpts opts cols) c.name = formOpt c := by
  induction cols generalizing opts with
  | nil => cases hc
  | cons d cols ih =>
    simp only [List.map_cons, List.nodup_cons] at hn
    rcases List.mem_cons.1 hc with rfl | hm
    · have := addOpts_get_other cols (match formOpt c with | some x => Dict.set opts c.name x | none => opts) c.name hn.1
      simp only [addOpts, List.foldl_cons] at this ⊢
      rw [this]
      cases hf : formOpt c with
      | none => exact ho c (by simp)
      | some x => exact Dict.get?_set_self _ _ _
    · refine ih (match formOpt d with | some x => Dict.set opts d.name x | none => opts) hn.2 ?_ hm
      intro e he
      have hne : e.name ≠ d.name := fun hh => hn.1 (hh ▸ List.mem_map_of_mem he)
      cases hf : formOpt d with
      | none => exact ho e (by simp [he])
      | some x => simp only; rw [Dict.get?_set_ne _ hne]; exact ho e (by simp [he])

/-- The text lists every line of the form once, in order, with its name, type and length; with distinct names, the options of each name are those of its line, and
there are no others. -/
theorem C50_definition_partial (toInt : List Char → Except PyErr Int) (cols : List FormCol) (h : ∀ c ∈ cols, ∃ n, toInt c.length = .ok n)
    (hn : (cols.map FormCol.name).Nodup) (t : List Char) :
    ∃ opts, generateTable toInt cols cols.length t = .ok ("create table if not exists ".toList ++ t ++ '(' :: commaJoin (cols.map (formText toInt)) ++ [')'], opts) ∧
      (∀ c ∈ cols, Dict.get? opts c.name = formOpt c) ∧ (∀ n, n ∉ cols.map FormCol.name → Dict.get? opts n = none) := by
  refine ⟨addOpts [] cols, ?_, ?_, ?_⟩
  · have := formLoop_ok cols h [] [] []
    rw [List.append_nil] at this
    simp only [generateTable, this, List.nil_append]
  · exact fun c hc => addOpts_get cols [] hn (fun _ _ => rfl) c hc
  · exact fun n hm => addOpts_get_other cols [] n hm

/-- A line whose text can be read back. -/
structure CleanCol (toInt : List Char → Except PyErr Int) (c : FormCol) : Prop where
  name : ',' ∉ c.name ∧ ' ' ∉ c.name
  type : ',' ∉ c.type ∧ '(' ∉ c.type
  length : ',' ∉ c.length
  number : ∃ n, toInt c.length = .ok n

theorem cut_unique {α : Type} {sep : α} {a b x y : List α} (ha : sep ∉ a) (hb : sep ∉ b) (h : a ++ sep :: x = b ++ sep :: y) : a = b ∧ x = y := by
  induction a generalizing b with
  | nil =>
    cases b with
    | nil => exact ⟨rfl, by simpa using h⟩
    | cons c b => simp only [List.nil_append, List.cons_append, List.cons.injEq] at h; exact absurd h.1 (by rintro rfl; simp at hb)
  | cons c a ih =>
    cases b with
    | nil => simp only [List.nil_append, List.cons_append, List.cons.injEq] at h; exact absurd h.1 (by rintro rfl; simp at ha)
    | cons d b =>
      simp only [List.mem_cons, not_or] at ha hb
      simp only [List.cons_append, List.cons.injEq] at h
      obtain ⟨h1, h2⟩ := ih ha.2 hb.2 h.2
      exact ⟨by rw [h.1, h1], h2⟩

theorem colText_inj {n n' t t' : List Char} {l l' : Option (List Char)} (hn : ' ' ∉ n) (hn' : ' ' ∉ n') (ht : '(' ∉ t) (ht' : '(' ∉ t')
    (h : colText n t l = colText n' t' l') : n = n' ∧ t = t' ∧ l = l' := by
  unfold colText at h
  obtain ⟨h1, h2⟩ := cut_unique hn hn' h
  refine ⟨h1, ?_⟩
  cases l <;> cases l'
  · simp only [List.append_nil] at h2; exact ⟨h2, rfl⟩
  · simp only [List.append_nil] at h2; exact absurd (by rw [h2]; simp) ht
  · simp only [List.append_nil] at h2; exact absurd (by rw [← h2]; simp) ht'
  · simp only at h2
    obtain ⟨h3, h4⟩ := cut_unique ht ht' h2
    exact ⟨h3, by rw [List.append_cancel_right h4]⟩

theorem colText_comma {n t : List Char} {l : Option (List Char)} (hn : ',' ∉ n) (ht : ',' ∉ t) (hl : ∀ x, l = some x → ',' ∉ x) : ',' ∉ colText n t l := by
  unfold colText
  cases l with
  | none => simp [hn, ht]
  | some x => simp [hn, ht, hl x rfl]

theorem commaJoin_inj (a b : List (List Char)) (ha : ∀ w ∈ a, ',' ∉ w ∧ w ≠ []) (hb : ∀ w ∈ b, ',' ∉ w ∧ w ≠ []) (h : commaJoin a = commaJoin b) : a = b := by
  induction a generalizing b with
  | nil =>
    cases b with
    | nil => rfl
    | cons w b =>
      exfalso
      cases b with
      | nil => simp only [commaJoin] at h; exact (hb w (by simp)).2 h.symm
      | cons v b => simp [commaJoin] at h
  | cons w a ih =>
    cases b with
    | nil =>
      exfalso
      cases a with
      | nil => simp only [commaJoin] at h; exact (ha w (by simp)).2 h
      | cons v a => simp [commaJoin] at h
    | cons v b =>
      have hw := (ha w (by simp)).1
      have hv := (hb v (by simp)).1
      cases a with
      | nil =>
        cases b with
        | nil => simp only [commaJoin] at h; rw [h]
        | cons v' b => simp only [commaJoin] at h; exact absurd (by rw [h]; simp) hw
      | cons w' a =>
        cases b with
        | nil => simp only [commaJoin] at h; exact absurd (by rw [← h]; simp) hv
        | cons v' b =>
          simp only [commaJoin] at h
          obtain ⟨h1, h2⟩ := cut_unique hw hv h
          simp only [List.cons.injEq, true_and] at h2
          rw [h1, ih (v' :: b) (fun x hx => ha x (by simp [hx])) (fun x hx => hb x (by simp [hx])) h2]

/-- The text determines the form: two forms of lines without ',', ' ' and '(' that give the same text have the same names, types and lengths in the same order. -/
theorem C50_text_determines_partial (toInt : List Char → Except PyErr Int) (a b : List FormCol) (ha : ∀ c ∈ a, CleanCol toInt c) (hb : ∀ c ∈ b, CleanCol toInt c)
    (t : List Char) (s : List Char) (oa ob : Dict (List Char) FormOpt) (h1 : generateTable toInt a a.length t = .ok (s, oa))
    (h2 : generateTable toInt b b.length t = .ok (s, ob)) :
    a.map (fun c => (c.name, c.type, formLen toInt c)) = b.map fun c => (c.name, c.type, formLen toInt c) := by
  have la := formLoop_ok a (fun c hc => (ha c hc).number) [] [] []
  have lb := formLoop_ok b (fun c hc => (hb c hc).number) [] [] []
  rw [List.append_nil] at la lb
  simp only [generateTable, la] at h1
  simp only [generateTable, lb] at h2
  injection h1 with h1
  injection h2 with h2
  have h3 := (Prod.mk.injEq .. |>.mp h1).1.trans (Prod.mk.injEq .. |>.mp h2).1.symm
  simp only [List.nil_append] at h3
  have h4 := List.append_cancel_right h3
  have h5 := List.append_cancel_left h4
  simp only [List.cons.injEq, true_and] at h5
  have hc : ∀ c : FormCol, CleanCol toInt c → ',' ∉ formText toInt c ∧ formText toInt c ≠ [] := by
    intro c h
    refine ⟨colText_comma h.name.1 h.type.1 ?_, by simp [formText, colText]⟩
    intro x hx
    unfold formLen at hx
    split at hx
    · split at hx
      · injection hx with hx; rw [← hx]; exact h.length
      · cases hx
    · cases hx
  have h6 := commaJoin_inj _ _ (fun w hw => by obtain ⟨c, h, rfl⟩ := List.mem_map.1 hw; exact hc c (ha c h))
    (fun w hw => by obtain ⟨c, h, rfl⟩ := List.mem_map.1 hw; exact hc c (hb c h)) h5
  clear h1 h2 h3 h4 h5 la lb
  induction a generalizing b with
  | nil =>
    cases b with
    | nil => rfl
    | cons => simp at h6
  | cons c a ih =>
    cases b with
    | nil => simp at h6
    | cons d b =>
      simp only [List.map_cons, List.cons.injEq] at h6 ⊢
      have hc := ha c (by simp)
      have hd := hb d (by simp)
      obtain ⟨e1, e2, e3⟩ := colText_inj hc.name.2 hd.name.2 hc.type.2 hd.type.2 h6.1
      exact ⟨by rw [e1, e2, e3], ih b (fun c hc => ha c (by simp [hc])) (fun c hc => hb c (by simp [hc])) h6.2⟩

/-- The property fails for every form whose `size` is too small: the lines after it are dropped silently. -/
theorem C50_fails_small (toInt : List Char → Except PyErr Int) (cols more : List FormCol) (t : List Char) (h : ∀ c ∈ cols, ∃ n, toInt c.length = .ok n) :
    generateTable toInt (cols ++ more) cols.length t = generateTable toInt cols cols.length t := by
  have h1 := formLoop_ok cols h more [] []
  have h2 := formLoop_ok cols h [] [] []
  rw [List.append_nil] at h2
  simp only [generateTable, h1, h2]

theorem formLoop_large {toInt : List Char → Except PyErr Int} (cols : List FormCol) (h : ∀ c ∈ cols, ∃ n, toInt c.length = .ok n) (k : Nat)
    (parts : List (List Char)) (opts : Dict (List Char) FormOpt) : formLoop toInt (cols.length + k + 1) cols parts opts = .error .indexError := by
  induction cols generalizing parts opts with
  | nil => rfl
  | cons c cols ih =>
    obtain ⟨n, hn⟩ := h c (by simp)
    have : (c :: cols).length + k + 1 = (cols.length + k + 1) + 1 := by simp only [List.length_cons]; omega
    rw [this]
    simp only [formLoop, formPart_ok hn]
    exact ih (fun c hc => h c (by simp [hc])) _ _

/-- A `size` that is too large raises IndexError. -/
theorem C50_fails_large (toInt : List Char → Except PyErr Int) (cols : List FormCol) (k : Nat) (t : List Char) (h : ∀ c ∈ cols, ∃ n, toInt c.length = .ok n) :
    generateTable toInt cols (cols.length + k + 1) t = .error .indexError := by
  simp only [generateTable, formLoop_large cols h]

/-- It fails for lengths that are no integers, such as "10,2" for DECIMAL: the whole form is refused. -/
theorem C50_fails_length (toInt : List Char → Except PyErr Int) (cols more : List FormCol) (c : FormCol) (e : PyErr) (h : ∀ c ∈ cols, ∃ n, toInt c.length = .ok n)
    (hc : toInt c.length = .error e) (t : List Char) : generateTable toInt (cols ++ c :: more) (cols ++ c :: more).length t = .error e := by
  have : ∀ parts opts, formLoop toInt (cols ++ c :: more).length (cols ++ c :: more) parts opts = .error e := by
    induction cols with
    | nil => intro parts opts; simp [formLoop, formPart, hc]
    | cons d cols ih =>
      intro parts opts
      obtain ⟨n, hn⟩ := h d (by simp)
      simp only [List.cons_append, List.length_cons, formLoop, formPart_ok hn]
      exact ih (fun c hc => h c (by simp [hc])) _ _
  simp only [generateTable, this]

/-- It fails for two encrypted lines of one name: the second's key and options are kept for both. -/
theorem C50_fails_duplicate (toInt : List Char → Except PyErr Int) (c d : FormCol) (hn : c.name = d.name) (hc : ∃ n, toInt c.length = .ok n) (hd : ∃ n, toInt d.length = .ok n)
    (x : FormOpt) (hx : formOpt d = some x) (t : List Char) : ∃ s opts, generateTable toInt [c, d] 2 t = .ok (s, opts) ∧ Dict.get? opts c.name = some x := by
  have := formLoop_ok (toInt := toInt) [c, d] (by simp [hc, hd]) [] [] []
  refine ⟨_, _, by simp only [List.length_cons, List.length_nil, List.append_nil, Nat.zero_add, Nat.reduceAdd] at this; simp only [generateTable, this]; rfl, ?_⟩
  simp only [addOpts, List.foldl_cons, List.foldl_nil, hx]
  rw [hn]
  exact Dict.get?_set_self _ _ _

/-- It fails for names that contain a definition: the line `a int, b` of type `y` gives the text of the two lines `a int` and `b y`. -/
theorem C50_fails_injected (toInt : List Char → Except PyErr Int) (a b y z : List Char) (hz : toInt z = .ok 0) (t : List Char) :
    generateTable toInt [⟨a ++ " int, ".toList ++ b, y, z, [], [], []⟩] 1 t
      = generateTable toInt [⟨a, "int".toList, z, [], [], []⟩, ⟨b, y, z, [], [], []⟩] 2 t := by
  simp [generateTable, formLoop, formPart, hz, commaJoin, lowerIs]

/-- A form of two columns, one of them encrypted. -/
example : generateTable Text.parseInt [⟨"id".toList, "INT".toList, "11".toList, "false".toList, "false".toList, []⟩,
      ⟨"name".toList, "varchar".toList, "20".toList, "True".toList, "false".toList, "k".toList⟩] 2 "t".toList
    = .ok ("create table if not exists t(id INT, name varchar(20))".toList, [("name".toList, ⟨false, "k".toList⟩)]) := by decide

end EulerDB.Web
