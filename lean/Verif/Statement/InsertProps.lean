/-
C63: how INSERT is written back to SQL text, and what the backend stores.

Code: /repo/sql_parsing/formatting.py `insert` 584-628, `_literal` 370-380, `sql_list` 199-204;
/repo/sql_parsing/utils.py `to_row` 422-428, `to_values` 441-451, `to_insert_call` 528-547 give the
shapes of parsed INSERT statements.

The backend's grammar (`rInsert`) and its reading of a literal (`readLit`) are part of the trusted
base: INSERT INTO name (names) VALUES (literals), …; a literal is a decimal number or a string in
single quotes, read in MySQL's default mode (`Format.readStr true`).
-/
import Verif.Statement.QueryProps
import Verif.Clause.WholeProps
import Verif.Format.LiteralProps

namespace EulerDB.Statement

open EulerDB EulerDB.Clause EulerDB.Delta

/-! ### The backend -/

/-- `x, …, x)`. -/
def rLeaves : List Tok → Option (List String × List Tok)
  | .leaf s :: .comma :: r => (rLeaves r).map fun p => (s :: p.1, p.2)
  | .leaf s :: .rp :: r => some ([s], r)
  | _ => none

/-- `(x, …), …, (x, …)`, at most `n` rows. -/
def rRows : Nat → List Tok → Option (List (List String))
  | 0, _ => none
  | n + 1, .lp :: r =>
    match rLeaves r with
    | some (row, []) => some [row]
    | some (row, .comma :: r) => (rRows n r).map (row :: ·)
    | _ => none
  | _ + 1, _ => none

/-- An INSERT statement as text: the table, the columns, the rows. -/
structure Ins where
  table : String
  columns : List String
  rows : List (List String)
  deriving DecidableEq, Repr

/-- `INSERT INTO t (c, …) VALUES (x, …), …`. -/
def rInsert : List Tok → Option Ins
  | .kw i :: .kw o :: .leaf t :: .lp :: r =>
    if i = "INSERT" ∧ o = "INTO" then
      match rLeaves r with
      | some (cs, .kw v :: r) => if v = "VALUES" then (rRows (r.length + 1) r).map fun rows => ⟨t, cs, rows⟩ else none
      | _ => none
    else none
  | _ => none

/-- A literal. -/
def readLit (s : String) : Option DbVal :=
  match s.toList with
  | [] => none
  | c :: t =>
    if c = '\'' then
      match Format.readStr true '\'' t with
      | some (o, []) => some (.text (String.ofList o))
      | _ => none
    else
      match Text.parseInt (c :: t) with
      | .ok z => some (.int z)
      | .error _ => none

/-- The stored row; `nm` reads a column name. -/
def readRow (nm : String → Option String) : List String → List String → Option (Dict String DbVal)
  | [], [] => some []
  | c :: cs, x :: xs =>
    match nm c, readLit x, readRow nm cs xs with
    | some c, some x, some r => some ((c, x) :: r)
    | _, _, _ => none
  | _, _ => none

/-! ### Literals -/

theorem doubleQuotes_eq : ∀ s : List Char, doubleQuotes s = Format.doubled '\'' s
  | [] => rfl
  | c :: t => by simp only [doubleQuotes, Format.doubled, doubleQuotes_eq t]

theorem readLit_int (z : ℤ) : readLit (intText z) = some (.int z) := by
  have h := Text.parseInt_intStr z
  unfold readLit intText
  rw [String.toList_ofList]
  cases hs : Text.intStr z with
  | nil => rw [hs] at h; simp [Text.parseInt, Text.parseNat] at h
  | cons c t =>
    have hc : c ≠ '\'' := by
      rintro rfl
      rcases Text.intStr_chars (z := z) (c := '\'') (by rw [hs]; simp) with h | h
      · exact absurd h (by decide)
      · exact absurd h (by decide)
    rw [hs] at h
    simp only [if_neg hc, h]

/-- A string literal comes back as it was exactly if it has only harmless backslashes. -/
theorem readLit_str (s : String) :
    readLit (String.ofList ('\'' :: (doubleQuotes s.toList ++ ['\'']))) = some (.text s) ↔ Format.kept s.toList = true := by
  rw [← Format.readStr_kept [] (by simp [Format.NotFirst]) s.toList]
  unfold readLit
  rw [String.toList_ofList, doubleQuotes_eq]
  simp only [if_true]
  constructor
  · intro h
    split at h
    · rename_i o ho
      injection h with h
      injection h with h
      rw [ho, ← h, String.toList_ofList]
    · cases h
  · intro h
    rw [h]
    simp

/-! ### One row -/

/-- The text of an item of VALUES. -/
def valueText (L : Leaves) : Json → String
  | .dict [("value", .int z)] => intText z
  | .dict [("value", .float q)] => L.floatText q
  | .dict [("value", .dict [("literal", .str s)])] => String.ofList ('\'' :: (doubleQuotes s.toList ++ ['\'']))
  | _ => ""

/-- A number or a string. -/
inductive IsLit : Json → Prop
  | int (z : ℤ) : IsLit (.dict [("value", .int z)])
  | float (q : ℚ) : IsLit (.dict [("value", .float q)])
  | str (s : String) : IsLit (.dict [("value", .dict [("literal", .str s)])])

/-- The keys the formatter looks at before or inside INSERT. -/
structure InsertKeys (d : Dict String Json) (t : String) : Prop where
  table : Dict.get? d "insert" = some (.str t)
  other : ∀ k ∈ ["drop", "value", "join", "overwrite", "if exists"], Dict.get? d k = none

theorem format_insert {L : Leaves} {d : Dict String Json} {t : String} (h : InsertKeys d t) (n : Nat) :
    format L (n + 1) d = insertToks L (dispatch L n) (n + 1) d := by
  have h1 := h.other "drop" (by decide)
  have h2 := h.other "value" (by decide)
  have h3 := h.other "join" (by decide)
  have hne : d.isEmpty = false := by
    cases d with
    | nil => exact absurd h.table (by simp [Dict.get?])
    | cons _ _ => rfl
  simp [format, dispatch, hne, hasKey, h1, h2, h3, h.table]

theorem queryValue_lit {L : Leaves} {v : Json} (h : IsLit v) (n : Nat) : queryValue L (n + 2) v = .ok [.leaf (valueText L v)] := by
  cases h <;> simp [queryValue, pyItem, Dict.getItem, Dict.get?_cons, literalText, leafOf, valueText, Except.map]

theorem isDict_lit {v : Json} (h : IsLit v) : isDict v = true := by cases h <;> rfl

theorem rLeaves_toks (r : List Tok) : ∀ (l : List String), l ≠ [] → rLeaves (commaSep (l.map fun s => [.leaf s]) ++ .rp :: r) = some (l, r)
  | [], h => absurd rfl h
  | [s], _ => by simp [commaSep, rLeaves]
  | a :: b :: l, _ => by
    have ih := rLeaves_toks r (b :: l) (by simp)
    simp only [List.map_cons, commaSep, List.cons_append, List.nil_append] at ih ⊢
    rw [rLeaves, ih]
    rfl

/-- The text of the INSERT of one row. -/
def oneRow (t : String) (cs xs : List String) : List Tok :=
  .kw "INSERT" :: .kw "INTO" :: .leaf t :: (parens (commaSep (cs.map fun s => [.leaf s])) ++ .kw "VALUES" :: parens (commaSep (xs.map fun s => [.leaf s])))

theorem rInsert_oneRow (t : String) {cs xs : List String} (hc : cs ≠ []) (hx : xs ≠ []) : rInsert (oneRow t cs xs) = some ⟨t, cs, [xs]⟩ := by
  unfold oneRow parens
  simp only [rInsert, List.cons_append, List.append_assoc, List.nil_append, and_self, if_true]
  rw [rLeaves_toks _ cs hc]
  simp only [if_true, rRows]
  rw [rLeaves_toks [] xs hx]
  rfl

section
variable {L : Leaves} {tx : Json → String}

/-- **C63, partial.** An INSERT of one row of numbers and strings is written as INSERT INTO … (…) VALUES (…), with the values in order. -/
theorem C63_written_partial {d : Dict String Json} {t : String} {ns vs : List Json} (h : InsertKeys d t) (hv : Dict.get? d "values" = none)
    (hc : Dict.get? d "columns" = some (.list ns)) (hq : Dict.get? d "query" = some (.dict [("select", .list vs)]))
    (hn : ∀ n ∈ ns, Good L tx n) (hl : ∀ v ∈ vs, IsLit v) (n : Nat) :
    format L (n + 2) d = .ok (oneRow t (ns.map tx) (vs.map (valueText L))) := by
  rw [format_insert h]
  have h1 := h.other "overwrite" (by decide)
  have h2 := h.other "if exists" (by decide)
  have e1 := each_ok (f := fun j => dispatch L (n + 1) j 100) (g := fun j => [Tok.leaf (tx j)]) ns (fun j hj => dispatch_good (hn j hj) n 100)
  have e2 := each_ok (f := queryValue L (n + 2)) (g := fun v => [Tok.leaf (valueText L v)]) vs (fun v hv => queryValue_lit (hl v hv) n)
  have e3 : vs.all isDict = true := List.all_eq_true.2 fun v hv => isDict_lit (hl v hv)
  unfold insertToks
  simp [h.table, hc, hq, hv, hasKey, h1, h2, rawName, pyIter, e1, e2, e3, pyIn, pyItem, Dict.getItem, Dict.get?, Bind.bind, Except.bind]
  simp [oneRow, parens, List.map_map, Function.comp_def]

/-! ### What is stored -/

theorem storeRow_lits : ∀ {ns vs : List Json} {stored : Dict String DbVal}, storeRow ns vs = some stored →
    (∀ v ∈ vs, IsLit v) ∧ ns = stored.map (fun e => .str e.1) ∧ vs.length = ns.length
  | [], [], stored, h => by
    simp only [storeRow, Option.some.injEq] at h
    subst h
    simp
  | .str n :: ns, v :: vs, stored, h => by
    simp only [storeRow] at h
    split at h
    · rename_i x r hx hr
      injection h with h
      subst h
      obtain ⟨h1, h2, h3⟩ := storeRow_lits hr
      refine ⟨?_, by simp [← h2], by simp [h3]⟩
      intro w hw
      rcases List.mem_cons.1 hw with rfl | hw
      · unfold dbLit at hx
        split at hx
        · exact .int _
        · exact .str _
        · cases hx
      · exact h1 w hw
    · cases h
  | .null :: _, _ :: _, _, h => by simp [storeRow] at h
  | .int _ :: _, _ :: _, _, h => by simp [storeRow] at h
  | .float _ :: _, _ :: _, _, h => by simp [storeRow] at h
  | .list _ :: _, _ :: _, _, h => by simp [storeRow] at h
  | .dict _ :: _, _ :: _, _, h => by simp [storeRow] at h
  | [], _ :: _, _, h => by simp [storeRow] at h
  | _ :: _, [], _, h => by simp [storeRow] at h

/-- The texts of a row that the backend reads as they are. -/
def TextsKept (row : Dict String DbVal) : Prop := ∀ e ∈ row, ∀ s, e.2 = .text s → Format.kept s.toList = true

theorem readRow_iff (nm : String → Option String) : ∀ {ns vs : List Json} {stored : Dict String DbVal}, storeRow ns vs = some stored →
    (∀ e ∈ stored, nm (tx (.str e.1)) = some e.1) → (readRow nm (ns.map tx) (vs.map (valueText L)) = some stored ↔ TextsKept stored)
  | [], [], stored, h, _ => by
    simp only [storeRow, Option.some.injEq] at h
    subst h
    simp [readRow, TextsKept]
  | .str n :: ns, v :: vs, stored, h, hn => by
    simp only [storeRow] at h
    split at h
    · rename_i x r hx hr
      injection h with h
      subst h
      have ih := readRow_iff nm (ns := ns) (vs := vs) hr (fun e he => hn e (by simp [he]))
      have hnm := hn (n, x) (by simp)
      simp only at hnm
      have hx' : readLit (valueText L v) = some x ↔ (∀ s, x = .text s → Format.kept s.toList = true) := by
        unfold dbLit at hx
        split at hx
        · rename_i z
          injection hx with hx
          subst hx
          simp [valueText, readLit_int]
        · rename_i s
          injection hx with hx
          subst hx
          simp only [valueText, readLit_str, DbVal.text.injEq, forall_eq']
        · cases hx
      simp only [List.map_cons, readRow, hnm]
      constructor
      · intro h
        split at h
        · rename_i c' x' r' hc' hx'' hr'
          simp only [Option.some.injEq, List.cons.injEq, Prod.mk.injEq] at h hc'
          obtain ⟨⟨_, rfl⟩, rfl⟩ := h
          intro e he
          rcases List.mem_cons.1 he with rfl | he
          · exact hx'.1 hx''
          · exact ih.1 hr' e he
        · cases h
      · intro h
        rw [hx'.2 (h (n, x) (by simp)), ih.2 (fun e he => h e (by simp [he]))]
    · cases h
  | .null :: _, _ :: _, _, h, _ => by simp [storeRow] at h
  | .int _ :: _, _ :: _, _, h, _ => by simp [storeRow] at h
  | .float _ :: _, _ :: _, _, h, _ => by simp [storeRow] at h
  | .list _ :: _, _ :: _, _, h, _ => by simp [storeRow] at h
  | .dict _ :: _, _ :: _, _, h, _ => by simp [storeRow] at h
  | [], _ :: _, _, h, _ => by simp [storeRow] at h
  | _ :: _, [], _, h, _ => by simp [storeRow] at h

/-- The names of a stored row can be written, and the backend reads them as they are. -/
structure NamesRead (L : Leaves) (tx : Json → String) (nm : String → Option String) (row : Dict String DbVal) : Prop where
  ne : row ≠ []
  good : ∀ e ∈ row, Good L tx (.str e.1)
  back : ∀ e ∈ row, nm (tx (.str e.1)) = some e.1

/-- **C63.** The backend stores the row that the statement means exactly if every backslash in its texts is followed by `%` or `_`. -/
theorem C63_stored_iff {d : Dict String Json} {t : String} {stored : Dict String DbVal} {nm : String → Option String} (h : InsertKeys d t)
    (hv : Dict.get? d "values" = none) (hs : runInsert d = some stored) (hn : NamesRead L tx nm stored) (n : Nat) :
    ∃ toks ins, format L (n + 2) d = .ok toks ∧ rInsert toks = some ins ∧ ins.table = t ∧ ins.rows.length = 1 ∧
      (ins.rows.map (readRow nm ins.columns) = [some stored] ↔ TextsKept stored) := by
  unfold runInsert at hs
  split at hs
  · rename_i ns vs hc hq
    obtain ⟨h1, h2, h3⟩ := storeRow_lits hs
    have hne : ns ≠ [] := by rw [h2]; simp [hn.ne]
    have hne' : vs ≠ [] := by
      rintro rfl
      cases ns with
      | nil => exact hne rfl
      | cons _ _ => simp at h3
    refine ⟨_, _, C63_written_partial (tx := tx) h hv hc hq ?_ h1 n, rInsert_oneRow t (by simpa using hne) (by simpa using hne'), rfl, rfl, ?_⟩
    · intro j hj
      rw [h2] at hj
      obtain ⟨e, he, rfl⟩ := List.mem_map.1 hj
      exact hn.good e he
    · rw [List.map_singleton, List.cons.injEq]
      simpa using readRow_iff nm hs hn.back
  · cases hs

/-! ### The ciphertexts survive -/

theorem kept_of : ∀ {s : List Char}, '\\' ∉ s → Format.kept s = true
  | [], _ => rfl
  | [c], h => by simp only [List.mem_singleton] at h; simp [Format.kept, Ne.symm h]
  | c :: d :: t, h => by
    simp only [List.mem_cons, not_or] at h
    rw [Format.kept, if_neg (Ne.symm h.1)]
    exact kept_of (by simpa using h.2)

theorem b64_no_backslash (bs : List UInt8) : '\\' ∉ Aes.b64encode bs := by
  intro h
  rcases Aes.b64encode_mem bs _ h with h | ⟨n, hn, h⟩
  · exact absurd h (by decide)
  · exact (Aes.b64Char_facts ⟨n, hn⟩).2.2.2.2.2.1 h.symm

theorem encrypt_no_backslash {A : Aes.Block} {s o : List Char} (h : Aes.encrypt A s = .ok o) : '\\' ∉ o := by
  unfold Aes.encrypt at h
  split at h
  · cases h
  · injection h with h
    rw [← h]
    exact b64_no_backslash _

theorem encAll_no_backslash {A : Aes.Block} : ∀ {gs : List (List Char)} {o : List Char}, Fuzzy.encAll A gs = .ok o → '\\' ∉ o
  | [], o, h => by
    simp only [Fuzzy.encAll, Except.ok.injEq] at h
    simp [← h]
  | g :: gs, o, h => by
    simp only [Fuzzy.encAll] at h
    split at h
    · cases h
    · rename_i c hc
      split at h
      · cases h
      · rename_i r hr
        injection h with h
        rw [← h, List.mem_append, not_or]
        exact ⟨encrypt_no_backslash hc, encAll_no_backslash hr⟩

theorem sym_no_backslash {c : Crypto} {k s o : String} (h : c.sym k s = .ok o) : '\\' ∉ o.toList := by
  unfold Crypto.sym at h
  cases he : Aes.encrypt (c.aes k) s.toList with
  | error e => rw [he] at h; cases h
  | ok x =>
    rw [he] at h
    injection h with h
    rw [← h, String.toList_ofList]
    exact encrypt_no_backslash he

theorem fuzzy_no_backslash {c : Crypto} {k s o : String} (h : c.fuzzy k s = .ok o) : '\\' ∉ o.toList := by
  unfold Crypto.fuzzy at h
  cases he : Fuzzy.fuzzyEncrypt c.alnum (c.aes k) s.toList with
  | error e => rw [he] at h; cases h
  | ok x =>
    rw [he] at h
    injection h with h
    rw [← h, String.toList_ofList]
    unfold Fuzzy.fuzzyEncrypt at he
    split at he <;> split at he
    all_goals first | exact encrypt_no_backslash he | exact encAll_no_backslash he

theorem map_ok {α β : Type} {x : Except PyErr α} {f : α → β} {b : β} : x.map f = .ok b ↔ ∃ a, x = .ok a ∧ f a = b := by
  cases x <;> simp [Except.map]

/-- The value is no text, or a text the backend reads as it is. -/
def KeptLit (v : Json) : Prop := ∀ s, dbLit v = some (.text s) → Format.kept s.toList = true

theorem encryptValue_kept {c : Crypto} {cm : ColMeta} {v o : Json} {enc : String} (hh : ∀ k z, '\\' ∉ (c.hom k z).toList)
    (h : encryptValue c cm v enc = .ok o) : KeptLit o := by
  intro s hs
  unfold encryptValue at h
  simp only at h
  split at h
  · cases h
  · split at h
    · cases h
    · split at h
      · split at h
        · cases h
        · obtain ⟨z, hz⟩ := map_ok.1 h
          rw [← hz.2] at hs
          simp [dbLit] at hs
      · split at h
        · split at h
          · cases h
          · obtain ⟨t, ht, rfl⟩ := map_ok.1 h
            simp only [Json.lit, dbLit, Option.some.injEq, DbVal.text.injEq] at hs
            exact hs ▸ kept_of (sym_no_backslash ht)
        · split at h
          · split at h
            · cases h
            · obtain ⟨t, ht, rfl⟩ := map_ok.1 h
              simp only [Json.lit, dbLit, Option.some.injEq, DbVal.text.injEq] at hs
              exact hs ▸ kept_of (fuzzy_no_backslash ht)
          · split at h
            · split at h
              · cases h
              · split at h
                · cases h
                · injection h with h
                  subst h
                  simp only [Json.lit, dbLit, Option.some.injEq, DbVal.text.injEq] at hs
                  exact hs ▸ kept_of (hh _ _)
            · injection h with h
              subst h
              simp [dbLit] at hs

theorem encryptAll_kept {c : Crypto} {cm : ColMeta} {v : Json} (hh : ∀ k z, '\\' ∉ (c.hom k z).toList) : ∀ {encs : List String} {o : List Json},
    encryptAll c cm v encs = .ok o → ∀ x ∈ o, KeptLit x
  | [], o, h => by
    simp only [encryptAll, Except.ok.injEq] at h
    simp [← h]
  | e :: r, o, h => by
    simp only [encryptAll] at h
    split at h
    · cases h
    · rename_i x hx
      split at h
      · cases h
      · rename_i xs hxs
        injection h with h
        subst h
        intro y hy
        rcases List.mem_cons.1 hy with rfl | hy
        · exact encryptValue_kept hh hx
        · exact encryptAll_kept hh hxs y hy

theorem valuesLoop_kept {c : Crypto} {cols : Dict String ColMeta} (hh : ∀ k z, '\\' ∉ (c.hom k z).toList) : ∀ {js vs o : List Json},
    (∀ e ∈ js.zip vs, ∀ cm, colOfJson cols e.1 = .ok cm → cm.plaintext = true → KeptLit e.2) → valuesLoop c cols js vs = .ok o → ∀ x ∈ o, KeptLit x
  | [], vs, o, _, h => by
    simp only [valuesLoop, Except.ok.injEq] at h
    simp [← h]
  | j :: js, [], o, _, h => by
    simp only [valuesLoop, Except.ok.injEq] at h
    simp [← h]
  | j :: js, v :: vs, o, hp, h => by
    simp only [valuesLoop] at h
    split at h
    · cases h
    · rename_i cm hcm
      split at h
      · cases h
      · rename_i xs hxs
        split at h
        · cases h
        · rename_i r hr
          injection h with h
          subst h
          intro x hx
          rcases List.mem_append.1 hx with hx | hx
          · split at hxs
            · rename_i hpl
              injection hxs with hxs
              rw [← hxs, List.mem_singleton] at hx
              subst hx
              exact hp (j, x) (by simp) cm hcm hpl
            · split at hxs
              · split at hxs
                · injection hxs with hxs
                  rw [← hxs] at hx
                  simp at hx
                · cases hxs
              · exact encryptAll_kept hh hxs x hx
          · exact valuesLoop_kept hh (fun e he => hp e (by simp [he])) hr x hx

theorem storeRow_kept : ∀ {ns vs : List Json} {stored : Dict String DbVal}, storeRow ns vs = some stored → (∀ v ∈ vs, KeptLit v) → TextsKept stored
  | [], [], stored, h, _ => by
    simp only [storeRow, Option.some.injEq] at h
    subst h
    simp [TextsKept]
  | .str n :: ns, v :: vs, stored, h, hk => by
    simp only [storeRow] at h
    split at h
    · rename_i x r hx hr
      injection h with h
      subst h
      intro e he
      rcases List.mem_cons.1 he with rfl | he
      · rintro s rfl
        exact hk v (by simp) s hx
      · exact storeRow_kept hr (fun v hv => hk v (by simp [hv])) e he
    · cases h
  | .null :: _, _ :: _, _, h, _ => by simp [storeRow] at h
  | .int _ :: _, _ :: _, _, h, _ => by simp [storeRow] at h
  | .float _ :: _, _ :: _, _, h, _ => by simp [storeRow] at h
  | .list _ :: _, _ :: _, _, h, _ => by simp [storeRow] at h
  | .dict _ :: _, _ :: _, _, h, _ => by simp [storeRow] at h
  | [], _ :: _, _, h, _ => by simp [storeRow] at h
  | _ :: _, [], _, h, _ => by simp [storeRow] at h

/-- **C63, partial.** From the user's INSERT to the stored row: the rewritten statement is written as a text that the backend reads as an INSERT into the
renamed table, and that stores the row `runInsert` describes (the row of C25).  Only texts of columns that are not encrypted can be changed, by their backslashes. -/
theorem C63_rewritten_partial {c : Crypto} {db : Db} {fuel : Nat} {t : String} {tm : TableMeta ColMeta} {row : List (String × Val)} {ins : Dict String Json}
    {table : Json} {s : Sel} {stored : Dict String DbVal} {nm : String → Option String} (ht : Dict.get? db t = some tm)
    (hh : ∀ k z, '\\' ∉ (c.hom k z).toList)
    (hp : ∀ n x, (n, Val.text x) ∈ row → ∀ cm, Dict.get? tm.columns n = some cm → cm.plaintext = true → Format.kept x.toList = true)
    (hr : rewriteQuery c db fuel (insertJson t row) = .ok (ins, table, s)) (hs : runInsert ins = some stored) (hn : NamesRead L tx nm stored) (n : Nat) :
    ∃ toks b, format L (n + 2) ins = .ok toks ∧ rInsert toks = some b ∧ b.table = tm.anonymous ∧ b.rows.map (readRow nm b.columns) = [some stored] := by
  obtain ⟨tm', bcols, bvals, h1, h2, h3, h4, h5, h6⟩ := insert_spec (insertJson_isInsert t row) hr
  rw [ht] at h1
  injection h1 with h1
  subst h1
  have hspec := (rewriteQuery_spec hr).2
  have hnone : ∀ k, k ≠ "insert" → k ≠ "columns" → k ≠ "query" → Dict.get? ins k = none := by
    intro k a b d
    have hj : Dict.get? (insertJson t row) k = none := by simp [insertJson, Dict.get?_cons, Ne.symm a, Ne.symm b, Ne.symm d]
    by_cases hk : k ∈ clauseKeys
    · exact ((hspec k).2 hk).1 hj
    · rw [(hspec k).1 hk, hj]
  have hkeys : InsertKeys ins tm.anonymous := by
    refine ⟨h4, fun k hk => ?_⟩
    refine hnone k ?_ ?_ ?_ <;> (rintro rfl; exact absurd hk (by decide))
  obtain ⟨toks, b, g1, g2, g3, _, g5⟩ := C63_stored_iff (L := L) hkeys (hnone "values" (by decide) (by decide) (by decide)) hs hn n
  refine ⟨toks, b, g1, g2, g3, g5.2 ?_⟩
  have hst : storeRow bcols bvals = some stored := by
    unfold runInsert at hs
    rw [h5, h6] at hs
    exact hs
  refine storeRow_kept hst (valuesLoop_kept hh ?_ h3)
  intro e he cm hcm hpl x hx
  rw [List.zip_map'] at he
  obtain ⟨r, hr, rfl⟩ := List.mem_map.1 he
  obtain ⟨m, v⟩ := r
  cases v with
  | int z => simp [Val.json, dbLit] at hx
  | text y =>
    simp only [Val.json, Json.lit, dbLit, Option.some.injEq, DbVal.text.injEq] at hx
    subst hx
    exact hp m y hr cm (getItem_ok.1 hcm) hpl

/-! ### Several rows -/

/-- A number or a string as `get_literal` (utils.py 431-438) leaves it. -/
inductive IsScalar : Json → Prop
  | int (z : ℤ) : IsScalar (.int z)
  | str (s : String) : IsScalar (.str s)

/-- Its text. -/
def scalarText : Json → String
  | .int z => intText z
  | .str s => String.ofList ('\'' :: (doubleQuotes s.toList ++ ['\'']))
  | _ => ""

/-- Its meaning. -/
def scalarVal : Json → DbVal
  | .int z => .int z
  | .str s => .text s
  | _ => .null

theorem literalText_scalar {v : Json} (h : IsScalar v) (n : Nat) : literalText L (n + 1) v = .ok (scalarText v) := by
  cases h <;> simp [literalText, scalarText]

theorem readLit_scalar {v : Json} (h : IsScalar v) : readLit (scalarText v) = some (scalarVal v) ↔ ∀ s, v = .str s → Format.kept s.toList = true := by
  cases h with
  | int z => simp [scalarText, scalarVal, readLit_int]
  | str s => simp only [scalarText, scalarVal, readLit_str, Json.str.injEq, forall_eq']

theorem dictRow_ok {r : Dict String Json} (n : Nat) : ∀ {cols : List String}, (∀ c ∈ cols, ∃ v, Dict.get? r c = some v ∧ IsScalar v) →
    dictRow L (n + 1) cols (.dict r) = .ok (parens (commaSep ((cols.map fun c => scalarText ((Dict.get? r c).getD .null)).map fun s => [.leaf s]))) := by
  intro cols h
  unfold dictRow
  rw [each_ok (g := fun c => [Tok.leaf (scalarText ((Dict.get? r c).getD .null))]) cols]
  · simp [Except.map, List.map_map, Function.comp_def]
  · intro c hc
    obtain ⟨v, hv, hs⟩ := h c hc
    simp only [pyItem, Dict.getItem, hv, literalText_scalar hs, leafOf, Except.map, Option.getD_some]

/-- The text of the INSERT of rows. -/
def manyRows (t : String) (cs : List String) (rows : List (List String)) : List Tok :=
  .kw "INSERT" :: .kw "INTO" :: .leaf t :: (parens (commaSep (cs.map fun s => [.leaf s])) ++
    .kw "VALUES" :: commaSep (rows.map fun xs => parens (commaSep (xs.map fun s => [.leaf s]))))

theorem rRows_toks : ∀ (n : Nat) (rows : List (List String)), rows ≠ [] → (∀ xs ∈ rows, xs ≠ []) → rows.length ≤ n →
    rRows n (commaSep (rows.map fun xs => parens (commaSep (xs.map fun s => [.leaf s])))) = some rows
  | _, [], h, _, _ => absurd rfl h
  | 0, _ :: _, _, _, h => by simp at h
  | n + 1, [xs], _, hx, _ => by
    simp only [List.map_cons, List.map_nil, commaSep, parens, rRows]
    rw [rLeaves_toks [] xs (hx xs (by simp))]
  | n + 1, xs :: ys :: r, _, hx, hl => by
    have ih := rRows_toks n (ys :: r) (by simp) (fun z hz => hx z (by simp [hz])) (by simpa using hl)
    simp only [List.map_cons, commaSep] at ih ⊢
    simp only [parens, rRows, List.cons_append, List.append_assoc, List.nil_append] at ih ⊢
    rw [rLeaves_toks _ xs (hx xs (by simp))]
    simp only [ih, Option.map_some]

theorem commaSep_length (f : List String → List Tok) (hf : ∀ xs, f xs ≠ []) : ∀ rows : List (List String), rows.length ≤ (commaSep (rows.map f)).length
  | [] => by simp
  | [xs] => by
    have := List.length_pos_iff.2 (hf xs)
    simp only [List.map_cons, List.map_nil, commaSep, List.length_cons, List.length_nil]
    omega
  | xs :: ys :: r => by
    have ih := commaSep_length f hf (ys :: r)
    simp only [List.map_cons, commaSep, List.length_cons, List.length_append] at ih ⊢
    omega

theorem rInsert_manyRows (t : String) {cs : List String} {rows : List (List String)} (hc : cs ≠ []) (hr : rows ≠ []) (hx : ∀ xs ∈ rows, xs ≠ []) :
    rInsert (manyRows t cs rows) = some ⟨t, cs, rows⟩ := by
  unfold manyRows
  rw [show ∀ l, parens l = .lp :: (l ++ [.rp]) from fun _ => rfl]
  simp only [rInsert, List.cons_append, List.append_assoc, List.nil_append, and_self, if_true]
  rw [rLeaves_toks _ cs hc]
  simp only [if_true]
  rw [rRows_toks _ rows hr hx]
  · rfl
  · have := commaSep_length (fun xs => parens (commaSep (xs.map fun s => [.leaf s]))) (by simp [parens]) rows
    omega

/-- An INSERT of several rows as parsed: the rows are dicts of numbers and strings that all have the same columns. -/
structure IsRows (L : Leaves) (tx : Json → String) (rows : List (Dict String Json)) : Prop where
  ne : rows ≠ []
  cols : rowKeys (rows.map .dict) ≠ []
  good : ∀ c ∈ rowKeys (rows.map .dict), Good L tx (.str c)
  cell : ∀ r ∈ rows, ∀ c ∈ rowKeys (rows.map .dict), ∃ v, Dict.get? r c = some v ∧ IsScalar v

theorem mem_sortedSet {l : List String} {a : String} : a ∈ sortedSet l ↔ a ∈ l := by
  unfold sortedSet
  rw [(List.mergeSort_perm _ _).mem_iff, List.mem_dedup]

/-- **C63, partial.** An INSERT of several rows is written with its columns in alphabetical order, and every row in the order of the columns. -/
theorem C63_rows_partial {d : Dict String Json} {t : String} {rows : List (Dict String Json)} (h : InsertKeys d t)
    (hv : Dict.get? d "values" = some (.list (rows.map .dict))) (hc : Dict.get? d "columns" = none) (hr : IsRows L tx rows) (n : Nat) :
    ∃ cols toks, cols ≠ [] ∧ (∀ c, c ∈ cols ↔ c ∈ rowKeys (rows.map .dict)) ∧ format L (n + 2) d = .ok toks ∧
      rInsert toks = some ⟨t, cols.map fun c => tx (.str c), rows.map fun r => cols.map fun c => scalarText ((Dict.get? r c).getD .null)⟩ := by
  have hne : sortedSet (rowKeys (rows.map .dict)) ≠ [] := by
    obtain ⟨a, l, hl⟩ := List.exists_cons_of_ne_nil hr.cols
    exact List.ne_nil_of_mem (mem_sortedSet.2 (by rw [hl]; simp : a ∈ rowKeys (rows.map .dict)))
  refine ⟨_, manyRows t _ _, hne, fun c => mem_sortedSet, ?_, rInsert_manyRows t (by simpa using hne) (by simpa using hr.ne) ?_⟩
  · rw [format_insert h]
    have h1 := h.other "overwrite" (by decide)
    have h2 := h.other "if exists" (by decide)
    have e1 := each_ok (f := fun c => dispatch L (n + 1) (.str c) 100) (g := fun c => [Tok.leaf (tx (.str c))]) (sortedSet (rowKeys (rows.map .dict)))
      (fun c hc => dispatch_good (hr.good c (mem_sortedSet.1 hc)) n 100)
    have e2 : each (dictRow L (n + 2) (sortedSet (rowKeys (rows.map .dict)))) (rows.map .dict) = .ok (rows.map fun r =>
        parens (commaSep (((sortedSet (rowKeys (rows.map .dict))).map fun c => scalarText ((Dict.get? r c).getD .null)).map fun s => [.leaf s]))) := by
      have : ∀ (l : List (Dict String Json)), (∀ r ∈ l, r ∈ rows) → each (dictRow L (n + 2) (sortedSet (rowKeys (rows.map .dict)))) (l.map .dict) =
          .ok (l.map fun r => parens (commaSep (((sortedSet (rowKeys (rows.map .dict))).map fun c =>
            scalarText ((Dict.get? r c).getD .null)).map fun s => [.leaf s]))) := by
        intro l
        induction l with
        | nil => intro _; rfl
        | cons r l ih =>
          intro hl
          simp only [List.map_cons, each]
          rw [dictRow_ok (n + 1) (fun c hc => hr.cell r (hl r (by simp)) c (mem_sortedSet.1 hc)), ih (fun r hr => hl r (by simp [hr]))]
      exact this rows (fun _ h => h)
    have e3 : (rows.map Json.dict).all isDict = true := by simp [isDict]
    unfold insertToks
    simp only [h.table, hc, hv, hasKey, h1, h2, rawName, pyIter, e1, e2, e3, Bind.bind, Except.bind, Option.getD_some, Option.isSome_none, Bool.false_eq_true, if_false, if_true]
    simp [manyRows, List.map_map, Function.comp_def]
  · intro xs hx
    obtain ⟨r, _, rfl⟩ := List.mem_map.1 hx
    simpa using hne

/-- **C63 fails.** The values the user gives for several rows reach the backend as they are: the rewriter leaves them alone, and the text sent spells them out. -/
theorem C63_fails_rows_plain (c : Crypto) (db : Db) (fuel : Nat) {t : String} {tm : TableMeta ColMeta} {rows : List (Dict String Json)} (htm : Dict.get? db t = some tm)
    (hr : IsRows L tx rows) (n : Nat) : ∃ (json : Dict String Json) (cols : List String) (toks : List Tok), rewriteQuery c db fuel [("insert", .str t), ("values", .list (rows.map .dict))] = .ok (json, .str t, {}) ∧
      format L (n + 2) json = .ok toks ∧ (∀ k, k ∈ cols ↔ k ∈ rowKeys (rows.map .dict)) ∧
      rInsert toks = some ⟨tm.anonymous, cols.map fun c => tx (.str c), rows.map fun r => cols.map fun c => scalarText ((Dict.get? r c).getD .null)⟩ := by
  obtain ⟨cols, toks, _, h2, h3, h4⟩ := C63_rows_partial (L := L) (tx := tx) (d := [("insert", .str tm.anonymous), ("values", .list (rows.map .dict))])
    (t := tm.anonymous) ⟨by simp [Dict.get?_cons], by simp [Dict.get?_cons]⟩ (by simp [Dict.get?_cons]) (by simp [Dict.get?_cons]) hr n
  exact ⟨_, cols, toks, C24_fails_multi_row_accepted c db fuel t tm _ htm, h3, h2, h4⟩

/-! ### Statements that are not written -/

theorem each_error {α β : Type} {f : α → Except PyErr β} {a : α} {e : PyErr} (h : f a = .error e) : ∀ {l : List α}, a ∈ l → ∃ e, each f l = .error e
  | b :: l, hm => by
    simp only [each]
    cases hb : f b with
    | error e' => exact ⟨e', rfl⟩
    | ok y =>
      rcases List.mem_cons.1 hm with rfl | hm
      · rw [h] at hb; cases hb
      · obtain ⟨e', he⟩ := each_error h hm
        exact ⟨e', by simp [he]⟩

/-- **C63 fails.** An INSERT with a value that is neither a number nor a string (NULL, a call, a sum) cannot be written. -/
theorem C63_fails_expression {d : Dict String Json} {t : String} {ns vs : List Json} {x : Dict String Json} (h : InsertKeys d t)
    (hv : Dict.get? d "values" = none) (hc : Dict.get? d "columns" = some (.list ns)) (hq : Dict.get? d "query" = some (.dict [("select", .list vs)]))
    (hn : ∀ n ∈ ns, Good L tx n) (hl : ∀ v ∈ vs, isDict v = true) (hm : .dict [("value", .dict x)] ∈ vs) (hx : Dict.get? x "literal" = none) (n : Nat) :
    ∃ e, format L (n + 2) d = .error e := by
  rw [format_insert h]
  have e1 := each_ok (f := fun j => dispatch L (n + 1) j 100) (g := fun j => [Tok.leaf (tx j)]) ns (fun j hj => dispatch_good (hn j hj) n 100)
  obtain ⟨e, e2⟩ := each_error (f := queryValue L (n + 2)) (a := .dict [("value", .dict x)]) (e := .keyError)
    (by simp [queryValue, pyItem, Dict.getItem, Dict.get?_cons, literalText, hx, leafOf, Except.map]) hm
  have e3 : vs.all isDict = true := List.all_eq_true.2 hl
  refine ⟨e, ?_⟩
  unfold insertToks
  simp [h.table, hc, hq, hv, rawName, pyIter, e1, e2, e3, pyIn, pyItem, Dict.getItem, Dict.get?, Bind.bind, Except.bind]

/-- **C63 fails.** A name among the values (DEFAULT, a column) is written as a string. -/
theorem C63_fails_name (s : String) (n : Nat) : queryValue L (n + 2) (.dict [("value", .str s)]) = queryValue L (n + 2) (.dict [("value", .dict [("literal", .str s)])]) := by
  simp [queryValue, pyItem, Dict.getItem, Dict.get?_cons, literalText]

/-- **C63 fails.** INSERT … SELECT: of the query only its select list counts, so that two queries that differ in FROM, WHERE and so on give the same text. -/
theorem C63_fails_insert_select {d d' : Dict String Json} {t : String} {q q' : Dict String Json} (h : InsertKeys d t) (h' : InsertKeys d' t)
    (hk : Dict.get? d "columns" = Dict.get? d' "columns") (hv : Dict.get? d "values" = none) (hv' : Dict.get? d' "values" = none)
    (hq : Dict.get? d "query" = some (.dict q)) (hq' : Dict.get? d' "query" = some (.dict q')) (he : Dict.get? q "select" = Dict.get? q' "select") (n : Nat) :
    format L (n + 1) d = format L (n + 1) d' := by
  rw [format_insert h, format_insert h']
  unfold insertToks
  simp [h.table, h'.table, hk, hv, hv', hq, hq', hasKey, h.other "overwrite", h'.other "overwrite", h.other "if exists", h'.other "if exists", pyIn, pyItem, Dict.getItem, he]

/-- The values are left out: there is no select list, or it is one item (`select` is then no list) or `*`. -/
def NoValues (q : Dict String Json) : Prop :=
  Dict.get? q "select" = none ∨ (∃ e r, Dict.get? q "select" = some (.dict (e :: r))) ∨ ∃ s, s ≠ "" ∧ Dict.get? q "select" = some (.str s)

/-- **C63 fails.** With one value, with `SELECT *`, and with several rows one of whose values is 0, empty or an expression, the values are left out: the text is no INSERT. -/
theorem C63_fails_no_values {d : Dict String Json} {t : String} {ns : List Json} {q : Dict String Json} (h : InsertKeys d t)
    (hv : Dict.get? d "values" = none) (hc : Dict.get? d "columns" = some (.list ns)) (hq : Dict.get? d "query" = some (.dict q)) (hz : NoValues q)
    (hn : ∀ n ∈ ns, Good L tx n) (n : Nat) :
    ∃ toks, format L (n + 2) d = .ok toks ∧ .kw "VALUES" ∉ toks ∧ rInsert toks = none := by
  rw [format_insert h]
  have h1 := h.other "overwrite" (by decide)
  have e1 := each_ok (f := fun j => dispatch L (n + 1) j 100) (g := fun j => [Tok.leaf (tx j)]) ns (fun j hj => dispatch_good (hn j hj) n 100)
  refine ⟨.kw "INSERT" :: .kw "INTO" :: .leaf t :: parens (commaSep ((ns.map tx).map fun s => [.leaf s])), ?_, ?_, ?_⟩
  · unfold insertToks
    rcases hz with hz | ⟨e, r, hz⟩ | ⟨s, hs, hz⟩
    · simp [h.table, hc, hq, hv, hasKey, h1, rawName, pyIter, e1, pyIn, hz, Bind.bind, Except.bind, Function.comp_def]
    · simp [h.table, hc, hq, hv, hasKey, h1, rawName, pyIter, e1, pyIn, pyItem, Dict.getItem, hz, isDict, Bind.bind, Except.bind, Function.comp_def]
    · obtain ⟨a, l, hl⟩ := List.exists_cons_of_ne_nil (l := s.toList) (by simpa using hs)
      simp [h.table, hc, hq, hv, hasKey, h1, rawName, pyIter, e1, pyIn, pyItem, Dict.getItem, hz, isDict, hl, Bind.bind, Except.bind, Function.comp_def]
  · have : ∀ l : List String, Tok.kw "VALUES" ∉ commaSep (l.map fun s => [Tok.leaf s]) := by
      intro l
      induction l with
      | nil => simp [commaSep]
      | cons a l ih =>
        cases l with
        | nil => simp [commaSep]
        | cons b l => simpa [commaSep] using ih
    simpa (decide := true) [parens] using this (ns.map tx)
  · cases hns : ns.map tx with
    | nil => simp [rInsert, parens, commaSep, rLeaves]
    | cons a l =>
      have := rLeaves_toks [] (a :: l) (by simp)
      simp only [rInsert, parens, and_self, if_true, this]

/-- **C63 fails.** A single column is written as the list of its characters. -/
theorem C63_fails_one_column {d : Dict String Json} {t c : String} {q : Dict String Json} (h : InsertKeys d t) (hv : Dict.get? d "values" = none)
    (hc : Dict.get? d "columns" = some (.str c)) (hq : Dict.get? d "query" = some (.dict q)) (hz : NoValues q)
    (hn : ∀ ch ∈ c.toList, Good L tx (.str (String.ofList [ch]))) (n : Nat) :
    format L (n + 2) d = .ok (.kw "INSERT" :: .kw "INTO" :: .leaf t ::
      parens (commaSep (c.toList.map fun ch => [.leaf (tx (.str (String.ofList [ch])))]))) := by
  rw [format_insert h]
  have h1 := h.other "overwrite" (by decide)
  have e1 : each (fun j => dispatch L (n + 1) j 100) (c.toList.map fun ch => Json.str (String.ofList [ch])) =
      .ok ((c.toList.map fun ch => Json.str (String.ofList [ch])).map fun j => [Tok.leaf (tx j)]) := by
    refine each_ok _ fun j hj => ?_
    obtain ⟨ch, hch, rfl⟩ := List.mem_map.1 hj
    exact dispatch_good (hn ch hch) n 100
  unfold insertToks
  rcases hz with hz | ⟨e, r, hz⟩ | ⟨s, hs, hz⟩
  · simp only [h.table, hc, hq, hv, hasKey, h1, rawName, pyIter, e1, pyIn, hz, Bind.bind, Except.bind]
    simp [Function.comp_def]
  · simp only [h.table, hc, hq, hv, hasKey, h1, rawName, pyIter, e1, pyIn, pyItem, Dict.getItem, hz, Bind.bind, Except.bind]
    simp [Function.comp_def, isDict]
  · obtain ⟨a, l, hl⟩ := List.exists_cons_of_ne_nil (l := s.toList) (by simpa using hs)
    simp only [h.table, hc, hq, hv, hasKey, h1, rawName, pyIter, e1, pyIn, pyItem, Dict.getItem, hz, Bind.bind, Except.bind]
    simp [Function.comp_def, isDict, hl]

theorem readLit_paren : readLit "(" = none := by
  have h : "(".toList = ['('] := by simp
  simp [readLit, h, Text.parseInt, Text.parseNat]

/-- **C63 fails.** Rows without column names are written as the characters of their text, a comma between any two: the first "value" of every row is an opening parenthesis. -/
theorem C63_fails_rows_without_columns {l : List Json} {xs : List String} (n : Nat) (h : each (literalText L n) l = .ok xs) :
    ∃ r, listRow L (n + 1) (.list l) = .ok (.lp :: .leaf "(" :: r) ∧ readLit "(" = none := by
  have ht : (("(" ++ String.intercalate ", " xs ++ ")").toList) = '(' :: (String.intercalate ", " xs ++ ")").toList := by simp
  have hc : ∀ l : List Char, ∃ r, commaSep (('(' :: l).map fun c => [Tok.leaf (String.ofList [c])]) = .leaf (String.ofList ['(']) :: r := by
    intro l
    cases l with
    | nil => exact ⟨_, rfl⟩
    | cons b l => exact ⟨_, rfl⟩
  obtain ⟨r, hr⟩ := hc (String.intercalate ", " xs ++ ")").toList
  have e : String.ofList ['('] = "(" := by simp
  refine ⟨r ++ [.rp], ?_, readLit_paren⟩
  simp only [listRow, literalText, h, Except.map, ht, hr, parens, e, List.cons_append]

/-- The backend reads a row of `C63_rows_partial` as the user's values. -/
theorem C63_rows_stored_partial (nm : String → Option String) {r : Dict String Json} : ∀ {cols : List String}, (∀ c ∈ cols, nm (tx (.str c)) = some c) →
    (∀ c ∈ cols, ∃ v, Dict.get? r c = some v ∧ IsScalar v ∧ ∀ s, v = .str s → Format.kept s.toList = true) →
    readRow nm (cols.map fun c => tx (.str c)) (cols.map fun c => scalarText ((Dict.get? r c).getD .null)) =
      some (cols.map fun c => (c, scalarVal ((Dict.get? r c).getD .null)))
  | [], _, _ => rfl
  | c :: cols, hn, h => by
    obtain ⟨v, h1, h2, h3⟩ := h c (by simp)
    have ih := C63_rows_stored_partial nm (r := r) (cols := cols) (fun c hc => hn c (by simp [hc])) (fun c hc => h c (by simp [hc]))
    simp only [List.map_cons, readRow, hn c (by simp), h1, Option.getD_some, (readLit_scalar h2).2 h3, ih]

end

/-! ### The hypotheses can be met -/

/-- `INSERT INTO t (id, name) VALUES (7, 'o''hara')`. -/
def demoInsert : Dict String Json :=
  [("columns", .list [.str "id", .str "name"]), ("query", .dict [("select", .list [.dict [("value", .int 7)], .dict [("value", .dict [("literal", .str "o'hara")])]])]),
    ("insert", .str "t")]

theorem demoInsert_keys : InsertKeys demoInsert "t" := ⟨by simp [demoInsert, Dict.get?_cons], by simp [demoInsert, Dict.get?_cons]⟩

theorem demo_names (row : Dict String DbVal) (h : row ≠ []) : NamesRead demoLeaves demoText some row := ⟨h, fun _ _ => demo_str _, fun _ _ => rfl⟩

example : ∃ toks ins, format demoLeaves 2 demoInsert = .ok toks ∧ rInsert toks = some ins ∧ ins.table = "t" ∧ ins.rows.length = 1 ∧
    (ins.rows.map (readRow some ins.columns) = [some [("id", .int 7), ("name", .text "o'hara")]] ↔ TextsKept [("id", .int 7), ("name", .text "o'hara")]) :=
  C63_stored_iff demoInsert_keys (by simp [demoInsert, Dict.get?_cons]) (by simp [runInsert, demoInsert, Dict.get?_cons, storeRow, dbLit]) (demo_names _ (by simp)) 0

example : TextsKept [("id", .int 7), ("name", .text "o'hara")] := by
  intro e he s hs
  simp only [List.mem_cons, List.not_mem_nil, or_false] at he
  rcases he with rfl | rfl
  · cases hs
  · injection hs with hs
    subst hs
    exact kept_of (by simp)

/-- The whole way for the row of `Clause.demoRow`. -/
example : ∃ ins stored toks b, runInsert ins = some stored ∧ format demoLeaves 2 ins = .ok toks ∧ rInsert toks = some b ∧ b.table = demoTable.anonymous ∧
    b.rows.map (readRow some b.columns) = [some stored] := by
  obtain ⟨ins, s, stored, h1, _, h2⟩ := C25_insert_accepted_partial demoCrypto demoDb 1 "emp" demoTable demoRow rfl demo_fits
  have hne : stored ≠ [] := by
    rintro rfl
    obtain ⟨tm', bcols, bvals, g1, g2, _, _, g5, g6⟩ := insert_spec (insertJson_isInsert "emp" demoRow) h1
    injection (show some demoTable = some tm' from g1) with g1
    subst g1
    unfold runInsert at h2
    rw [g5, g6] at h2
    have e := (storeRow_lits h2).2.1
    rw [e] at g2
    have : columnsLoop demoTable.columns (demoRow.map fun e => .str e.1) = .ok [.str "id", .str "name_f", .str "name_s", .str "age_o", .str "age_s"] := rfl
    rw [this] at g2
    cases g2
  obtain ⟨toks, b, g⟩ := C63_rewritten_partial (nm := some) (L := demoLeaves) (tx := demoText) (c := demoCrypto) (tm := demoTable) rfl
    (by simp [demoCrypto]) (by
      intro n x hx cm hcm hp
      simp only [demoRow, List.mem_cons, Prod.mk.injEq, reduceCtorEq, and_false, Val.text.injEq, List.not_mem_nil, or_false, false_or] at hx
      obtain ⟨rfl, rfl⟩ := hx
      exact kept_of (by simp)) h1 h2 (demo_names _ hne) 0
  exact ⟨ins, stored, toks, b, h2, g⟩

/-- `INSERT INTO t (name, id) VALUES ('a', 1), ('b', 2)`. -/
theorem demoRows : IsRows demoLeaves demoText [[("name", .str "a"), ("id", .int 1)], [("name", .str "b"), ("id", .int 2)]] where
  ne := by simp
  cols := by simp [rowKeys]
  good := fun _ _ => demo_str _
  cell := by
    intro r hr c hc
    simp only [List.map_cons, List.map_nil, rowKeys, List.append_nil, List.cons_append, List.nil_append, List.mem_cons, List.not_mem_nil, or_false] at hr hc
    rcases hr with rfl | rfl <;> rcases hc with rfl | rfl | rfl | rfl <;> simp [Dict.get?_cons, IsScalar.int, IsScalar.str]

end EulerDB.Statement
