/-
# ALTER TABLE … key statements are recognised for what they say (C64)

`parse_alter_key` decides whether a statement adds or drops a key or an index, and which.  `Stmt`
and `Spells` say how such a statement is written; what the code makes of a text is compared with
what the text says.
-/
import Verif.Alter.Unique
import Verif.Clause.NameProps

namespace EulerDB.Alter

open EulerDB EulerDB.Clause EulerDB.Delta

/-- The dict a statement stands for. -/
def Stmt.json : Stmt → Dict String Json
  | .addPrimary t c => [("alter", str t), ("add primary key", keyCols [String.ofList c])]
  | .dropPrimary t => [("alter", str t), ("drop primary key", .int 1)]
  | .addForeign t n c u d => [("alter", str t), ("add constraint", str n), ("add foreign key", keyCols [String.ofList c]), ("reference_table", str u), ("reference_feature", keyCols [String.ofList d])]
  | .dropForeign t n => [("alter", str t), ("drop foreign key", str n)]
  | .addIndex t n c => [("alter", str t), ("add index", str n), ("add index feature", keyCols [String.ofList c])]
  | .addFulltext t n c => [("alter", str t), ("add fulltext", str n), ("add fulltext feature", keyCols [String.ofList c])]
  | .addUnique t n c => [("alter", str t), ("add unique", str n), ("add unique feature", keyCols [String.ofList c])]
  | .dropIndex t n => [("alter", str t), ("drop index", str n)]

variable {uni : Char → Bool}

/-- What `parseAlter` makes of the captured texts. -/
def result : Kind → List (List Char) → Dict String Json
  | .addPrimary, [t, c] => [("alter", str t), ("add primary key", values c)]
  | .dropPrimary, [t] => [("alter", str t), ("drop primary key", .int 1)]
  | .addForeign, [t, n, c, u, d] => [("alter", str t), ("add constraint", str n), ("add foreign key", values c), ("reference_table", str u), ("reference_feature", values d)]
  | .dropForeign, [t, n] => [("alter", str t), ("drop foreign key", str n)]
  | .addIndex, [t, n, c] => [("alter", str t), ("add index", str n), ("add index feature", values c)]
  | .addFulltext, [t, n, c] => [("alter", str t), ("add fulltext", str n), ("add fulltext feature", values c)]
  | .addUnique, [t, n, c] => [("alter", str t), ("add unique", str n), ("add unique feature", values c)]
  | .dropIndex, [t, n] => [("alter", str t), ("drop index", str n)]
  | _, _ => []

/-- If one expression matches and no other, it decides. -/
theorem parse_one {k : Kind} {caps : List (List Char)} {text : List Char} (h : ∀ k', run uni k'.pat none text = if k' = k then some caps else none) (hr : result k caps ≠ []) :
    parseAlter uni text = result k caps := by
  have h1 := h .addPrimary
  have h2 := h .dropPrimary
  have h3 := h .addForeign
  have h4 := h .dropForeign
  have h5 := h .addIndex
  have h6 := h .addFulltext
  have h7 := h .addUnique
  have h8 := h .dropIndex
  simp only [Kind.pat] at h1 h2 h3 h4 h5 h6 h7 h8
  unfold parseAlter
  rw [h1, h2, h3, h4, h5, h6, h7, h8]
  cases k <;> simp only [reduceCtorEq, if_false, if_true]
  all_goals
    unfold result at hr ⊢
    split at hr
    all_goals first | rfl | exact absurd rfl hr | skip
  all_goals simp_all

theorem parse_none {text : List Char} (h : ∀ k : Kind, run uni k.pat none text = none) : parseAlter uni text = [] := by
  have h1 := h .addPrimary
  have h2 := h .dropPrimary
  have h3 := h .addForeign
  have h4 := h .dropForeign
  have h5 := h .addIndex
  have h6 := h .addFulltext
  have h7 := h .addUnique
  have h8 := h .dropIndex
  simp only [Kind.pat] at h1 h2 h3 h4 h5 h6 h7 h8
  unfold parseAlter
  rw [h1, h2, h3, h4, h5, h6, h7, h8]

theorem values_name {c : List Char} (h : ∀ d ∈ c, isWord uni d = true) : values c = keyCols [String.ofList c] := by
  have : ',' ∉ c := fun hc => by have := h _ hc; simp [isWord] at this
  simp [values, Text.split_word c this, keyCols, str]

/-- What the text says, from the table on. -/
theorem parse_follows {k : Kind} {t : List Char} {is : List Item} {names : List (List Char)} {text : List Char}
    (hs : Spells uni false (.kw "alter".toList :: .kw "table".toList :: .table t :: .kw k.verb :: is) text)
    (hf : ∀ r, Spells uni true is r → Follows uni k (some names) r) (hr : result k (t :: names) ≠ []) : parseAlter uni text = result k (t :: names) :=
  parse_one (fun k' => by rw [run_kind (k := k') hs hf]; rfl) hr

theorem parse_nothing {k : Kind} {t : List Char} {is : List Item} {text : List Char}
    (hs : Spells uni false (.kw "alter".toList :: .kw "table".toList :: .table t :: .kw k.verb :: is) text)
    (hf : ∀ r, Spells uni true is r → Follows uni k none r) : parseAlter uni text = [] :=
  parse_none fun k' => by rw [run_kind (k := k') hs hf]; split <;> rfl

theorem col_name {w : Bool} {c : List Char} {is : List Item} {text : List Char} (hs : Spells uni w (colItems c ++ is) text) : IsName uni c ∧ ∃ r, Spells uni false is r := by
  obtain ⟨b, r, rfl, hb, b1, r1, rfl, hb1, -, hc, b2, r2, rfl, hb2, hs⟩ := hs
  exact ⟨hc, r2, hs⟩

theorem result_names {s : Stmt} {w : Bool} {r : List Char} (hs : Spells uni w s.more r) : result s.kind (s.tbl :: s.names) = s.json := by
  cases s with
  | addPrimary t c =>
    obtain ⟨b, u, r, rfl, hb, -, hu, hs⟩ := hs
    simp only [Stmt.kind, Stmt.tbl, Stmt.names, result, Stmt.json, values_name (col_name (is := []) (by simpa using hs)).1.2]
  | dropPrimary t => rfl
  | dropForeign t n => rfl
  | dropIndex t n => rfl
  | addIndex t n c =>
    obtain ⟨b2, r2, rfl, hb2, -, hn, hs⟩ := hs
    simp only [Stmt.kind, Stmt.tbl, Stmt.names, result, Stmt.json, values_name (col_name (is := []) (by simpa using hs)).1.2]
  | addFulltext t n c =>
    obtain ⟨b2, r2, rfl, hb2, -, hn, hs⟩ := hs
    simp only [Stmt.kind, Stmt.tbl, Stmt.names, result, Stmt.json, values_name (col_name (is := []) (by simpa using hs)).1.2]
  | addUnique t n c =>
    obtain ⟨b2, r2, rfl, hb2, -, hn, hs⟩ := hs
    simp only [Stmt.kind, Stmt.tbl, Stmt.names, result, Stmt.json, values_name (col_name (is := []) (by simpa using hs)).1.2]
  | addForeign t n c u d =>
    obtain ⟨b2, r2, rfl, hb2, -, hn, b3, F, r3, rfl, hb3, -, hF, b4, K, r4, rfl, hb4, -, hK, hs⟩ := hs
    obtain ⟨hc, r5, b5, R, r5, rfl, hb5, -, hR, b6, r6, rfl, hb6, -, hu6, hs⟩ := col_name hs
    simp only [Stmt.kind, Stmt.tbl, Stmt.names, result, Stmt.json, values_name hc.2, values_name (col_name (is := []) (by simpa using hs)).1.2]

theorem json_ne (s : Stmt) : s.json ≠ [] := by cases s <;> simp [Stmt.json]

/-- Nothing is sent if no key of the dict is one that `format_alter_key` looks at, or its value is empty. -/
theorem formatNone {cr : Crypto} {db : Db} {fuel : Nat} {json json' : Dict String Json} {tj : Json} {s : Sel} {a : String} (h1 : rewriteQuery cr db fuel json = .ok (json', tj, s))
    (h2 : Dict.get? json' "alter" = some (.str a)) (h3 : ∀ k, k ≠ "alter" → Dict.get? json' k = Dict.get? json k)
    (h : (["add primary key", "drop primary key", "add foreign key", "drop foreign key", "add index", "add unique", "add fulltext", "drop index"].any fun k => has json k) = false) :
    alterQuery cr db fuel json = .ok none := by
  simp only [List.any_cons, List.any_nil, Bool.or_false, Bool.or_eq_false_iff] at h
  have a0 : field json' "alter" = .ok a := by simp [field, h2, shown]
  have a1 : has json' "add primary key" = false := by rw [has_of_get (h3 _ (by decide))]; exact h.1
  have a2 : has json' "drop primary key" = false := by rw [has_of_get (h3 _ (by decide))]; exact h.2.1
  have a3 : has json' "add foreign key" = false := by rw [has_of_get (h3 _ (by decide))]; exact h.2.2.1
  have a4 : has json' "drop foreign key" = false := by rw [has_of_get (h3 _ (by decide))]; exact h.2.2.2.1
  have a5 : has json' "add index" = false := by rw [has_of_get (h3 _ (by decide))]; exact h.2.2.2.2.1
  have a6 : has json' "add unique" = false := by rw [has_of_get (h3 _ (by decide))]; exact h.2.2.2.2.2.1
  have a7 : has json' "add fulltext" = false := by rw [has_of_get (h3 _ (by decide))]; exact h.2.2.2.2.2.2.1
  have a8 : has json' "drop index" = false := by rw [has_of_get (h3 _ (by decide))]; exact h.2.2.2.2.2.2.2
  simp only [alterQuery, h1, formatAlter, a0, a1, a2, a3, a4, a5, a6, a7, a8, Bool.false_eq_true, if_false, Bind.bind, Except.bind, pure, Except.pure]

/-! ## C64 -/

/-- **C64, partial.** A statement of one of the eight kinds with one column, however its keywords and blanks are written, is recognised as that
statement with those names, and as no other, whatever the names are. -/
theorem C64_recognised_partial (s : Stmt) (text : List Char) (h : Spells uni false s.items text) : parseAlter uni text = s.json := by
  rw [Stmt.items_eq] at h
  have key : ∀ r, Spells uni true (.kw s.kind.noun :: s.more) r → Follows uni s.kind (some s.names) r := fun r hr => follows_more hr
  have hr : ∃ w r, Spells uni w s.more r := by
    obtain ⟨b0, u0, r0, rfl, -, -, -, b1, u1, r1, rfl, -, -, -, b2, r2, -, -, hs⟩ := h
    rcases hs with ⟨rfl, -, b3, A, r, rfl, -, -, -, b4, u, r', rfl, -, -, -, hs⟩ | ⟨rfl, b3, A, r, rfl, -, -, -, b4, u, r', rfl, -, -, -, hs⟩
    · exact ⟨_, _, hs⟩
    · exact ⟨_, _, hs⟩
  obtain ⟨w, r, hr⟩ := hr
  rw [← result_names hr]
  exact parse_follows h key (by rw [result_names hr]; exact json_ne s)

/-- Hence two statements are never written alike. -/
theorem C64_unambiguous (s s' : Stmt) (text : List Char) (h : Spells uni false s.items text) (h' : Spells uni false s'.items text) : s.json = s'.json := by
  rw [← C64_recognised_partial s text h, ← C64_recognised_partial s' text h']

/-- The three DROP statements reach the backend as they were written, with the backend name of the table. -/
theorem C64_dropped_partial (c : Crypto) (db : Db) (fuel : Nat) (t n : List Char) (tm : TableMeta ColMeta) (ht : Dict.get? db (String.ofList t) = some tm) (text : List Char) :
    (Spells uni false (Stmt.dropPrimary t).items text → alterQuery c db fuel (parseAlter uni text) = .ok (some ("alter table " ++ tm.anonymous ++ " drop primary key;"))) ∧
    (n ≠ [] → Spells uni false (Stmt.dropForeign t n).items text →
      alterQuery c db fuel (parseAlter uni text) = .ok (some ("alter table " ++ tm.anonymous ++ " drop foreign key " ++ String.ofList n ++ ";"))) ∧
    (n ≠ [] → Spells uni false (Stmt.dropIndex t n).items text →
      alterQuery c db fuel (parseAlter uni text) = .ok (some ("alter table " ++ tm.anonymous ++ " drop index " ++ String.ofList n ++ ";"))) := by
  have hne : n ≠ [] → String.ofList n ≠ "" := fun h he => h (by simpa using congrArg String.toList he)
  refine ⟨fun h => ?_, fun hn h => ?_, fun hn h => ?_⟩
  · rw [C64_recognised_partial _ text h]; exact C32_drop_primary_key_partial c db fuel _ tm ht
  · rw [C64_recognised_partial _ text h]; exact C32_drop_foreign_key_partial c db fuel _ _ tm ht (hne hn)
  · rw [C64_recognised_partial _ text h]; exact C32_drop_index_partial c db fuel _ _ tm ht (hne hn)

/-! ### What the expressions cannot match -/

/-- A character that some expression can match before the end of the statement. -/
def Allowed (uni : Char → Bool) (c : Char) : Prop := isWord uni c = true ∨ isWs c = true ∨ c = '(' ∨ c = ')' ∨ c = '`'

/-- Ends with `;?$`; keywords of lower-case letters; no character but a parenthesis. -/
def Plain : List Pat → Bool
  | [] => false
  | [.fin] => true
  | .kw w :: ps => w.all Char.isLower && Plain ps
  | .ch c :: ps => (c == '(' || c == ')') && Plain ps
  | .fin :: _ => false
  | _ :: ps => Plain ps

theorem pat_plain (k : Kind) : Plain k.pat = true := by cases k <;> decide

theorem M_fin : ∀ (ps : List Pat) (prev : Option Char) (s : List Char) (caps : List (List Char)), Plain ps = true → M uni ps prev s caps →
    ∃ pre r, s = pre ++ r ∧ atEnd r = true ∧ ∀ c ∈ pre, Allowed uni c
  | [], _, _, _, hp, _ => by simp [Plain] at hp
  | .ws :: ps, prev, s, caps, hp, hm => by
    obtain ⟨u, r, rfl, hu, hm⟩ := hm
    obtain ⟨pre, r', rfl, hr, ha⟩ := M_fin ps _ _ _ (by simpa [Plain] using hp) hm
    refine ⟨u ++ pre, r', by simp, hr, fun c hc => ?_⟩
    rcases List.mem_append.1 hc with hc | hc
    · exact .inr (.inl (hu c hc))
    · exact ha c hc
  | .kw w :: ps, prev, s, caps, hp, hm => by
    obtain ⟨u, r, rfl, hu, hm⟩ := hm
    simp only [Plain, Bool.and_eq_true, List.all_eq_true] at hp
    obtain ⟨pre, r', rfl, hr, ha⟩ := M_fin ps _ _ _ hp.2 hm
    refine ⟨u ++ pre, r', by simp, hr, fun c hc => ?_⟩
    rcases List.mem_append.1 hc with hc | hc
    · exact .inl (kw_word uni hp.1 hu c hc)
    · exact ha c hc
  | .name :: ps, prev, s, caps, hp, hm => by
    obtain ⟨u, r, caps', rfl, hu, rfl, hm⟩ := hm
    obtain ⟨pre, r', rfl, hr, ha⟩ := M_fin ps _ _ _ (by simpa [Plain] using hp) hm
    refine ⟨u ++ pre, r', by simp, hr, fun c hc => ?_⟩
    rcases List.mem_append.1 hc with hc | hc
    · exact .inl (hu c hc)
    · exact ha c hc
  | .table :: ps, prev, s, caps, hp, hm => by
    obtain ⟨u, r, caps', hu, rfl, ⟨rfl, hm⟩ | ⟨-, rfl, hm⟩⟩ := hm
    · obtain ⟨pre, r', rfl, hr, ha⟩ := M_fin ps _ _ _ (by simpa [Plain] using hp) hm
      refine ⟨'`' :: u ++ '`' :: pre, r', by simp, hr, fun c hc => ?_⟩
      simp only [List.cons_append, List.mem_cons, List.mem_append] at hc
      rcases hc with rfl | hc | rfl | hc
      · exact .inr (.inr (.inr (.inr rfl)))
      · exact .inl (hu c hc)
      · exact .inr (.inr (.inr (.inr rfl)))
      · exact ha c hc
    · obtain ⟨pre, r', rfl, hr, ha⟩ := M_fin ps _ _ _ (by simpa [Plain] using hp) hm
      refine ⟨u ++ pre, r', by simp, hr, fun c hc => ?_⟩
      rcases List.mem_append.1 hc with hc | hc
      · exact .inl (hu c hc)
      · exact ha c hc
  | .ch d :: ps, prev, s, caps, hp, hm => by
    obtain ⟨r, rfl, hm⟩ := hm
    simp only [Plain, Bool.and_eq_true, Bool.or_eq_true, beq_iff_eq] at hp
    obtain ⟨pre, r', rfl, hr, ha⟩ := M_fin ps _ _ _ hp.2 hm
    refine ⟨d :: pre, r', by simp, hr, fun c hc => ?_⟩
    rcases List.mem_cons.1 hc with rfl | hc
    · rcases hp.1 with rfl | rfl
      · exact .inr (.inr (.inl rfl))
      · exact .inr (.inr (.inr (.inl rfl)))
    · exact ha c hc
  | [.fin], prev, s, caps, _, hm => ⟨[], s, rfl, hm.1, by simp⟩
  | .fin :: _ :: _, prev, s, caps, hp, hm => by simp [Plain] at hp

/-- **C64 fails**: nothing that contains a character other than letters, digits, underscores, blanks, parentheses, backticks and semicolons is recognised. -/
theorem C64_fails_other_character (text : List Char) (d : Char) (hd : d ∈ text) (hw : isWord uni d = false) (hs : isWs d = false) (hn : d ∉ ['(', ')', '`', ';']) :
    parseAlter uni text = [] := by
  refine parse_none fun k => (run_eq_none_iff uni _ _ _).2 fun caps hm => ?_
  obtain ⟨pre, r, rfl, hr, ha⟩ := M_fin _ _ _ _ (pat_plain k) hm
  rcases List.mem_append.1 hd with h | h
  · rcases ha d h with h | h | h | h | h
    · rw [hw] at h; cases h
    · rw [hs] at h; cases h
    · simp [h] at hn
    · simp [h] at hn
    · simp [h] at hn
  · rcases atEnd_mem hr d h with rfl | rfl
    · simp [isWs] at hs
    · simp at hn

/-- **C64 fails** for every key of two columns: a comma is never matched, although the code splits the columns at commas. -/
theorem C64_fails_two_columns (text : List Char) (h : ',' ∈ text) : parseAlter uni text = [] :=
  C64_fails_other_character text ',' h (by simp [isWord]) (by decide) (by decide)

/-- **C64 fails** when something follows the semicolon, be it one blank (a single newline excepted). -/
theorem C64_fails_after_semicolon (body b : List Char) (h1 : b ≠ []) (h2 : b ≠ ['\n']) : parseAlter uni (body ++ ';' :: b) = [] := by
  refine parse_none fun k => (run_eq_none_iff uni _ _ _).2 fun caps hm => ?_
  obtain ⟨pre, r, he, hr, ha⟩ := M_fin _ _ _ _ (pat_plain k) hm
  have hpre : ';' ∉ pre := fun h => by
    rcases ha _ h with h | h | h | h | h
    · simp [isWord] at h
    · simp [isWs] at h
    · simp at h
    · simp at h
    · simp at h
  rcases List.append_eq_append_iff.1 he with ⟨y, rfl, hy⟩ | ⟨y, rfl, hy⟩
  · cases y with
    | nil =>
      simp only [List.nil_append] at hy
      subst hy
      simp only [atEnd, Bool.or_eq_true, beq_iff_eq] at hr
      rcases hr with ((hr | hr) | hr) | hr <;> simp_all
    | cons c y =>
      simp only [List.cons_append, List.cons.injEq] at hy
      exact hpre (by simp [← hy.1])
  · subst hy
    have hr' := hr
    simp only [atEnd, Bool.or_eq_true, beq_iff_eq] at hr
    rcases hr with ((hr | hr) | hr) | hr
    · simp at hr
    · cases y <;> simp at hr
    · cases y <;> simp_all
    · cases y with
      | nil => simp_all
      | cons c y =>
        cases y <;> simp_all

theorem count_zero {u : List Char} {p : Char → Bool} (hp : p '`' = false) (hu : ∀ c ∈ u, p c = true) : u.count '`' = 0 :=
  List.count_eq_zero.2 fun h => by rw [hu _ h] at hp; cases hp

theorem M_quotes : ∀ (ps : List Pat) (prev : Option Char) (s : List Char) (caps : List (List Char)), Plain ps = true → M uni ps prev s caps →
    s.count '`' ≤ 2 * ps.count .table
  | [], _, _, _, hp, _ => by simp [Plain] at hp
  | .ws :: ps, prev, s, caps, hp, hm => by
    obtain ⟨u, r, rfl, hu, hm⟩ := hm
    have := M_quotes ps _ _ _ (by simpa [Plain] using hp) hm
    have h0 := count_zero quote_ws hu
    simp only [List.count_append, List.count_cons, beq_iff_eq, reduceCtorEq, if_false] at this ⊢
    omega
  | .kw w :: ps, prev, s, caps, hp, hm => by
    obtain ⟨u, r, rfl, hu, hm⟩ := hm
    simp only [Plain, Bool.and_eq_true, List.all_eq_true] at hp
    have := M_quotes ps _ _ _ hp.2 hm
    have h0 := count_zero (quote_word (uni := uni)) (kw_word uni hp.1 hu)
    simp only [List.count_append, List.count_cons, beq_iff_eq, reduceCtorEq, if_false] at this ⊢
    omega
  | .name :: ps, prev, s, caps, hp, hm => by
    obtain ⟨u, r, caps', rfl, hu, rfl, hm⟩ := hm
    have := M_quotes ps _ _ _ (by simpa [Plain] using hp) hm
    have h0 := count_zero (quote_word (uni := uni)) hu
    simp only [List.count_append, List.count_cons, beq_iff_eq, reduceCtorEq, if_false] at this ⊢
    omega
  | .table :: ps, prev, s, caps, hp, hm => by
    obtain ⟨u, r, caps', hu, rfl, ⟨rfl, hm⟩ | ⟨-, rfl, hm⟩⟩ := hm
    · have := M_quotes ps _ _ _ (by simpa [Plain] using hp) hm
      have h0 := count_zero (quote_word (uni := uni)) hu
      simp only [List.count_append, List.count_cons, List.cons_append, beq_self_eq_true, if_true] at this ⊢
      omega
    · have := M_quotes ps _ _ _ (by simpa [Plain] using hp) hm
      have h0 := count_zero (quote_word (uni := uni)) hu
      simp only [List.count_append, List.count_cons, beq_self_eq_true, if_true] at this ⊢
      omega
  | .ch d :: ps, prev, s, caps, hp, hm => by
    obtain ⟨r, rfl, hm⟩ := hm
    simp only [Plain, Bool.and_eq_true, Bool.or_eq_true, beq_iff_eq] at hp
    have := M_quotes ps _ _ _ hp.2 hm
    have hd : d ≠ '`' := by rcases hp.1 with rfl | rfl <;> decide
    simp only [List.count_cons, beq_iff_eq, hd, reduceCtorEq, if_false] at this ⊢
    omega
  | [.fin], prev, s, caps, _, hm => by
    have : s.count '`' = 0 := List.count_eq_zero.2 fun h => by rcases atEnd_mem hm.1 _ h with h | h <;> simp at h
    omega
  | .fin :: _ :: _, prev, s, caps, hp, hm => by simp [Plain] at hp

/-- **C64 fails** as soon as a name other than the table is quoted, or the table is quoted with its schema: more than two backticks are never matched. -/
theorem C64_fails_quoted_names (text : List Char) (h : 2 < text.count '`') : parseAlter uni text = [] := by
  refine parse_none fun k => (run_eq_none_iff uni _ _ _).2 fun caps hm => ?_
  have h1 := M_quotes _ _ _ _ (pat_plain k) hm
  have h2 : k.pat.count .table = 1 := by cases k <;> decide
  omega

/-! ### Statements taken for others -/

theorem isName_split {a b : List Char} (h : IsName uni (a ++ b)) : (∀ c ∈ a, isWord uni c = true) ∧ (∀ c ∈ b, isWord uni c = true) :=
  ⟨fun c hc => h.2 c (by simp [hc]), fun c hc => h.2 c (by simp [hc])⟩

/-- **C64 fails** for DROP of a column whose name begins with `index` (`DROP col` is short for `DROP COLUMN col`): it is taken for a DROP INDEX of the
rest of the name. -/
theorem C64_fails_drop_column_index (t N x : List Char) (hN : N.map Char.toLower = "index".toList) (hx : x ≠ []) (text : List Char)
    (h : Spells uni false [.kw "alter".toList, .kw "table".toList, .table t, .kw "drop".toList, .id (N ++ x)] text) :
    parseAlter uni text = (Stmt.dropIndex t x).json := by
  refine parse_follows (k := .dropIndex) (names := [x]) h (fun r hr => ?_) (by simp [result])
  obtain ⟨b, r', rfl, hb, hne, hn, hs⟩ := hr
  have hs' : Spells uni false (Stmt.dropIndex t x).more (x ++ r') := ⟨[], r', rfl, by simp, by simp, ⟨hx, (isName_split hn).2⟩, hs⟩
  refine ⟨b, N, x ++ r', by simp, hb, hne rfl, hN, fun hk => (by cases hk), fun prev caps => ?_⟩
  exact ⟨fun h => by rw [tail_inv hs' h]; rfl, fun h => by rw [Option.some.inj h]; exact tail_fwd hs' prev⟩

/-- **C64 fails** for DROP of a column named `primarykey`: the primary key of the table is dropped. -/
theorem C64_fails_drop_column_primary (t col : List Char) (hc : col.map Char.toLower = "primarykey".toList) (text : List Char)
    (h : Spells uni false [.kw "alter".toList, .kw "table".toList, .table t, .kw "drop".toList, .id col] text) :
    parseAlter uni text = (Stmt.dropPrimary t).json := by
  refine parse_follows (k := .dropPrimary) (names := []) h (fun r hr => ?_) (by simp [result])
  obtain ⟨b, r', rfl, hb, hne, hn, hs⟩ := hr
  have h1 : (col.take 7).map Char.toLower = "primary".toList := by rw [List.map_take, hc]; rfl
  have h2 : (col.drop 7).map Char.toLower = "key".toList := by rw [List.map_drop, hc]; rfl
  have hs' : Spells uni false (Stmt.dropPrimary t).more (col.drop 7 ++ r') := ⟨[], _, r', rfl, by simp, by simp, h2, hs⟩
  refine ⟨b, col.take 7, col.drop 7 ++ r', by rw [← List.append_assoc (col.take 7), List.take_append_drop], hb, hne rfl, h1, fun hk => (by cases hk), fun prev caps => ?_⟩
  exact ⟨fun h => by rw [tail_inv hs' h]; rfl, fun h => by rw [Option.some.inj h]; exact tail_fwd hs' prev⟩

/-- **C64 fails** for DROP of a column whose name begins with `foreignkey`: it is taken for a DROP FOREIGN KEY. -/
theorem C64_fails_drop_column_foreign (t F x : List Char) (hF : F.map Char.toLower = "foreignkey".toList) (hx : x ≠ []) (text : List Char)
    (h : Spells uni false [.kw "alter".toList, .kw "table".toList, .table t, .kw "drop".toList, .id (F ++ x)] text) :
    parseAlter uni text = (Stmt.dropForeign t x).json := by
  refine parse_follows (k := .dropForeign) (names := [x]) h (fun r hr => ?_) (by simp [result])
  obtain ⟨b, r', rfl, hb, hne, hn, hs⟩ := hr
  have h1 : (F.take 7).map Char.toLower = "foreign".toList := by rw [List.map_take, hF]; rfl
  have h2 : (F.drop 7).map Char.toLower = "key".toList := by rw [List.map_drop, hF]; rfl
  have hxn : IsName uni x := ⟨hx, (isName_split hn).2⟩
  refine ⟨b, F.take 7, F.drop 7 ++ (x ++ r'), by rw [← List.append_assoc (F.take 7), List.take_append_drop]; simp, hb, hne rfl, h1, fun _ Q prev caps hm => ?_, fun prev caps => ⟨fun hm => ?_, fun h => ?_⟩⟩
  · obtain ⟨-, p, hm⟩ := M_ws_kw_kw (b := []) (by decide) (by decide) (by decide) (by decide) (by simp) h2 (fun _ => rfl) hm
    exact blocked_column _ [] x r' _ (by simp) hxn hm
  · obtain ⟨-, p, hm⟩ := M_ws_kw_kw (b := []) (by decide) (by decide) (by decide) (by decide) (by simp) h2 (fun _ => rfl) hm
    obtain ⟨p, caps', hc, hm⟩ := M_name (b := []) (by simp) hxn (stops_spelled hs (by simp)) (fun prev b x caps hb hx => blocked_ws blocked_fin prev b x _ caps hb hx) hm
    rw [hc, fin_inv hm]
  · rw [Option.some.inj h]
    exact fwd_kw (b := []) (by simp) h2 (fwd_name (b := []) (by simp) hxn (fwd_fin hs)) prev

/-- Through the proxy: dropping the column `primarykey` drops the primary key of the backend table. -/
theorem C64_fails_drop_column_sent (c : Crypto) (db : Db) (fuel : Nat) (t col : List Char) (tm : TableMeta ColMeta) (ht : Dict.get? db (String.ofList t) = some tm)
    (hc : col.map Char.toLower = "primarykey".toList) (text : List Char)
    (h : Spells uni false [.kw "alter".toList, .kw "table".toList, .table t, .kw "drop".toList, .id col] text) :
    alterQuery c db fuel (parseAlter uni text) = .ok (some ("alter table " ++ tm.anonymous ++ " drop primary key;")) := by
  rw [C64_fails_drop_column_primary t col hc text h]
  exact C32_drop_primary_key_partial c db fuel _ tm ht

/-! ### Statements that are not recognised, or of which nothing is sent -/

/-- ADD INDEX, ADD FULLTEXT and ADD UNIQUE. -/
def Kind.isIndex : Kind → Bool
  | .addIndex | .addFulltext | .addUnique => true
  | _ => false

theorem index_tail {k : Kind} (h : k.isIndex = true) : k.tail = .ws :: .name :: .ws :: (column ++ [.fin]) := by
  cases k <;> simp [Kind.isIndex] at h <;> rfl

/-- **C64 fails**: ADD UNIQUE KEY u (c), ADD FULLTEXT INDEX f (c), ADD INDEX i USING BTREE (c): with two words before the column list nothing is recognised. -/
theorem C64_fails_two_words (k : Kind) (hk : k.isIndex = true) (t x y : List Char) (is : List Item) (text : List Char)
    (h : Spells uni false (.kw "alter".toList :: .kw "table".toList :: .table t :: .kw k.verb :: .kw k.noun :: .id x :: .id y :: is) text) :
    parseAlter uni text = [] := by
  refine parse_nothing (k := k) h fun r hr => ?_
  obtain ⟨b, u, r', rfl, hb, hne, hu, b1, r1, rfl, hb1, -, hx, b2, r2, rfl, hb2, hne2, hy, hs⟩ := hr
  refine ⟨b, u, _, rfl, hb, hne rfl, hu, fun h => (by subst h; simp [Kind.isIndex] at hk), fun prev caps => ⟨fun hm => ?_, fun h => by simp at h⟩⟩
  rw [index_tail hk] at hm
  obtain ⟨p, caps', -, hm⟩ := M_name hb1 hx (stops_word_ws uni (hne2 rfl) hb2) (fun prev b x caps hb hx => blocked_column prev b x _ caps hb hx) hm
  exact absurd hm (blocked_column _ _ _ _ _ hb2 hy)

/-- An index without a name is recognised with the empty name. -/
theorem unnamed (k : Kind) (hk : k.isIndex = true) (t c : List Char) (text : List Char)
    (h : Spells uni false (.kw "alter".toList :: .kw "table".toList :: .table t :: .kw k.verb :: .kw k.noun :: colItems c) text) :
    parseAlter uni text = result k [t, [], c] ∧ IsName uni c := by
  have hcn : IsName uni c := by
    obtain ⟨b0, u0, r0, rfl, -, -, -, b1, u1, r1, rfl, -, -, -, b2, r2, -, -, hs⟩ := h
    rcases hs with ⟨rfl, -, b3, A, r, rfl, -, -, -, b4, u, r', rfl, -, -, -, hs⟩ | ⟨rfl, b3, A, r, rfl, -, -, -, b4, u, r', rfl, -, -, -, hs⟩
    · exact (col_name (is := []) (by simpa using hs)).1
    · exact (col_name (is := []) (by simpa using hs)).1
  refine ⟨parse_follows (k := k) (names := [[], c]) h (fun r hr => ?_) (by cases k <;> simp [Kind.isIndex] at hk <;> simp [result]), hcn⟩
  obtain ⟨b, u, r', rfl, hb, hne, hu, hs⟩ := hr
  have h40 : isWord uni '(' = false := by simp [isWord]
  refine ⟨b, u, r', rfl, hb, hne rfl, hu, fun h => (by subst h; simp [Kind.isIndex] at hk), fun prev caps => ⟨fun hm => ?_, fun h => ?_⟩⟩
  · rw [index_tail hk] at hm
    obtain ⟨b1, r1, rfl, hb1, hs⟩ := hs
    obtain ⟨p, b', hb', v, r2, caps', he, hv, hc, hm⟩ := M_ws (r := '(' :: r1) (show isWs '(' = false by decide) hb1 hm
    have hv0 : v = [] := by
      cases b' with
      | nil =>
        obtain ⟨x, hx, -⟩ := take (p := isWord uni) (t := '(' :: r1) h40 v [] hv he
        exact (List.append_eq_nil_iff.1 hx.symm).1
      | cons d b' =>
        obtain ⟨x, hx, -⟩ := take (p := isWord uni) (t := d :: b' ++ '(' :: r1) (ws_not_word uni (hb' d (by simp))) v [] hv he
        exact (List.append_eq_nil_iff.1 hx.symm).1
    subst hv0
    simp only [List.nil_append] at he
    subst he
    have hs' : Spells uni true (colItems c ++ []) (b' ++ '(' :: r1) := ⟨b', r1, rfl, hb', hs⟩
    obtain ⟨p, r3, caps'', hc', hm, -⟩ := column_inv hs' hm
    rw [hc, hc', fin_inv hm]
  · rw [index_tail hk, Option.some.inj h]
    refine ⟨[], r', rfl, by simp, [], r', [c], rfl, by simp, rfl, ?_⟩
    exact fwd_column (is := []) (by simpa using hs) (fun r hs => fwd_fin hs) _

/-- **C64 fails** for ADD INDEX (c), ADD FULLTEXT (c) and ADD UNIQUE (c) without a name (MySQL makes one up): the statement is recognised, and then
`format_alter_key` returns None. -/
theorem C64_fails_unnamed (cr : Crypto) (db : Db) (fuel : Nat) (k : Kind) (hk : k.isIndex = true) (t c : List Char) (tm : TableMeta ColMeta)
    (ht : Dict.get? db (String.ofList t) = some tm) (text : List Char)
    (h : Spells uni false (.kw "alter".toList :: .kw "table".toList :: .table t :: .kw k.verb :: .kw k.noun :: colItems c) text) :
    alterQuery cr db fuel (parseAlter uni text) = .ok none := by
  obtain ⟨hp, hc⟩ := unnamed k hk t c text h
  rw [hp]
  cases k <;> simp only [Kind.isIndex, Bool.false_eq_true] at hk
  all_goals
    simp only [result, values_name hc.2, str]
  case addIndex =>
    obtain ⟨json', s, h1, h2, h3⟩ := alter_rewrite (c := cr) (fuel := fuel)
      (json := [("alter", .str (String.ofList t)), ("add index", .str (String.ofList [])), ("add index feature", keyCols [String.ofList c])]) ht rfl
      (noClause ["alter", "add index", "add index feature"] (by
        intro k hk
        simp only [List.mem_cons, List.not_mem_nil, or_false, not_or] at hk
        simp [Dict.get?_cons, Ne.symm hk.1, Ne.symm hk.2.1, Ne.symm hk.2.2]) (by decide))
    exact formatNone h1 h2 h3 rfl
  case addFulltext =>
    obtain ⟨json', s, h1, h2, h3⟩ := alter_rewrite (c := cr) (fuel := fuel)
      (json := [("alter", .str (String.ofList t)), ("add fulltext", .str (String.ofList [])), ("add fulltext feature", keyCols [String.ofList c])]) ht rfl
      (noClause ["alter", "add fulltext", "add fulltext feature"] (by
        intro k hk
        simp only [List.mem_cons, List.not_mem_nil, or_false, not_or] at hk
        simp [Dict.get?_cons, Ne.symm hk.1, Ne.symm hk.2.1, Ne.symm hk.2.2]) (by decide))
    exact formatNone h1 h2 h3 rfl
  case addUnique =>
    obtain ⟨json', s, h1, h2, h3⟩ := alter_rewrite (c := cr) (fuel := fuel)
      (json := [("alter", .str (String.ofList t)), ("add unique", .str (String.ofList [])), ("add unique feature", keyCols [String.ofList c])]) ht rfl
      (noClause ["alter", "add unique", "add unique feature"] (by
        intro k hk
        simp only [List.mem_cons, List.not_mem_nil, or_false, not_or] at hk
        simp [Dict.get?_cons, Ne.symm hk.1, Ne.symm hk.2.1, Ne.symm hk.2.2]) (by decide))
    exact formatNone h1 h2 h3 rfl

/-! ### Instances -/

/-- A spelled statement. -/
example : Spells (fun _ => false) false (Stmt.addIndex "t".toList "i".toList "c".toList).items "ALTER TABLE `t` add INDEX i (c);".toList :=
  ⟨[], "ALTER".toList, _, rfl, by simp, by simp, by decide, [' '], "TABLE".toList, _, rfl, by simp [isWs], by simp, by decide, [' '], _, by simp [isWs], ⟨by simp, by decide⟩,
    .inr ⟨rfl, [' '], "add".toList, _, rfl, by simp [isWs], by simp, by decide, [' '], "INDEX".toList, _, rfl, by simp [isWs], by simp, by decide,
      [' '], _, rfl, by simp [isWs], by simp, ⟨by simp, by decide⟩, [' '], _, rfl, by simp [isWs], [], _, rfl, by simp, by simp, ⟨by simp, by decide⟩, [], _, rfl, by simp, [], by simp, .inr rfl⟩⟩

example : parseAlter (fun _ => false) "ALTER TABLE `t` add INDEX i (c);".toList =
    [("alter", str "t".toList), ("add index", str "i".toList), ("add index feature", values "c".toList)] := by rfl

/-- A column that is dropped. -/
example : Spells (fun _ => false) false [.kw "alter".toList, .kw "table".toList, .table "t".toList, .kw "drop".toList, .id "PrimaryKey".toList] "alter table t drop PrimaryKey".toList :=
  ⟨[], "alter".toList, _, rfl, by simp, by simp, by decide, [' '], "table".toList, _, rfl, by simp [isWs], by simp, by decide, [' '], _, by simp [isWs], ⟨by simp, by decide⟩,
    .inl ⟨rfl, by simp, [' '], "drop".toList, _, rfl, by simp [isWs], by simp, by decide, [' '], _, rfl, by simp [isWs], by simp, ⟨by simp, by decide⟩, [], by simp, .inl rfl⟩⟩

end EulerDB.Alter
