/-
C85: the dictionary of an INSERT with its columns.
-/
import Verif.Values.Limit

namespace EulerDB.Values

open EulerDB.Lex EulerDB.Group EulerDB.Rules

/-- A name that can stand for a column or a table. -/
structure Named (t : Token) (c : List Char) : Prop where
  type : t.ttype = Name
  value : unquote t.value = c
  bare : '`' ∉ c
  paren : parenTok t = false
  dot : isDot t = false

theorem Named.key {t : Token} {c : List Char} (h : Named t c) : isKeywordTok t = false := by
  rw [isKeywordTok, h.type]; decide

theorem Named.punct {t : Token} {c : List Char} (h : Named t c) : t.ttype ≠ Punctuation := by
  rw [h.type]; decide

/-- `INSERT INTO t (c1, …, cn) VALUES (v1, …, vn)`, as tokens. -/
structure Plain (st : List Token) (ki kn kt : Token) (cols : List Token) (kv : Token) (row post : List Token) (names : List (List Char))
    (vals : List Val) : Prop where
  toks : st.filter (fun t => !isBlank t) = ki :: kn :: kt :: (rowToks cols ++ kv :: (rowToks row ++ post))
  digits : digits st = false
  first : ∃ w, Word w ki ∧ (w = "INSERT" ∨ w = "REPLACE")
  into : Word "INTO" kn
  table : ∃ c, Named kt c
  columns : List.Forall₂ Named cols names
  word : Word "VALUES" kv
  cells : List.Forall₂ Cell row vals
  types : ∀ t ∈ row, t.ttype ≠ Name ∧ t.ttype ≠ Wildcard
  some' : vals ≠ [] ∧ names ≠ []
  after : ∀ t ∈ post, parenTok t = false ∧ isDot t = false ∧ isKeywordTok t = false ∧ t.ttype ≠ Name ∧ t.ttype ≠ Wildcard
  operators : ∀ t ∈ row ++ post, t.ttype ≠ Operator

theorem Named.cell {t : Token} {c : List Char} (h : Named t c) : Cell t (.text (stripQuotes c)) where
  paren := h.paren
  dot := h.dot
  key := h.key
  type := h.punct
  reads := by rw [h.value, readVal, h.type, if_neg (by decide), if_neg (by decide)]

theorem named_cells {cols : List Token} {names : List (List Char)} (h : List.Forall₂ Named cols names) :
    List.Forall₂ Cell cols (names.map fun c => .text (stripQuotes c)) := by
  induction h with
  | nil => exact .nil
  | cons h1 _ ih => exact .cons h1.cell ih

/-! ### The columns -/

theorem columns_skip {prev : Option VTok} {cs : List (List Char)} {p : PTok} {ty : TType} {r : List VTok} (h1 : ty ≠ Name) (h2 : ty ≠ Wildcard)
    (h3 : isKeywordTok ⟨ty, []⟩ = true → relevant.contains (normalized p.value) = true) :
    columnsFrom prev cs (⟨p, ty⟩ :: r) = columnsFrom (some ⟨p, ty⟩) cs r := by
  have hk : keywordColumn prev ⟨p, ty⟩ r = false := by
    rw [keywordColumn]
    cases hh : (⟨p, ty⟩ : VTok).keyword with
    | false => rfl
    | true =>
      rw [show (⟨p, ty⟩ : VTok).p.value = p.value from rfl, h3 hh]
      rfl
  have hn : (⟨p, ty⟩ : VTok).name = false := beq_eq_false_iff_ne.2 h1
  have hw : ((⟨p, ty⟩ : VTok).ttype == Wildcard) = false := beq_eq_false_iff_ne.2 h2
  rw [columnsFrom, hk, hn, hw]
  simp

theorem columns_name {prev : Option VTok} {cs : List (List Char)} {t : VTok} {r : List VTok} (ho : t.open' = true) (hn : t.ttype = Name)
    (hl : t.p.lastKeyword = "INTO") : columnsFrom prev cs (t :: r) =
      if prev.any VTok.punct then columnsFrom (some t) (add (stripChar '`' t.p.value) cs) r else columnsFrom (some t) cs r := by
  have h1 : t.name = true := beq_iff_eq.2 hn
  have h2 : beforeColumns.contains "INTO" = false := by decide
  rw [columnsFrom, ho, h1, hl, h2]
  simp

/-- Tokens that are no names, no keywords and no stars give no columns. -/
theorem run_noColumns : ∀ (l : List Token) (pos : Nat) (made : List PTok) (bk bk' : Book) (vs : List VTok) (prev : Option VTok)
    (cs : List (List Char)), (∀ t ∈ l, t.ttype ≠ Name ∧ t.ttype ≠ Wildcard ∧ isKeywordTok t = false) → run pos made bk l = .ok (vs, bk') →
    columnsFrom prev cs vs = .ok cs
  | [], _, _, _, _, _, _, _, _, h => by cases h; rfl
  | t :: r, pos, made, bk, bk', vs, prev, cs, hn, h => by
    obtain ⟨p, bk1, l, _, g2, rfl⟩ := run_cons h
    obtain ⟨h1, h2, h3⟩ := hn t (List.mem_cons_self ..)
    rw [columns_skip h1 h2 (fun e => by rw [isKeywordTok] at h3 e; rw [h3] at e; cases e)]
    exact run_noColumns r _ _ _ _ _ _ _ (fun u hu => hn u (List.mem_cons_of_mem _ hu)) g2

theorem columns_punct {prev : Option VTok} {cs : List (List Char)} {p : PTok} {r : List VTok} :
    columnsFrom prev cs (⟨p, Punctuation⟩ :: r) = columnsFrom (some ⟨p, Punctuation⟩) cs r :=
  columns_skip (by decide) (by decide) (fun h => absurd h (by decide))

theorem named_column {t : Token} {c : List Char} (h : Named t c) {prev : Option VTok} {cs : List (List Char)} {pos : Nat} {made : List PTok}
    {bk bk' : Book} {p : PTok} (ht : onToken t (unquote t.value) pos made bk = .ok (p, bk')) (hl : bk.last = "INTO") (r : List VTok) :
    bk' = bk ∧ columnsFrom prev cs (⟨p, t.ttype⟩ :: r) =
      if prev.any VTok.punct then columnsFrom (some ⟨p, t.ttype⟩) (add c cs) r else columnsFrom (some ⟨p, t.ttype⟩) cs r := by
  obtain ⟨h1, _, h3, h4⟩ := onToken_cell h.paren h.key ht
  refine ⟨h1, ?_⟩
  rw [columns_name (cell_open h.cell ht) h.type (h3.trans hl), show (⟨p, t.ttype⟩ : VTok).p.value = c from h4.trans h.value, strip_none h.bare]

/-- The list of columns. -/
theorem run_columns : ∀ (cols : List Token) (names : List (List Char)) (rest : List Token) (pos : Nat) (made : List PTok) (bk bk' : Book)
    (vs : List VTok) (prev : Option VTok) (cs : List (List Char)), List.Forall₂ Named cols names → bk.last = "INTO" →
    prev.any VTok.punct = true → run pos made bk (sep cols ++ rpar :: rest) = .ok (vs, bk') →
    ∃ pos' made' bk1 vr prev', run pos' made' bk1 rest = .ok (vr, bk') ∧
      columnsFrom prev cs vs = columnsFrom prev' (names.foldl (fun cs c => add c cs) cs) vr
  | [], names, rest, pos, made, bk, bk', vs, prev, cs, hc, hl, hp, h => by
    cases hc
    obtain ⟨p, bk1, l, h1, h2, rfl⟩ := run_cons h
    exact ⟨_, _, bk1, l, _, h2, columns_punct⟩
  | [t], names, rest, pos, made, bk, bk', vs, prev, cs, hc, hl, hp, h => by
    cases hc with
    | @cons _ c _ _ hc1 hc2 =>
      cases hc2
      obtain ⟨p, bk1, l, h1, h2, rfl⟩ := run_cons h
      obtain ⟨rfl, g2⟩ := named_column (prev := prev) (cs := cs) hc1 h1 hl l
      obtain ⟨q, bk2, l2, h3, h4, rfl⟩ := run_cons h2
      refine ⟨_, _, bk2, l2, some ⟨q, Punctuation⟩, h4, ?_⟩
      rw [g2, if_pos hp]
      exact columns_punct
  | t :: u :: cols, names, rest, pos, made, bk, bk', vs, prev, cs, hc, hl, hp, h => by
    cases hc with
    | @cons _ c _ names' hc1 hc2 =>
      have e : sep (t :: u :: cols) ++ rpar :: rest = t :: comma :: (sep (u :: cols) ++ rpar :: rest) := rfl
      rw [e] at h
      obtain ⟨p, bk1, l, h1, h2, rfl⟩ := run_cons h
      obtain ⟨rfl, g2⟩ := named_column (prev := prev) (cs := cs) hc1 h1 hl l
      obtain ⟨q, bk2, l2, h3, h4, rfl⟩ := run_cons h2
      obtain ⟨rfl, _, _, _⟩ := onToken_cell (show parenTok comma = false by decide) key_comma h3
      obtain ⟨pos', made', bk3, vr, prev', i1, i2⟩ := run_columns (u :: cols) names' rest _ _ _ _ _ (some ⟨q, Punctuation⟩) (add c cs) hc2 hl rfl h4
      refine ⟨pos', made', bk3, vr, prev', i1, ?_⟩
      rw [g2, if_pos hp, show (⟨q, comma.ttype⟩ : VTok) = ⟨q, Punctuation⟩ from rfl, columns_punct, i2]
      rfl

theorem fold_add : ∀ (names cs : List (List Char)), (cs ++ names).Nodup → names.foldl (fun cs c => add c cs) cs = cs ++ names
  | [], cs, _ => by simp
  | c :: names, cs, h => by
    have hc : c ∉ cs := fun hc => (List.nodup_append.1 h).2.2 c hc c (List.mem_cons_self ..) rfl
    rw [List.foldl_cons, add, if_neg (by simpa using hc), fold_add names (cs ++ [c]) (by simpa using h)]
    simp

theorem dictOf_nodup (l : List (List Char × Val)) (h : (l.map Prod.fst).Nodup) : dictOf l = l := by
  have : ∀ (l d : List (List Char × Val)), ((d ++ l).map Prod.fst).Nodup →
      l.foldl (fun d p => if d.any (fun q => q.1 == p.1) then d.map (fun q => if q.1 == p.1 then p else q) else d ++ [p]) d = d ++ l := by
    intro l
    induction l with
    | nil => intro d _; simp
    | cons p l ih =>
      intro d hd
      have hn : d.any (fun q => q.1 == p.1) = false := by
        rw [List.any_eq_false]
        intro q hq he
        rw [List.map_append, List.nodup_append] at hd
        exact hd.2.2 q.1 (List.mem_map_of_mem hq) p.1 (List.mem_map_of_mem (List.mem_cons_self ..)) (beq_iff_eq.1 he)
      rw [List.foldl_cons, hn, if_neg (by simp), ih (d ++ [p]) (by simpa using hd)]
      simp
  exact (this l [] (by simpa using h)).trans (List.nil_append _)

theorem zip_fst : ∀ (a : List (List Char)) (b : List Val), ((a.zip b).map Prod.fst).Sublist a
  | [], _ => by simp
  | x :: a, [] => by simp
  | x :: a, y :: b => by
    rw [List.zip_cons_cons, List.map_cons]
    exact (zip_fst a b).cons_cons x

theorem vkin_eq : ∀ {vs us : List VTok}, List.Forall₂ VKin vs us → (∀ v ∈ vs, v.ttype ≠ Operator ∧ v.ttype ≠ Wildcard) → us = vs
  | [], _, h, _ => by cases h; rfl
  | v :: vs, _, h, hv => by
    cases h with
    | @cons _ u _ us h1 h2 =>
      rw [vkin_eq h2 fun w hw => hv w (List.mem_cons_of_mem _ hw)]
      obtain ⟨a1, a2⟩ := hv v (List.mem_cons_self ..)
      congr 1
      obtain ⟨p, ty⟩ := v
      obtain ⟨p', ty'⟩ := u
      rcases h1.2 with e | ⟨e, _⟩
      · rw [show p' = p from h1.1, show ty' = ty from e]
      · rcases e with e | e
        · exact absurd e a1
        · exact absurd e a2

theorem word_normal {w : String} {t : Token} (h : Word w t) : normalized (unquote t.value) = w := by
  rw [unquote_word h.letters, normalized_word h.letters, h.upper]

theorem word_keyed {w w' : String} {t : Token} (h : Word w t) (hw : w ≠ w') : keyed w' t = false := by
  rw [keyed, word_normal h, beq_eq_false_iff_ne.2 hw, Bool.and_false]

theorem notKey_keyed {w : String} {t : Token} (h : isKeywordTok t = false) : keyed w t = false := by
  rw [keyed, h, Bool.false_and]

theorem mem_rowToks {row : List Token} {t : Token} (h : t ∈ rowToks row) : t ∈ row ∨ t = lpar ∨ t = rpar ∨ t = comma := by
  rw [rowToks] at h
  rcases List.mem_cons.1 h with rfl | h
  · exact .inr (.inl rfl)
  · rcases List.mem_append.1 h with h | h
    · rcases mem_sep h with h | rfl
      · exact .inl h
      · exact .inr (.inr (.inr rfl))
    · exact .inr (.inr (.inl (List.mem_singleton.1 h)))

theorem Plain.insert {st : List Token} {ki kn kt : Token} {cols : List Token} {kv : Token} {row post : List Token} {names : List (List Char)}
    {vals : List Val} (h : Plain st ki kn kt cols kv row post names vals) :
    Insert st (ki :: kn :: kt :: rowToks cols) kv [row] post [vals] where
  toks := h.toks
  digits := h.digits
  first := by
    obtain ⟨w, h1, h2⟩ := h.first
    exact ⟨ki, _, w, rfl, h1, by rcases h2 with rfl | rfl <;> decide⟩
  noValues := by
    obtain ⟨w, h1, h2⟩ := h.first
    obtain ⟨c, hc⟩ := h.table
    intro t ht
    rcases List.mem_cons.1 ht with rfl | ht
    · exact word_keyed h1 (by rcases h2 with rfl | rfl <;> decide)
    · rcases List.mem_cons.1 ht with rfl | ht
      · exact word_keyed h.into (by decide)
      · rcases List.mem_cons.1 ht with rfl | ht
        · exact notKey_keyed hc.key
        · rcases mem_rowToks ht with ht | rfl | rfl | rfl
          · obtain ⟨d, _, hd⟩ := forall₂_left h.columns ht
            exact notKey_keyed hd.key
          · exact notKey_keyed key_lpar
          · exact notKey_keyed key_rpar
          · exact notKey_keyed key_comma
  closed := by
    obtain ⟨w, h1, _⟩ := h.first
    obtain ⟨c, hc⟩ := h.table
    rw [parens_cons, parens_cons, parens_cons, h1.paren, h.into.paren, hc.paren]
    have := closes_row (named_cells h.columns) 0 []
    rw [List.append_nil] at this
    exact this
  word := h.word
  cells := .cons h.cells .nil
  after := fun t ht => (h.after t ht).1
  dots := by
    obtain ⟨w, h1, _⟩ := h.first
    obtain ⟨c, hc⟩ := h.table
    intro t ht
    rcases List.mem_append.1 ht with ht | ht
    · rcases List.mem_cons.1 ht with rfl | ht
      · exact h1.dot
      · rcases List.mem_cons.1 ht with rfl | ht
        · exact h.into.dot
        · rcases List.mem_cons.1 ht with rfl | ht
          · exact hc.dot
          · rcases mem_rowToks ht with ht | rfl | rfl | rfl
            · obtain ⟨d, _, hd⟩ := forall₂_left h.columns ht
              exact hd.dot
            all_goals decide
    · exact (h.after t ht).2.1

/-- The dictionary of an INSERT of one row pairs each column with its value. -/
theorem C85_dict_partial {st : List Token} {ki kn kt : Token} {cols : List Token} {kv : Token} {row post : List Token} {names : List (List Char)}
    {vals : List Val} (h : Plain st ki kn kt cols kv row post names vals) (hn : names.Nodup) :
    valuesDict st = .ok (some (names.zip vals)) := by
  have hi := h.insert
  obtain ⟨vs, bk, h1, h2⟩ := hi.run
  obtain ⟨w, w1, w2⟩ := h.first
  obtain ⟨tc, htc⟩ := h.table
  have hq : queryType ((vs.map VTok.p).map PTok.sql) = .ok (typeByWord ki.value) :=
    queryType_run h1 (by rw [w1.upper]; rcases w2 with rfl | rfl <;> decide) w1.letters w1.comment
  have hdot : ∀ u ∈ (ki :: kn :: kt :: rowToks cols) ++ kv :: (rowsToks [row] ++ post), isDot u = false := by
    intro u hu
    rcases List.mem_append.1 hu with hu | hu
    · exact hi.dots u (List.mem_append_left _ hu)
    · rcases List.mem_cons.1 hu with rfl | hu
      · exact h.word.dot
      · rcases List.mem_append.1 hu with hu | hu
        · exact dots_rows hi.cells u hu
        · exact hi.dots u (List.mem_append_right _ hu)
  obtain ⟨us, g1, g2⟩ := tokensOf_run h.toks h.digits hdot h1 hq
  -- no stars
  have hk : ∀ {w : String} {t : Token}, Word w t → t.ttype ≠ Operator ∧ t.ttype ≠ Wildcard := fun hw => ⟨hw.type _ rfl, hw.type _ rfl⟩
  have hty : ∀ t ∈ (ki :: kn :: kt :: rowToks cols) ++ kv :: (rowsToks [row] ++ post), t.ttype ≠ Operator ∧ t.ttype ≠ Wildcard := by
    have hpt : Punctuation ≠ Operator ∧ Punctuation ≠ Wildcard := by decide
    have hnt : Name ≠ Operator ∧ Name ≠ Wildcard := by decide
    intro t ht
    rcases List.mem_append.1 ht with ht | ht
    · rcases List.mem_cons.1 ht with rfl | ht
      · exact hk w1
      · rcases List.mem_cons.1 ht with rfl | ht
        · exact hk h.into
        · rcases List.mem_cons.1 ht with rfl | ht
          · rw [htc.type]; exact hnt
          · rcases mem_rowToks ht with ht | rfl | rfl | rfl
            · obtain ⟨d, _, hd⟩ := forall₂_left h.columns ht
              rw [hd.type]; exact hnt
            all_goals exact hpt
    · rcases List.mem_cons.1 ht with rfl | ht
      · exact hk h.word
      · rcases List.mem_append.1 ht with ht | ht
        · rcases mem_rowToks ht with ht | rfl | rfl | rfl
          · exact ⟨h.operators t (List.mem_append_left _ ht), (h.types t ht).2⟩
          all_goals exact hpt
        · exact ⟨h.operators t (List.mem_append_right _ ht), (h.after t ht).2.2.2.2⟩
  have hvs : ∀ v ∈ vs, v.ttype ≠ Operator ∧ v.ttype ≠ Wildcard := by
    intro v hv
    have hf := run_forall _ _ _ _ _ _ h1
    obtain ⟨t, ht, e, _⟩ := forall₂_left hf.flip hv
    rw [e]
    exact hty t ht
  have e := vkin_eq g2 hvs
  subst e
  -- the columns
  have hcols : columnsFrom none [] us = .ok names := by
    obtain ⟨p1, b1, l1, a1, a2, rfl⟩ := run_cons h1
    obtain ⟨p2, b2, l2, a3, a4, rfl⟩ := run_cons a2
    obtain ⟨i1, _, _⟩ := onToken_word h.into (by decide) (by decide) (by decide) (by decide) a3
    obtain ⟨p3, b3, l3, a5, a6, rfl⟩ := run_cons a4
    obtain ⟨rfl, c1⟩ := named_column (prev := some ⟨p2, kn.ttype⟩) (cs := []) htc a5 i1 l3
    have a6' : run (0 + 1 + 1 + 1) (p3 :: p2 :: p1 :: []) b3 (lpar :: (sep cols ++ rpar :: (kv :: (rowToks row ++ post)))) = .ok (l3, bk) := by
      rw [← a6]
      have : rowToks cols ++ kv :: (rowsToks [row] ++ post) = lpar :: (sep cols ++ rpar :: (kv :: (rowToks row ++ post))) := by
        rw [rowToks, rowsToks, List.cons_append, List.append_assoc, List.singleton_append]
      rw [← this]
      rfl
    obtain ⟨p4, b4, l4, a7, a8, rfl⟩ := run_cons a6'
    obtain ⟨_, i2, _⟩ := onToken_lpar a7
    obtain ⟨pos', made', b5, vr, prev', j1, j2⟩ := run_columns cols names _ _ _ _ _ _ (some ⟨p4, Punctuation⟩) [] h.columns (i2.trans i1) rfl a8
    obtain ⟨p6, b6, l6, a9, a10, rfl⟩ := run_cons j1
    have kwrel : ∀ {w : String} {t : Token} {pos : Nat} {made : List PTok} {b b' : Book} {p : PTok}, Word w t → relevant.contains w = true →
        onToken t (unquote t.value) pos made b = .ok (p, b') → ∀ (prev : Option VTok) (cs : List (List Char)) (r : List VTok),
        columnsFrom prev cs (⟨p, t.ttype⟩ :: r) = columnsFrom (some ⟨p, t.ttype⟩) cs r := by
      intro w t pos made b b' p hw hr ht prev cs r
      refine columns_skip (hw.type _ rfl) (hw.type _ rfl) fun _ => ?_
      rw [(onToken_last ht).2.1, word_normal hw]
      exact hr
    rw [kwrel w1 (by rcases w2 with rfl | rfl <;> decide) a1, kwrel h.into (by decide) a3, c1,
      if_neg (by rw [Option.any_some, VTok.punct, word_punct h.into]; simp),
      show (⟨p4, lpar.ttype⟩ : VTok) = ⟨p4, Punctuation⟩ from rfl, columns_punct, j2, kwrel h.word (by decide) a9,
      fold_add names [] (by simpa using hn), List.nil_append]
    refine run_noColumns _ _ _ _ _ _ _ _ ?_ a10
    intro t ht
    have hpt : Punctuation ≠ Name ∧ Punctuation ≠ Wildcard := by decide
    rcases List.mem_append.1 ht with ht | ht
    · rcases mem_rowToks ht with ht | rfl | rfl | rfl
      · obtain ⟨v, _, hv⟩ := forall₂_left h.cells ht
        exact ⟨(h.types t ht).1, (h.types t ht).2, hv.key⟩
      · exact ⟨hpt.1, hpt.2, key_lpar⟩
      · exact ⟨hpt.1, hpt.2, key_rpar⟩
      · exact ⟨hpt.1, hpt.2, key_comma⟩
    · exact ⟨(h.after t ht).2.2.2.1, (h.after t ht).2.2.2.2, (h.after t ht).2.2.1⟩
  have hvals : valuesFrom us = .ok vals := by rw [h2]; simp
  rw [valuesDict, g1]
  dsimp only
  rw [hvals]
  cases hv : vals with
  | nil => exact absurd hv h.some'.1
  | cons v vals' =>
    dsimp only
    rw [hcols]
    dsimp only
    have hne : names.isEmpty = false := by
      cases hnm : names with
      | nil => exact absurd hnm h.some'.2
      | cons _ _ => rfl
    rw [hne, if_neg (by simp), dictOf_nodup]
    exact hn.sublist (zip_fst _ _)

/-- **C85 (no values).** There is a dictionary exactly if there are values: without them `values_dict` is None, not an empty dictionary. -/
theorem C85_none {st : List Token} {l : List VTok} (h : tokensOf st = .ok l) : valuesDict st = .ok none ↔ valuesFrom l = .ok [] := by
  unfold valuesDict
  rw [h]
  dsimp only
  cases hv : valuesFrom l with
  | error e => simp
  | ok vs =>
    cases vs with
    | nil => simp
    | cons v vs =>
      dsimp only
      cases columnsFrom none [] l <;> simp

end EulerDB.Values
