/-
C70: how single operators, parentheses, the star and quoted names are read.
-/
import Verif.Sql.StmtProps
import Verif.Format.DotsProps

namespace EulerDB.Sql

open EulerDB EulerDB.Parse

variable {env : Env} {n : Nat}

/-- An operand that is a name, a number, a string or a list of several values. -/
def simpleV : V → Bool
  | .name _ => true
  | .int _ => true
  | .float _ => true
  | .lit _ => true
  | .hex _ => true
  | .tuple _ => true
  | .lits _ => true
  | _ => false

theorem binV_simple (o : JOp) {a b : V} (ha : simpleV a = true) (hb : simpleV b = true) : binV o a b = .call (jname o) [a, b] := by
  have h1 : isNullV a = false ∧ ∀ op, spreadV op a = [a] := by cases a <;> first | exact ⟨rfl, fun _ => rfl⟩ | cases ha
  have h2 : isNullV b = false ∧ ∀ op, spreadV op b = [b] := by cases b <;> first | exact ⟨rfl, fun _ => rfl⟩ | cases hb
  simp [binV, h1.1, h2.1, h1.2, h2.2]

theorem runV_bin (o : Bop) (a b : V) : runV [.val a, .bin o, .val b] = some (binV (jop o) a b) := by
  cases o <;> rfl

theorem runV_btw (m : Bool) (a b c : V) : runV [.val a, .btw m, .val b, .bin .and, .val c] =
    some (.call (if m then "not_between" else "between") [a, b, c]) := by
  cases m <;> rfl

theorem runV_pre (p : Pre) (a : V) : runV [.pre p, .val a] = some (unV p a) := by
  cases p <;> rfl

/-- What the operators of MySQL that are signs are called in the JSON. -/
def signNames : List (String × String) :=
  [("=", "eq"), ("<>", "neq"), ("!=", "neq"), ("<", "lt"), (">", "gt"), ("<=", "lte"), (">=", "gte"), ("<=>", "eq!"),
   ("+", "add"), ("-", "sub"), ("*", "mul"), ("/", "div"), ("%", "mod"), ("&", "binary_and"), ("|", "binary_or")]

/-- What the operators that are words are called. -/
def wordNames : List (List String × String) :=
  [(["and"], "and"), (["or"], "or"), (["in"], "in"), (["not", "in"], "nin"), (["like"], "like"), (["not", "like"], "not_like"),
   (["rlike"], "rlike"), (["not", "rlike"], "not_rlike"), (["collate"], "collate")]

/-- **C70, operators that are signs:** between two operands each is read as the operator it is in MySQL. -/
theorem C70_sign_partial {w name : String} (h : (w, name) ∈ signNames) {d e : Edge} {g1 t g2 g3 u : List Char} {a b : V} (h1 : Gap g1)
    (ht : SpAtom env (SpExpr env n) d t a) (h2 : Gap g2) (hs : Sep d (g2 ++ w.toList)) (h3 : Gap g3) (hu : SpAtom env (SpExpr env n) e u b)
    (hm : w = "-" → (g3 ++ u).head? ≠ some '-') (ha : simpleV a = true) (hb : simpleV b = true) :
    Spells env e (g1 ++ t ++ g2 ++ w.toList ++ (g3 ++ u)) (.call name [a, b]) := by
  obtain ⟨o, ho, hj⟩ : ∃ o, (w, OpTok.bin o) ∈ symbolOps ∧ jname (jop o) = name := by
    simp only [signNames, List.mem_cons, Prod.mk.injEq, List.not_mem_nil, or_false] at h
    rcases h with ⟨rfl, rfl⟩ | ⟨rfl, rfl⟩ | ⟨rfl, rfl⟩ | ⟨rfl, rfl⟩ | ⟨rfl, rfl⟩ | ⟨rfl, rfl⟩ | ⟨rfl, rfl⟩ | ⟨rfl, rfl⟩ | ⟨rfl, rfl⟩ | ⟨rfl, rfl⟩ |
      ⟨rfl, rfl⟩ | ⟨rfl, rfl⟩ | ⟨rfl, rfl⟩ | ⟨rfl, rfl⟩ | ⟨rfl, rfl⟩
    · exact ⟨.eq, by decide, rfl⟩
    · exact ⟨.neq, by decide, rfl⟩
    · exact ⟨.neq, by decide, rfl⟩
    · exact ⟨.lt, by decide, rfl⟩
    · exact ⟨.gt, by decide, rfl⟩
    · exact ⟨.lte, by decide, rfl⟩
    · exact ⟨.gte, by decide, rfl⟩
    · exact ⟨.deq, by decide, rfl⟩
    · exact ⟨.add, by decide, rfl⟩
    · exact ⟨.sub, by decide, rfl⟩
    · exact ⟨.mul, by decide, rfl⟩
    · exact ⟨.div, by decide, rfl⟩
    · exact ⟨.mod, by decide, rfl⟩
    · exact ⟨.band, by decide, rfl⟩
    · exact ⟨.bor, by decide, rfl⟩
  refine ⟨n + 1, .inl ⟨[.val a] ++ .bin o :: [.val b], .cons (.atom h1 ht) h2 hs (.sym ho hm) (.one (.atom h3 hu)), ?_⟩⟩
  rw [List.singleton_append, runV_bin, binV_simple _ ha hb, hj]

/-- `a <>5`. -/
example : Spells env .lit ([] ++ ['a'] ++ [' '] ++ "<>".toList ++ ([] ++ ['5'])) (.call "neq" [.name "a", .int 5]) :=
  C70_sign_partial (n := 0) (by decide) (h1 := .nil)
    (ht := .name (.mk (.plain ⟨by decide, 'a', [], rfl, by decide⟩) (by decide +kernel) .nil)) (.white (by decide) .nil) (by intro c hc; cases hc; decide)
    .nil (.int (by decide) (by decide)) (by decide) rfl rfl

/-- **C70, operators that are words.** -/
theorem C70_word_partial {ws : List String} {name : String} (h : (ws, name) ∈ wordNames) {d e : Edge} {g1 t g2 w g3 u : List Char} {a b : V} (h1 : Gap g1)
    (ht : SpAtom env (SpExpr env n) d t a) (h2 : Gap g2) (hs : Sep d (g2 ++ w)) (hw : Words ws w) (h3 : Gap g3) (hu : SpAtom env (SpExpr env n) e u b)
    (hb' : boundary (g3 ++ u) = true) (ha : simpleV a = true) (hb : simpleV b = true) :
    Spells env e (g1 ++ t ++ g2 ++ w ++ (g3 ++ u)) (.call name [a, b]) := by
  obtain ⟨o, ho, hj, his⟩ : ∃ o, (ws, OpTok.bin o) ∈ wordOps ∧ jname (jop o) = name ∧ ws ≠ ["is"] := by
    simp only [wordNames, List.mem_cons, Prod.mk.injEq, List.not_mem_nil, or_false] at h
    rcases h with ⟨rfl, rfl⟩ | ⟨rfl, rfl⟩ | ⟨rfl, rfl⟩ | ⟨rfl, rfl⟩ | ⟨rfl, rfl⟩ | ⟨rfl, rfl⟩ | ⟨rfl, rfl⟩ | ⟨rfl, rfl⟩ | ⟨rfl, rfl⟩
    · exact ⟨.and, by decide, rfl, by decide⟩
    · exact ⟨.or, by decide, rfl, by decide⟩
    · exact ⟨.isin, by decide, rfl, by decide⟩
    · exact ⟨.nin, by decide, rfl, by decide⟩
    · exact ⟨.like, by decide, rfl, by decide⟩
    · exact ⟨.notLike, by decide, rfl, by decide⟩
    · exact ⟨.rlike, by decide, rfl, by decide⟩
    · exact ⟨.notRlike, by decide, rfl, by decide⟩
    · exact ⟨.collate, by decide, rfl, by decide⟩
  refine ⟨n + 1, .inl ⟨[.val a] ++ .bin o :: [.val b], .cons (.atom h1 ht) h2 hs (.word ho hw hb' (fun x => absurd x his)) (.one (.atom h3 hu)), ?_⟩⟩
  rw [List.singleton_append, runV_bin, binV_simple _ ha hb, hj]

/-- **C70, BETWEEN and NOT BETWEEN.** -/
theorem C70_between_partial {ws : List String} {name : String} (h : (ws, name) ∈ [(["between"], "between"), (["not", "between"], "not_between")])
    {d e f : Edge} {g1 t g2 w g3 u g4 k g5 v : List Char} {a b c : V} (h1 : Gap g1) (ht : SpAtom env (SpExpr env n) d t a) (h2 : Gap g2)
    (hs : Sep d (g2 ++ w)) (hw : Words ws w) (h3 : Gap g3) (hu : SpAtom env (SpExpr env n) e u b) (h4 : Gap g4) (hs' : Sep e (g4 ++ k)) (hk : Word "and" k)
    (h5 : Gap g5) (hv : SpAtom env (SpExpr env n) f v c) (hb : boundary (g3 ++ u ++ g4 ++ k ++ (g5 ++ v)) = true) (hb' : boundary (g5 ++ v) = true) :
    Spells env f (g1 ++ t ++ g2 ++ w ++ (g3 ++ u ++ g4 ++ k ++ (g5 ++ v))) (.call name [a, b, c]) := by
  obtain ⟨m, ho, hj⟩ : ∃ m, (ws, OpTok.btw m) ∈ wordOps ∧ (if m then "not_between" else "between") = name := by
    simp only [List.mem_cons, Prod.mk.injEq, List.not_mem_nil, or_false] at h
    rcases h with ⟨rfl, rfl⟩ | ⟨rfl, rfl⟩
    · exact ⟨false, by decide, rfl⟩
    · exact ⟨true, by decide, rfl⟩
  refine ⟨n + 1, .inl ⟨[.val a] ++ .btw m :: ([.val b] ++ .bin .and :: [.val c]), .cons (.atom h1 ht) h2 hs (.btw ho hw hb)
    (.cons (.atom h3 hu) h4 hs' (.word (ws := ["and"]) (by decide) (.one hk) hb' (fun x => absurd x (by decide))) (.one (.atom h5 hv))), ?_⟩⟩
  rw [List.singleton_append, List.singleton_append, runV_btw, hj]

/-- **C70, a minus before a number is its sign.** -/
theorem C70_minus_partial {g1 g2 ds : List Char} (h1 : Gap g1) (h2 : Gap g2) (hne : ds ≠ []) (hd : ∀ c ∈ ds, c.isDigit = true) (hm : (g2 ++ ds).head? ≠ some '-') :
    Spells env .lit (g1 ++ '-' :: (g2 ++ ds)) (.int (-(natOf 0 ds : Int))) :=
  ⟨1, .inl ⟨[.pre .neg, .val (.int (natOf 0 ds))], .one (.neg h1 hm (.atom h2 (.int hne hd))), by rw [runV_pre]; rfl⟩⟩

/-- The same for a decimal number. -/
theorem C70_minus_real_partial {g1 g2 w f : List Char} {q : ℚ} (h1 : Gap g1) (h2 : Gap g2) (hne : w ++ f ≠ []) (hd : ∀ c ∈ w ++ f, c.isDigit = true)
    (hq : env.fl (natQ w + natQ f / 10 ^ f.length) = some q) (hm : (g2 ++ (w ++ '.' :: f)).head? ≠ some '-') :
    Spells env .lit (g1 ++ '-' :: (g2 ++ (w ++ '.' :: f))) (.float (-q)) :=
  ⟨1, .inl ⟨[.pre .neg, .val (.float q)], .one (.neg h1 hm (.atom h2 (.real hne hd hq))), by rw [runV_pre]; rfl⟩⟩

theorem spreadV_paren (op : String) (v : V) : spreadV op (.paren v) = spreadV op v := by
  rw [spreadV, spreadV, unparen]

/-- **C70, parentheses around one operand are only grouping** (unless it is NULL). -/
theorem C70_parens_partial (o : JOp) (v w : V) (hv : isNullV v = false) : scrub (binV o (tupleV [v]) w) = scrub (binV o v w) := by
  have h1 : isNullV (tupleV [v]) = false := rfl
  have h2 : ∀ op, spreadV op (tupleV [v]) = spreadV op v := fun op => spreadV_paren op v
  have h3 : ∀ op l, scrub (.call op (tupleV [v] :: l)) = scrub (.call op (v :: l)) := by
    intro op l
    rw [scrub, scrub, scrubs, scrubs, tupleV, scrub]
  unfold binV
  rw [h1, hv, h2]
  split
  · rw [h3]
  · simp only [Bool.false_eq_true, and_false, if_false]
    split
    · rw [h3]
    · split
      · rfl
      · rw [h3]

/-- **C70 fails for NULL in parentheses:** `a = (NULL)` is no test for NULL, as it is without them. -/
theorem C70_fails_null_parens (a : String) : scrub (binV .eq (.name a) .null) = .dict [("missing", .str a)] ∧
    scrub (binV .eq (.name a) (tupleV [.null])) = .dict [("eq", .list [.str a, nullJson])] := ⟨rfl, rfl⟩

/-- A text that begins with a sign does not begin with the word. -/
theorem no_paren_after_not {w : String} {a : Char} {l : List Char} (hw : w.toList = a :: l) (hw2 : Wordy w.toList) {g u : List Char} {c : Char} (hg : Gap g)
    (hc : keyChar c = false) (hs : solidChar c = true) : ¬ Opens w (g ++ c :: u) := by
  rintro ⟨g', t, r, h1, h2, h3, h4⟩
  have hf : First (g ++ c :: u) [] (c :: u) := (first_char hc hs u).gap hg
  have hk := hf.kw hw2
  rw [if_neg (by rw [hw]; simp), h4] at hk
  have ht : Wordy t := wordy_of h2 hw2
  have hf' : First (g' ++ (t ++ r)) t r := (first_word ht (by rintro rfl; rw [Word, hw] at h2; simp at h2) h3).gap h1
  rw [hf'.kw hw2, if_pos (show _ = _ from h2)] at hk
  cases hk

/-- **C70, the star.** -/
theorem C70_star (space : Char → Bool) {sql s g u v x : List Char} {e : Edge} {tables : List Json} {w : Option V} (ht : Trimmed space sql s)
    (h1 : Kw "select" s (g ++ ['*'] ++ u)) (hg : Gap g) (hs : Sep .shut u) (hf : Kw "from" u (v ++ x)) (hv : SpList SpTable e v tables)
    (hw : SpWhere env e x w) :
    parse env space sql = .json (.dict (("select", .str "*") :: ("from", listJson tables) :: whereJson w)) :=
  C70_select_partial env space ht (cols := [.str "*"]) (.mk h1
    (by rw [List.append_assoc]; exact no_paren_after_not (a := 't') (l := ['o', 'p']) rfl (by decide) hg (by decide) (by decide))
    (.one (.plain ⟨1, .inr ⟨rfl, rfl, g, hg, rfl⟩⟩ rfl)) hs hf hv hw)

theorem noPair_noDot : ∀ t : List Char, '.' ∉ t → Format.NoPair t
  | [], _ => trivial
  | [_], _ => trivial
  | c :: d :: t, h => by
    simp only [List.mem_cons, not_or] at h
    exact ⟨fun hh => h.2.1 hh.2.symm, noPair_noDot (d :: t) (by simp [h.2])⟩

theorem dotEscape_eq {b : List Char} (ha : Format.markA ∉ b) : dotEscape b = Format.unfold' Format.markA (Format.swap '.' Format.markA b) := by
  induction b with
  | nil => rfl
  | cons c b ih =>
    simp only [List.mem_cons, not_or] at ha
    have h := ih ha.2
    rw [dotEscape, h]
    show _ = Format.unfold' Format.markA ((if c = '.' then Format.markA else c) :: Format.swap '.' Format.markA b)
    rw [Format.unfold']
    by_cases hc : c = '.'
    · rw [if_pos hc, if_pos hc, if_pos rfl]
    · rw [if_neg hc, if_neg hc, if_neg (fun x => ha.1 x.symm)]

/-- **C70, a quoted name is one name:** dots within it do not divide it. -/
theorem C70_quoted_name {b : List Char} (hb : b ≠ []) (h : Format.Clean b) : Format.splitField (dotEscape b) = ⟨0, [b]⟩ := by
  have h1 := Format.C46_split_join_partial b [] hb (by simpa using h)
  have h2 : Format.joinNames [b] = dotEscape b := by
    rw [dotEscape_eq h.1, Format.joinNames]
    congr 1
    exact Format.fold_noPair _ _ (noPair_noDot _ (Format.not_mem_swap '.' Format.markA (by decide) b))
  have h3 : Format.joinField ⟨0, [b]⟩ = dotEscape b := by
    rw [Format.joinField, if_pos rfl, h2, if_neg]
    cases b with
    | nil => exact absurd rfl hb
    | cons c b => rw [dotEscape]; split <;> simp
  rwa [h3] at h1

end EulerDB.Sql
