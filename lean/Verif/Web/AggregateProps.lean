import Verif.Web.InjectProps
import Verif.Clause.SelectProps

/-! # C56: aggregates over encrypted columns -/

namespace EulerDB.Web

open EulerDB EulerDB.Delta EulerDB.Clause

/-- An item of a rewritten select list. -/
inductive Agg where
  | sum (s : String)
  | avg (s : String)
  | col (s : String)
  | fn (f : String) (j : Json)

def Agg.json : Agg → Json
  | .sum s => .dict [("sum", .str s)]
  | .avg s => .dict [("avg", .str s)]
  | .col s => .str s
  | .fn f j => .dict [(f, j)]

/-- Only `sum` and `avg` of a column are written with these names. -/
def Agg.Proper : Agg → Prop
  | .fn f _ => f ≠ "sum" ∧ f ≠ "avg"
  | _ => True

/-- The backend columns summed up, with the square of the modulus of each. -/
def sums (hom : Dict String Nat) : List Agg → List (String × Nat)
  | [] => []
  | .sum s :: r => (match Dict.get? hom (lastPart s) with | some n => [(s, n)] | none => []) ++ sums hom r
  | _ :: r => sums hom r

/-- The backend columns averaged. -/
def avgs (hom : Dict String Nat) : List Agg → List (String × Nat)
  | [] => []
  | .avg s :: r => (match Dict.get? hom (lastPart s) with | some n => [(s, n)] | none => []) ++ avgs hom r
  | _ :: r => avgs hom r

theorem features_spec (hom : Dict String Nat) (l : List Agg) (h : ∀ a ∈ l, a.Proper) : features hom (l.map Agg.json) = (sums hom l, avgs hom l) := by
  induction l with
  | nil => rfl
  | cons a l ih =>
    have := ih fun a ha => h a (by simp [ha])
    rw [List.map_cons, features, this]
    cases a with
    | sum s =>
      simp [Agg.json, feature, Dict.get?, sums, avgs]
      cases Dict.get? hom (lastPart s) <;> rfl
    | avg s =>
      simp [Agg.json, feature, Dict.get?, sums, avgs]
      cases Dict.get? hom (lastPart s) <;> rfl
    | col s => simp [Agg.json, sums, avgs]
    | fn f j =>
      obtain ⟨h1, h2⟩ := h _ (List.mem_cons_self)
      simp [Agg.json, feature, Dict.get?, sums, avgs, h1, h2]

/-- What is sent for a select list of several items: for each SUM and AVG over an arithmetic column, in any place of the list, a session variable is set with the
square of the modulus of that column, and the calls are replaced by the variables. -/
theorem C56_list_partial (fmt : Dict String Json → List Char) (parse : List Char → Except PyErr (Dict String Json)) (cls : Db) (q : Dict String Json) (hq : q ≠ [])
    (t : Json) (l : List Agg) (hl : ∀ a ∈ l, a.Proper) (hsel : Dict.get? q "select" = some (.list (l.map Agg.json))) (tm : TableMeta ColMeta) (ht : tableOfJson cls t = .ok tm)
    (hom : Dict String Nat) (hh : homDict tm.columns [] = .ok hom) (ha : aggregate (fmt q) = true) (hne : sums hom l ≠ [] ∨ avgs hom l ≠ []) (src : List Char)
    (hsrc : afterFrom (fmt (Dict.erase q "limit")) = some src) :
    inject fmt parse cls (some q) t (fmt q) = .ok ⟨sums hom l ++ avgs hom l, some src,
      (avgs hom l).foldl (fun q f => modifyAvg q f.1) ((sums hom l).foldl (fun q f => modifySum q f.1) (fmt (Dict.erase q "limit"))) ++ " limit 1".toList⟩ := by
  cases q with
  | nil => exact absurd rfl hq
  | cons e q =>
    have hs : selectItems (Dict.erase (e :: q) "limit") = .ok (l.map Agg.json) := by
      unfold selectItems
      rw [Dict.get?_erase_ne _ (by decide), hsel]
    have hb : ((sums hom l).isEmpty && (avgs hom l).isEmpty) = false := by
      rcases hne with h | h
      · simp [h]
      · simp [h]
    simp only [inject, ha, if_true, hs, ht, hh, features_spec hom l hl, hb, Bool.false_eq_true, if_false, hsrc]

/-- The same for a single item. -/
theorem C56_single_partial (fmt : Dict String Json → List Char) (parse : List Char → Except PyErr (Dict String Json)) (cls : Db) (q : Dict String Json) (hq : q ≠ [])
    (t : Json) (s : String) (d : Dict String Json) (hd : Dict.get? d "value" = some (.dict [("sum", .str s)])) (hsel : Dict.get? q "select" = some (.dict d))
    (tm : TableMeta ColMeta) (ht : tableOfJson cls t = .ok tm) (hom : Dict String Nat) (hh : homDict tm.columns [] = .ok hom) (n : Nat) (hn : Dict.get? hom (lastPart s) = some n)
    (ha : aggregate (fmt q) = true) (src : List Char) (hsrc : afterFrom (fmt (Dict.erase q "limit")) = some src) :
    inject fmt parse cls (some q) t (fmt q) = .ok ⟨[(s, n)], some src, modifySum (fmt (Dict.erase q "limit")) s ++ " limit 1".toList⟩ := by
  cases q with
  | nil => exact absurd rfl hq
  | cons e q =>
    have hs : selectItems (Dict.erase (e :: q) "limit") = .ok [.dict [("sum", .str s)]] := by
      unfold selectItems
      rw [Dict.get?_erase_ne _ (by decide), hsel]
      simp [pyItem, Dict.getItem, hd]
    have hf : features hom [.dict [("sum", .str s)]] = ([(s, n)], []) := by simp [features, feature, Dict.get?, hn]
    simp [inject, ha, hs, ht, hh, hf, hsrc]

/-- The moduli are those of the columns: `homo_enc_dict` maps the arithmetic backend name of each column to the square of its modulus, if the names are distinct. -/
theorem homDict_get (cols : Dict String ColMeta) (acc hom : Dict String Nat) (h : homDict cols acc = .ok hom) (b : String) :
    (∀ e ∈ cols, Dict.get? e.2.encCols "arithmetic" ≠ some b) → Dict.get? hom b = Dict.get? acc b := by
  induction cols generalizing acc with
  | nil => intro _; simp only [homDict] at h; injection h with h; rw [h]
  | cons e cols ih =>
    obtain ⟨k, cm⟩ := e
    intro hb
    have hb' := fun e he => hb e (List.mem_cons_of_mem _ he)
    have h0 := hb (k, cm) (by simp)
    simp only at h0
    rw [homDict] at h
    split at h
    · exact ih acc h hb'
    · rename_i b' hg
      split at h
      · exact ih acc h hb'
      · split at h
        · cases h
        · rw [ih _ h hb', Dict.get?_set_ne]
          rintro rfl
          exact h0 hg

/-- Each arithmetic column is summed with the square of its own modulus. -/
theorem C56_modulus (pre post : Dict String ColMeta) (k : String) (cm : ColMeta) (hom : Dict String Nat) (b : String) (p q : Nat)
    (h : homDict (pre ++ (k, cm) :: post) [] = .ok hom) (hb : b ≠ "") (he : Dict.get? cm.encCols "arithmetic" = some b) (hk : cm.homKey = some (p, q))
    (hu : ∀ e ∈ post, Dict.get? e.2.encCols "arithmetic" ≠ some b) : Dict.get? hom b = some ((p * q) ^ 2) := by
  revert h
  generalize ([] : Dict String Nat) = acc
  induction pre generalizing acc with
  | nil =>
    intro h
    rw [List.nil_append, homDict, he] at h
    simp only [if_neg hb, hk] at h
    rw [homDict_get _ _ _ h b hu, Dict.get?_set_self]
  | cons e pre ih =>
    obtain ⟨k', cm'⟩ := e
    intro h
    rw [List.cons_append, homDict] at h
    split at h
    · exact ih _ h
    · split at h
      · exact ih _ h
      · split at h
        · cases h
        · exact ih _ h

/-! ### The replacement in the text -/

/-- A text in which the call does not occur is left as it is. -/
theorem replaceGo_absent (old new : List Char) (s : List Char) (h : isSub old s = false) : replaceGo old new 0 s = s := by
  induction s with
  | nil => rfl
  | cons c s ih =>
    simp only [isSub, Bool.or_eq_false_iff] at h
    rw [replaceGo, h.1]
    simp [ih h.2]

theorem replaceGo_skip (old new p r : List Char) : replaceGo old new p.length (p ++ r) = replaceGo old new 0 r := by
  induction p with
  | nil => rfl
  | cons c p ih => simp [replaceGo, ih]

/-- The first occurrence is replaced and the rest is treated in the same way. -/
theorem replaceGo_first (old new p r : List Char) (ho : old ≠ []) (hp : ∀ a b, p = a ++ b → b ≠ [] → old.isPrefixOf (b ++ (old ++ r)) = false) :
    replaceGo old new 0 (p ++ (old ++ r)) = p ++ (new ++ replaceGo old new 0 r) := by
  induction p with
  | nil =>
    cases old with
    | nil => exact absurd rfl ho
    | cons c old =>
      have h1 : (c :: old).isPrefixOf (c :: (old ++ r)) = true := by
        rw [List.isPrefixOf_iff_prefix]; exact ⟨r, by simp⟩
      simp only [List.nil_append, List.cons_append, replaceGo, h1, if_true, List.length_cons, Nat.add_sub_cancel]
      rw [replaceGo_skip]
  | cons c p ih =>
    have h1 := hp [] (c :: p) rfl (by simp)
    rw [List.cons_append] at h1
    rw [List.cons_append, replaceGo, h1]
    simp only [Bool.false_eq_true, if_false, List.cons_append]
    rw [ih fun a b hab hb => hp (c :: a) b (by rw [hab]; rfl) hb]

/-- `SUM(f)` is replaced by `@sumf`: in a text `p ++ "SUM(f)" ++ r` whose part `p` has no 'S'. -/
theorem C56_replaced_partial (f : String) (p r : List Char) (hp : 'S' ∉ p) (hr : isSub ("SUM(".toList ++ f.toList ++ [')']) r = false) :
    modifySum (p ++ ("SUM(".toList ++ f.toList ++ [')'] ++ r)) f = p ++ ("@sum".toList ++ underscored f ++ r) := by
  unfold modifySum
  rw [replaceGo_first _ _ _ _ (by simp), replaceGo_absent _ _ _ hr]
  intro a b hab hb
  cases b with
  | nil => exact absurd rfl hb
  | cons c b =>
    have hc : c ≠ 'S' := by rintro rfl; exact hp (by rw [hab]; simp)
    simp [List.isPrefixOf, Ne.symm hc]

/-- `AVG(f)` is replaced by the sum and the number of rows, separated by a comma. -/
theorem C56_replaced_avg_partial (f : String) (p r : List Char) (hp : 'A' ∉ p) (hr : isSub ("AVG(".toList ++ f.toList ++ [')']) r = false) :
    modifyAvg (p ++ ("AVG(".toList ++ f.toList ++ [')'] ++ r)) f =
      p ++ ("concat(@sum".toList ++ underscored f ++ ", ',',@numTotalFeature)".toList ++ r) := by
  unfold modifyAvg
  rw [replaceGo_first _ _ _ _ (by simp), replaceGo_absent _ _ _ hr]
  intro a b hab hb
  cases b with
  | nil => exact absurd rfl hb
  | cons c b =>
    have hc : c ≠ 'A' := by rintro rfl; exact hp (by rw [hab]; simp)
    simp [List.isPrefixOf, Ne.symm hc]

/-- The parts of a text with a word between each two. -/
def between (w : List Char) : List (List Char) → List Char
  | [] => []
  | [p] => p
  | p :: q :: r => p ++ (w ++ between w (q :: r))

/-- All occurrences are replaced: in every text whose other parts have no 'S'. -/
theorem C56_replaced_all_partial (f : String) (parts : List (List Char)) (hp : ∀ p ∈ parts, 'S' ∉ p) :
    modifySum (between ("SUM(".toList ++ f.toList ++ [')']) parts) f = between ("@sum".toList ++ underscored f) parts := by
  have none : ∀ p : List Char, 'S' ∉ p → isSub ("SUM(".toList ++ f.toList ++ [')']) p = false := by
    intro p h
    induction p with
    | nil => rfl
    | cons c p ih =>
      simp only [List.mem_cons, not_or] at h
      rw [isSub, ih h.2, Bool.or_false]
      simp [List.isPrefixOf, h.1]
  unfold modifySum
  induction parts with
  | nil => rfl
  | cons p r ih =>
    cases r with
    | nil => exact replaceGo_absent _ _ _ (none p (hp p (by simp)))
    | cons q r =>
      have ih := ih fun x hx => hp x (by simp [hx])
      rw [between, between, replaceGo_first _ _ _ _ (by simp), ih]
      intro a b hab hb
      cases b with
      | nil => exact absurd rfl hb
      | cons c b =>
        have hc : c ≠ 'S' := by rintro rfl; exact hp p (by simp) (by rw [hab]; simp)
        simp [List.isPrefixOf, Ne.symm hc]

theorem isSub_append (w a b : List Char) (hw : w ≠ []) : isSub w (a ++ (w ++ b)) = true := by
  induction a with
  | nil =>
    cases w with
    | nil => exact absurd rfl hw
    | cons c w =>
      rw [List.nil_append, List.cons_append, isSub, Bool.or_eq_true]
      left
      rw [List.isPrefixOf_iff_prefix]
      exact ⟨b, by simp⟩
  | cons c a ih => rw [List.cons_append, isSub, ih, Bool.or_true]

/-- A query is recognised if SUM or AVG follows a blank and is followed by a parenthesis at once. -/
theorem C56_recognised (a b : List Char) : aggregate (a ++ (' ' :: 'S' :: 'U' :: 'M' :: '(' :: b)) = true ∧
    aggregate (a ++ (' ' :: 'A' :: 'V' :: 'G' :: '(' :: b)) = true := by
  unfold aggregate
  constructor
  · rw [show ' ' :: 'S' :: 'U' :: 'M' :: '(' :: b = [' ', 'S', 'U', 'M', '('] ++ b from rfl, isSub_append _ _ _ (by simp)]
    rfl
  · rw [show ' ' :: 'A' :: 'V' :: 'G' :: '(' :: b = [' ', 'A', 'V', 'G', '('] ++ b from rfl, isSub_append _ _ _ (by simp), Bool.or_true]

theorem split_last (t x : List Char) (hx : '.' ∉ x) : ∃ l, Text.split '.' (t ++ '.' :: x) = l ++ [x] := by
  induction t with
  | nil => exact ⟨[[]], by simp [Text.split, Text.split_word x hx]⟩
  | cons c t ih =>
    obtain ⟨l, hl⟩ := ih
    rw [List.cons_append]
    conv => arg 1; ext; lhs; unfold Text.split
    rw [hl]
    split
    · exact ⟨[] :: l, rfl⟩
    · cases l with
      | nil =>
        exfalso
        have := Text.join_split (sep := '.') (t ++ '.' :: x)
        rw [hl] at this
        simp only [List.nil_append, Text.join] at this
        exact hx (by rw [this]; simp)
      | cons a l => exact ⟨(c :: a) :: l, rfl⟩

/-- A qualified name is looked up by its last part. -/
theorem C56_qualified (t x : List Char) (hx : '.' ∉ x) : lastPart (String.ofList (t ++ '.' :: x)) = String.ofList x := by
  unfold lastPart splitDot
  obtain ⟨l, hl⟩ := split_last t x hx
  rw [String.toList_ofList, hl]
  simp

/-! ### Failures -/

/-- A query in which no SUM and no AVG follows a blank is sent as it is, whatever it sums: as in `SELECT (SUM(x))`. -/
theorem C56_fails_unrecognised (fmt : Dict String Json → List Char) (parse : List Char → Except PyErr (Dict String Json)) (cls : Db) (q : Option (Dict String Json))
    (t : Json) (enc : List Char) (h : aggregate enc = false) : inject fmt parse cls q t enc = .ok ⟨[], none, enc⟩ := by
  simp [inject, h]

example : aggregate "SELECT (SUM(x)) FROM t".toList = false := by
  simp [aggregate, isSub, List.isPrefixOf]

/-- The property fails for every aggregate inside another function, as in ROUND(SUM(x), 2): nothing is replaced, and the database adds up the ciphertexts. -/
theorem C56_fails_nested (fmt : Dict String Json → List Char) (parse : List Char → Except PyErr (Dict String Json)) (cls : Db) (q : Dict String Json)
    (t : Json) (f : String) (j : Json) (hf : f ≠ "sum" ∧ f ≠ "avg") (hsel : Dict.get? q "select" = some (.dict [("value", .dict [(f, j)])])) (x : Sent)
    (hx : inject fmt parse cls (some q) t (fmt q) = .ok x) : x = ⟨[], none, fmt q⟩ := by
  have hs : selectItems (Dict.erase q "limit") = .ok [.dict [(f, j)]] := by
    unfold selectItems
    rw [Dict.get?_erase_ne _ (by decide), hsel]
    simp [pyItem, Dict.getItem, Dict.get?]
  have hf : ∀ hom, features hom [.dict [(f, j)]] = ([], []) := fun hom => by simp [features, feature, Dict.get?, hf.1, hf.2]
  cases q with
  | nil => cases hsel
  | cons e q =>
    unfold inject at hx
    split at hx
    · simp only [hs, hf] at hx
      split at hx
      · cases hx
      · split at hx
        · cases hx
        · simp only [List.isEmpty_nil, Bool.and_self, if_true] at hx
          injection hx with hx
          exact hx.symm
    · injection hx with hx
      exact hx.symm

/-- It fails for every grouped query: whatever the query, the statement sent when a session variable is used ends in " limit 1", so that one group is returned at
most, and the query's own LIMIT is gone. -/
theorem C56_fails_grouped (fmt : Dict String Json → List Char) (parse : List Char → Except PyErr (Dict String Json)) (cls : Db) (q : Option (Dict String Json))
    (t : Json) (enc : List Char) (x : Sent) (hx : inject fmt parse cls q t enc = .ok x) (hn : x.setup ≠ []) : ∃ p, x.text = p ++ " limit 1".toList := by
  unfold inject at hx
  split at hx
  · split at hx
    · cases hx
    · simp only at hx
      split at hx
      · cases hx
      · split at hx
        · cases hx
        · split at hx
          · cases hx
          · split at hx
            · injection hx with hx; subst hx; exact absurd rfl hn
            · split at hx
              · cases hx
              · injection hx with hx; subst hx; exact ⟨_, rfl⟩
  · injection hx with hx; subst hx; exact absurd rfl hn

/-- It fails for two columns whose qualified names differ only in '.' and '_': they share one session variable. -/
theorem C56_fails_same_variable (a b c : List Char) : underscored (String.ofList (a ++ '.' :: (b ++ '_' :: c))) = underscored (String.ofList (a ++ '_' :: (b ++ '.' :: c))) := by
  simp [underscored]

/-- SELECT SUM(x), AVG(y) with two arithmetic columns. -/
example : sums [("xh", 225), ("yh", 1225)] [.sum "t.xh", .avg "t.yh", .col "z"] = [("t.xh", 225)] ∧ avgs [("xh", 225), ("yh", 1225)] [.sum "t.xh", .avg "t.yh", .col "z"] = [("t.yh", 1225)] ∧
    homDict demoHom.columns [] = .ok [("xh", 225), ("yh", 1225)] := by
  refine ⟨?_, ?_, ?_⟩
  · simp [sums, lastPart, splitDot, Text.split, Dict.get?]
  · simp [avgs, lastPart, splitDot, Text.split, Dict.get?]
  · simp [homDict, demoHom, Dict.get?, Dict.set]

end EulerDB.Web
