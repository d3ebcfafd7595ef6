/-
C77: a statement sent through the proxy compared with the same characters sent to a backend that holds the data itself.
-/
import Verif.Whole.BackStmt
import Verif.Whole.Serve

namespace EulerDB.Whole

open EulerDB EulerDB.Clause EulerDB.Delta

/-! ### Conditions -/

/-- The condition compares columns with literals of their type (`Typed`), with AND and OR. -/
def MEx.Fit (cols : Dict String ColMeta) : MEx → Prop
  | .cmp .eq (.name n) (.int z) => Typed cols (.eqInt n z)
  | .cmp .eq (.name n) (.text s) => Typed cols (.eqText n s)
  | .cmp .gt (.name n) (.int z) => Typed cols (.cmp .gt n z)
  | .cmp .lt (.name n) (.int z) => Typed cols (.cmp .lt n z)
  | .cmp .gte (.name n) (.int z) => Typed cols (.cmp .gte n z)
  | .cmp .lte (.name n) (.int z) => Typed cols (.cmp .lte n z)
  | .and a b => a.Fit cols ∧ b.Fit cols
  | .or a b => a.Fit cols ∧ b.Fit cols
  | _ => False

/-- A row as a backend without encryption holds it. -/
def plainRow (row : PRow) : Row := row.map fun e => (e.1, e.2.db)

theorem get?_map {α β : Type} (f : α → β) : ∀ (d : Dict String α) (k : String), Dict.get? (d.map fun e => (e.1, f e.2)) k = (Dict.get? d k).map f
  | [], _ => rfl
  | (k', v) :: r, k => by
    rw [List.map_cons, Dict.get?_cons, Dict.get?_cons, get?_map f r k]
    split <;> rfl

theorem set_map {α β : Type} (f : α → β) : ∀ (d : Dict String α) (k : String) (v : α),
    Dict.set (d.map fun e => (e.1, f e.2)) k (f v) = (Dict.set d k v).map fun e => (e.1, f e.2)
  | [], _, _ => rfl
  | (k', v') :: r, k, v => by
    rw [List.map_cons, Dict.set, Dict.set]
    split
    · rfl
    · rw [List.map_cons, set_map f r k v]

/-- The members of a condition under an operator. -/
def parts (op : String) : Cond → List Cond
  | .and l => if op = "and" then l else [.and l]
  | .or l => if op = "or" then l else [.or l]
  | x => [x]

theorem allHold_append (vals : String → Option Val) : ∀ a b : List Cond, Cond.allHold vals (a ++ b) = (Cond.allHold vals a && Cond.allHold vals b)
  | [], b => by simp [Cond.allHold]
  | x :: a, b => by simp [Cond.allHold, allHold_append vals a b, Bool.and_assoc]

theorem someHolds_append (vals : String → Option Val) : ∀ a b : List Cond, Cond.someHolds vals (a ++ b) = (Cond.someHolds vals a || Cond.someHolds vals b)
  | [], b => by simp [Cond.someHolds]
  | x :: a, b => by simp [Cond.someHolds, someHolds_append vals a b, Bool.or_assoc]

theorem typedAll_append {cols : Dict String ColMeta} : ∀ {a b : List Cond}, TypedAll cols a → TypedAll cols b → TypedAll cols (a ++ b)
  | [], _, _, hb => hb
  | x :: a, b, ha, hb => by
    rw [TypedAll] at ha
    rw [List.cons_append, TypedAll]
    exact ⟨ha.1, typedAll_append ha.2 hb⟩

theorem jsons_append : ∀ a b : List Cond, Cond.jsons (a ++ b) = Cond.jsons a ++ Cond.jsons b
  | [], _ => rfl
  | x :: a, b => by simp [Cond.jsons, jsons_append a b]

theorem jsons_length : ∀ a : List Cond, (Cond.jsons a).length = a.length
  | [] => rfl
  | x :: a => by simp [Cond.jsons, jsons_length a]

theorem scrubs_append : ∀ a b : List Sql.V, Sql.scrubs (a ++ b) = Sql.scrubs a ++ Sql.scrubs b
  | [], _ => by simp [Sql.scrubs]
  | x :: a, b => by simp [Sql.scrubs, scrubs_append a b]

theorem parts_typed {cols : Dict String ColMeta} {x : Cond} (h : Typed cols x) (op : String) : TypedAll cols (parts op x) ∧ parts op x ≠ [] := by
  have h1 : TypedAll cols [x] := by rw [TypedAll]; exact ⟨h, by rw [TypedAll]; trivial⟩
  cases x with
  | and l =>
    simp only [parts]
    split
    · rw [Typed] at h; exact ⟨h.2, h.1⟩
    · exact ⟨h1, by simp⟩
  | or l =>
    simp only [parts]
    split
    · rw [Typed] at h; exact ⟨h.2, h.1⟩
    · exact ⟨h1, by simp⟩
  | _ => exact ⟨h1, by simp [parts]⟩

theorem parts_and (vals : String → Option Val) (x : Cond) : Cond.allHold vals (parts "and" x) = x.holds vals := by
  cases x <;> simp [parts, Cond.allHold, Cond.holds]

theorem parts_or (vals : String → Option Val) (x : Cond) : Cond.someHolds vals (parts "or" x) = x.holds vals := by
  cases x <;> simp [parts, Cond.someHolds, Cond.holds]

/-- The condition `x` is what the expression means, and what the proxy has of it. -/
structure Means (cols : Dict String ColMeta) (e : MEx) (v : Sql.V) (x : Cond) : Prop where
  json : Sql.scrub v = x.json
  and : Sql.scrubs (Sql.spreadV "and" v) = Cond.jsons (parts "and" x)
  or : Sql.scrubs (Sql.spreadV "or" v) = Cond.jsons (parts "or" x)
  typed : Typed cols x
  truth : ∀ row, Kinds cols (fun n => Dict.get? row n) → truth (plainRow row) e = some (x.holds fun n => Dict.get? row n)

theorem listJson_two : ∀ {l : List Json}, 2 ≤ l.length → Sql.listJson l = .list l
  | [], h => by simp at h
  | [_], h => by simp at h
  | _ :: _ :: _, _ => rfl

theorem callJson_two {op : String} {l : List Json} (h : 2 ≤ l.length) : Sql.callJson op l = .dict [(op, .list l)] := by
  cases l with
  | nil => simp at h
  | cons x l => rw [Sql.callJson, listJson_two h]; simp

theorem rep_notNull {e : MEx} {v : Sql.V} (h : Rep e v) : Sql.isNullV v = false := by
  have hb : ∀ o x y, Sql.isNullV (Sql.binV o x y) = false := fun o x y => by
    unfold Sql.binV
    repeat (first | rfl | split)
  cases h <;> first | rfl | exact hb _ _ _

/-- The values a comparison is made of. -/
theorem rep_name {e : MEx} {v : Sql.V} (h : Rep e v) : ∀ n, e = .name n → Sql.scrub v = .str n := by
  induction h with
  | name => intro n hn; injection hn with hn; subst hn; rfl
  | paren _ ih => exact fun n hn => by rw [Sql.scrub]; exact ih n hn
  | _ => intro n hn; exact absurd hn (by simp)

theorem rep_int {e : MEx} {v : Sql.V} (h : Rep e v) {z : Int} (he : e = .int z) : Sql.scrub v = .int z := rep_lit h (.int z) he

theorem rep_text {e : MEx} {v : Sql.V} (h : Rep e v) {s : String} (he : e = .text s) : Sql.scrub v = Json.lit s := rep_lit h (.text s) he

theorem cmp_val {o : MCmp} {a b : MEx} {x y : Sql.V} (ha : Rep a x) (hb : Rep b y) : Sql.binV (Parse.jop o.bop) x y = .call (Sql.jname (Parse.jop o.bop)) [x, y] := by
  cases o <;> simp [Sql.binV, rep_notNull ha, rep_notNull hb, MCmp.bop, Parse.jop, Parse.assocOp]

theorem spread_call (op op' : String) (l : List Sql.V) : Sql.spreadV op (.call op' l) = if op' = op then l else [.call op' l] := rfl

theorem means_call {cols : Dict String ColMeta} {e : MEx} {op : String} {x y : Sql.V} {c : Cond} (h : Sql.scrub (.call op [x, y]) = c.json) (ht : Typed cols c)
    (h1 : op ≠ "and") (h2 : op ≠ "or") (hp : ∀ o, parts o c = [c])
    (htr : ∀ row, Kinds cols (fun n => Dict.get? row n) → truth (plainRow row) e = some (c.holds fun n => Dict.get? row n)) : Means cols e (.call op [x, y]) c := by
  refine ⟨h, ?_, ?_, ht, htr⟩
  · rw [spread_call, if_neg h1, hp, Sql.scrubs, Sql.scrubs, Cond.jsons, Cond.jsons, h]
  · rw [spread_call, if_neg h2, hp, Sql.scrubs, Sql.scrubs, Cond.jsons, Cond.jsons, h]

theorem call_two (op : String) (x y : Sql.V) : Sql.scrub (.call op [x, y]) = .dict [(op, .list [Sql.scrub x, Sql.scrub y])] := by
  rw [Sql.scrub, Sql.scrubs, Sql.scrubs, Sql.scrubs]
  rfl

theorem value_name {row : PRow} {n : String} {v : Val} (h : Dict.get? row n = some v) : value (plainRow row) (.name n) = some v.db := by
  rw [value, plainRow, get?_map, h]
  rfl

/-- A comparison with an integer. -/
theorem truth_int {cols : Dict String ColMeta} {n : String} {z : Int} {o : MCmp} {row : PRow} (hk : Kinds cols fun n => Dict.get? row n) {cm : ColMeta}
    (hc : Dict.get? cols n = some cm) (ht : cm.type = "int") : ∃ y, Dict.get? row n = some (.int y) ∧ truth (plainRow row) (.cmp o (.name n) (.int z)) = o.eval (.int y) (.int z) := by
  obtain ⟨y, hy⟩ := hk.int n cm hc ht
  refine ⟨y, hy, ?_⟩
  rw [truth, value_name hy]
  rfl

theorem means_ord {cols : Dict String ColMeta} {o : MCmp} {op : Cmp} {nm : String} {n : String} {z : Int} {x y : Sql.V} (hn : nm = op.name)
    (hne : op.name ≠ "and" ∧ op.name ≠ "or") (he : ∀ a b, o.eval (.int a) (.int b) = some (op.eval a b)) (ha : Rep (.name n) x) (hb : Rep (.int z) y)
    (hf : Typed cols (.cmp op n z)) : ∃ c, Means cols (.cmp o (.name n) (.int z)) (.call nm [x, y]) c := by
  subst hn
  refine ⟨.cmp op n z, means_call ?_ hf hne.1 hne.2 (fun _ => rfl) ?_⟩
  · rw [call_two, rep_name ha n rfl, rep_int hb rfl]; rfl
  · intro row hk
    rw [Typed] at hf
    obtain ⟨cm, hc, ht, _⟩ := hf
    obtain ⟨y, hy, h2⟩ := truth_int (z := z) (o := o) hk hc ht
    rw [h2, Cond.holds, hy, he]

theorem means_cmp {cols : Dict String ColMeta} {o : MCmp} {a b : MEx} {x y : Sql.V} (ha : Rep a x) (hb : Rep b y) (hf : (MEx.cmp o a b).Fit cols) :
    ∃ c, Means cols (.cmp o a b) (Sql.binV (Parse.jop o.bop) x y) c := by
  rw [cmp_val ha hb]
  unfold MEx.Fit at hf
  split at hf
  all_goals first | (rename_i he; simp only [MEx.cmp.injEq] at he; obtain ⟨rfl, rfl, rfl⟩ := he) | skip
  · rename_i n z
    refine ⟨.eqInt n z, means_call ?_ hf (by decide) (by decide) (fun _ => rfl) ?_⟩
    · rw [call_two, rep_name ha n rfl, rep_int hb rfl]; rfl
    · intro row hk
      rw [Typed] at hf
      obtain ⟨cm, hc, ht, _⟩ := hf
      obtain ⟨y, hy, h2⟩ := truth_int (z := z) (o := .eq) hk hc ht
      rw [h2, Cond.holds, hy]
      rfl
  · rename_i n s
    refine ⟨.eqText n s, means_call ?_ hf (by decide) (by decide) (fun _ => rfl) ?_⟩
    · rw [call_two, rep_name ha n rfl, rep_text hb rfl]; rfl
    · intro row hk
      rw [Typed] at hf
      obtain ⟨cm, hc, ht, _⟩ := hf
      obtain ⟨y, hy, _⟩ := hk.text n cm hc ht
      rw [Whole.truth, value_name hy, Cond.holds, hy]
      rfl
  · rename_i n z
    exact means_ord (op := .gt) rfl (by decide) (fun _ _ => rfl) ha hb hf
  · rename_i n z
    exact means_ord (op := .lt) rfl (by decide) (fun _ _ => rfl) ha hb hf
  · rename_i n z
    exact means_ord (op := .gte) rfl (by decide) (fun _ _ => rfl) ha hb hf
  · rename_i n z
    exact means_ord (op := .lte) rfl (by decide) (fun _ _ => rfl) ha hb hf
  · rename_i he; exact absurd he (by simp)
  · rename_i he; exact absurd he (by simp)
  · exact hf.elim

theorem rep_means {cols : Dict String ColMeta} {e : MEx} {v : Sql.V} (h : Rep e v) : e.Fit cols → ∃ x, Means cols e v x := by
  induction h with
  | paren _ ih =>
    intro hf
    obtain ⟨x, h1, h2, h3, h4, h5⟩ := ih hf
    exact ⟨x, by rw [Sql.scrub]; exact h1, h2, h3, h4, h5⟩
  | cmp ha hb _ _ => exact fun hf => means_cmp ha hb hf
  | @and a b x y ha hb iha ihb =>
    intro hf
    obtain ⟨c, hc⟩ := iha hf.1
    obtain ⟨d, hd⟩ := ihb hf.2
    have hv : Sql.binV .and x y = .call "and" (Sql.spreadV "and" x ++ Sql.spreadV "and" y) := by simp [Sql.binV, Parse.assocOp, Sql.jname]
    have hj : Sql.scrubs (Sql.spreadV "and" x ++ Sql.spreadV "and" y) = Cond.jsons (parts "and" c ++ parts "and" d) := by
      rw [scrubs_append, jsons_append, hc.and, hd.and]
    have h1 := parts_typed hc.typed "and"
    have h2 := parts_typed hd.typed "and"
    have hs : Sql.scrub (Sql.binV .and x y) = (Cond.and (parts "and" c ++ parts "and" d)).json := by
      rw [hv, Sql.scrub, hj, callJson_two, Cond.json]
      rw [jsons_length, List.length_append]
      have := List.length_pos_of_ne_nil h1.2
      have := List.length_pos_of_ne_nil h2.2
      omega
    refine ⟨.and (parts "and" c ++ parts "and" d), hs, ?_, ?_, ?_, ?_⟩
    · rw [hv, spread_call, if_pos rfl, hj]; rfl
    · rw [hv] at hs
      rw [hv, spread_call, if_neg (by decide), Sql.scrubs, Sql.scrubs, hs]
      rfl
    · rw [Typed]; exact ⟨by simp [h1.2], typedAll_append h1.1 h2.1⟩
    · intro row hk
      rw [Whole.truth, hc.truth row hk, hd.truth row hk, Cond.holds, allHold_append, parts_and, parts_and]
      rfl
  | @or a b x y ha hb iha ihb =>
    intro hf
    obtain ⟨c, hc⟩ := iha hf.1
    obtain ⟨d, hd⟩ := ihb hf.2
    have hv : Sql.binV .or x y = .call "or" (Sql.spreadV "or" x ++ Sql.spreadV "or" y) := by simp [Sql.binV, Parse.assocOp, Sql.jname]
    have hj : Sql.scrubs (Sql.spreadV "or" x ++ Sql.spreadV "or" y) = Cond.jsons (parts "or" c ++ parts "or" d) := by
      rw [scrubs_append, jsons_append, hc.or, hd.or]
    have h1 := parts_typed hc.typed "or"
    have h2 := parts_typed hd.typed "or"
    have hs : Sql.scrub (Sql.binV .or x y) = (Cond.or (parts "or" c ++ parts "or" d)).json := by
      rw [hv, Sql.scrub, hj, callJson_two, Cond.json]
      rw [jsons_length, List.length_append]
      have := List.length_pos_of_ne_nil h1.2
      have := List.length_pos_of_ne_nil h2.2
      omega
    refine ⟨.or (parts "or" c ++ parts "or" d), hs, ?_, ?_, ?_, ?_⟩
    · rw [hv] at hs
      rw [hv, spread_call, if_neg (by decide), Sql.scrubs, Sql.scrubs, hs]
      rfl
    · rw [hv, spread_call, if_pos rfl, hj]; rfl
    · rw [Typed]; exact ⟨by simp [h1.2], typedAll_append h1.1 h2.1⟩
    · intro row hk
      rw [Whole.truth, hc.truth row hk, hd.truth row hk, Cond.holds, someHolds_append, parts_or, parts_or]
      rfl
  | _ => intro hf; exact hf.elim

/-! ### Statements that fit -/

/-- The condition fits the columns. -/
def FitW (cols : Dict String ColMeta) : Option MEx → Prop
  | none => True
  | some e => e.Fit cols

/-- As `Fine`, of a statement as the backend reads it. -/
def MStmt.Fit (db : Db) : MStmt → Prop
  | .insert t ns vs => ns.length = vs.length ∧ Fine db (.insert t (ns.zip (vs.map toVal)))
  | .select ns t w => ∃ tm, Dict.get? db t = some tm ∧ PlainTable t ∧ ns ≠ [] ∧ (∀ n ∈ ns, Readable tm.columns n) ∧ FitW tm.columns w
  | .update t ss w => ∃ tm, Dict.get? db t = some tm ∧ ss ≠ [] ∧ (ss.map Prod.fst).Nodup ∧
      (∀ e ∈ ss, ∃ cm, Dict.get? tm.columns e.1 = some cm ∧ Assignable cm (toVal e.2)) ∧ FitW tm.columns w
  | .delete t w => ∃ tm, Dict.get? db t = some tm ∧ FitW tm.columns w

/-- The tables as a backend without encryption holds them. -/
def plain (pst : PTables) : Tables := pst.map fun e => (e.1, e.2.map plainRow)

/-- What Python strips at the end of a text: the blanks of MySQL, but neither the characters with which a statement ends nor semicolons. -/
structure Strips (sp : Char → Bool) : Prop where
  blank : ∀ c, space c = true → sp c = true
  fin : ∀ c, finChar c = true → sp c = false
  semi : sp ';' = false

/-- A statement, perhaps with semicolons after it and blanks after them. -/
def Ended (sp : Char → Bool) (sql body : List Char) : Prop :=
  ∃ u v, sql = body ++ (u ++ v) ∧ (∀ c ∈ u, c = ';') ∧ (∀ c ∈ v, sp c = true) ∧ (u ≠ [] → Tight body)

theorem ended_self (sp : Char → Bool) (sql : List Char) : Ended sp sql sql := ⟨[], [], by simp, by simp, by simp, fun h => absurd rfl h⟩

theorem trimmed_of {sp : Char → Bool} (hs : Strips sp) {sql body s e : List Char} (h : Ended sp sql body) (hb : body = s ++ e) (he : Blank e) (hf : Fin' s) :
    Sql.Trimmed sp sql s := by
  obtain ⟨u, v, rfl, hu, hv, ht⟩ := h
  refine ⟨?_, hs.semi, ?_⟩
  · intro c hc
    obtain ⟨x, d, rfl, hd⟩ := hf
    rw [List.getLast?_concat] at hc
    simp only [Option.some.injEq] at hc
    subst hc
    refine ⟨hs.fin _ hd, ?_⟩
    rintro rfl
    exact absurd hd (by decide)
  · by_cases hn : u = []
    · subst hn
      refine ⟨[], e ++ v, by rw [hb]; simp, by simp, fun c hc => ?_⟩
      rcases List.mem_append.1 hc with hc | hc
      · exact hs.blank c (he c hc)
      · exact hv c hc
    · have := (ht hn).rest hb he
      subst this
      exact ⟨u, v, by rw [hb]; simp, hu, hv⟩

/-! ### The two databases -/

/-- The condition, on rows of the right kinds. -/
def Agree (cols : Dict String ColMeta) (w : Option MEx) (x : Option Cond) : Prop :=
  TypedW cols x ∧ ∀ row, Kinds cols (fun n => Dict.get? row n) → concerns w (plainRow row) = some (selected x row)

theorem agree_of {cols : Dict String ColMeta} {w : Option MEx} {v : Option Sql.V} (h : RepW w v) (hf : FitW cols w) : ∃ x, SaysW v x ∧ Agree cols w x := by
  cases w with
  | none =>
    cases v with
    | none => exact ⟨none, trivial, by simp [TypedW], fun _ _ => rfl⟩
    | some v => exact h.elim
  | some e =>
    cases v with
    | none => exact h.elim
    | some v =>
      obtain ⟨x, hx⟩ := rep_means (cols := cols) (show Rep e v from h) hf
      refine ⟨some x, hx.json, ?_, fun row hk => ?_⟩
      · intro y hy
        simp only [Option.mem_some_iff] at hy
        subst hy
        exact hx.typed
      · exact hx.truth row hk

theorem pick_plain {cols : Dict String ColMeta} {w : Option MEx} {x : Option Cond} (h : Agree cols w x) : ∀ {rows : List PRow},
    (∀ row ∈ rows, Kinds cols fun n => Dict.get? row n) → pick w (rows.map plainRow) = some ((rows.filter (selected x)).map plainRow)
  | [], _ => rfl
  | row :: rows, hk => by
    rw [List.map_cons, pick, h.2 row (hk row (by simp)), pick_plain h fun r hr => hk r (by simp [hr]), List.filter_cons]
    cases selected x row <;> rfl

theorem change_plain {cols : Dict String ColMeta} {w : Option MEx} {x : Option Cond} (h : Agree cols w x) {f : Row → Option Row} {g : PRow → Option PRow}
    (hfg : ∀ row, f (plainRow row) = (g row).map plainRow) : ∀ {rows : List PRow}, (∀ row ∈ rows, Kinds cols fun n => Dict.get? row n) →
    change w f (rows.map plainRow) = some ((rows.flatMap fun row => if selected x row then (g row).toList else [row]).map plainRow)
  | [], _ => rfl
  | row :: rows, hk => by
    rw [List.map_cons, change, h.2 row (hk row (by simp)), change_plain h hfg fun r hr => hk r (by simp [hr]), List.flatMap_cons, List.map_append]
    cases selected x row with
    | true =>
      simp only [if_true, hfg]
      cases g row <;> rfl
    | false => simp

theorem flatMap_map {α : Type} (p : α → Bool) (f : α → α) : ∀ l : List α, (l.flatMap fun a => if p a then (some (f a)).toList else [a]) = l.map fun a => if p a then f a else a
  | [] => rfl
  | a :: l => by
    rw [List.flatMap_cons, List.map_cons, flatMap_map p f l]
    cases p a <;> rfl

theorem flatMap_filter {α : Type} (p : α → Bool) : ∀ l : List α, (l.flatMap fun a => if p a then (none : Option α).toList else [a]) = l.filter fun a => !p a
  | [] => rfl
  | a :: l => by
    rw [List.flatMap_cons, List.filter_cons, flatMap_filter p l]
    cases p a <;> rfl

theorem setAll_plain : ∀ (sets : List (String × Val)) (row : PRow), setAll (sets.map fun e => (e.1, e.2.db)) (plainRow row) = plainRow (setAll sets row)
  | [], _ => rfl
  | (n, v) :: l, row => by
    have h1 : setAll (((n, v) :: l).map fun e => (e.1, e.2.db)) (plainRow row) = setAll (l.map fun e => (e.1, e.2.db)) (Dict.set (plainRow row) n v.db) := rfl
    have h2 : Dict.set (plainRow row) n v.db = plainRow (Dict.set row n v) := set_map Val.db row n v
    rw [h1, h2, setAll_plain l]
    rfl

theorem db_toVal {dq : Bool} {v : DbVal} (h : GoodVal dq v) : (toVal v).db = v := by
  cases v <;> first | rfl | exact h.elim

theorem get_plain {pst : PTables} {t : String} {rows : List PRow} (h : Dict.get? pst t = some rows) : Dict.get? (plain pst) t = some (rows.map plainRow) := by
  rw [plain, get?_map (fun rows : List PRow => rows.map plainRow), h]
  rfl

theorem set_plain (pst : PTables) (t : String) (rows : List PRow) : Dict.set (plain pst) t (rows.map plainRow) = plain (Dict.set pst t rows) :=
  set_map (fun rows : List PRow => rows.map plainRow) pst t rows

theorem rel_rows {P : Proxy} {pst : PTables} {bst : Tables} (hR : Rel P pst bst) {t : String} {tm : TableMeta ColMeta} (ht : Dict.get? P.db t = some tm) :
    ∃ rows, Dict.get? pst t = some rows ∧ ∀ row ∈ rows, ∃ brow, Keeps P.c tm.columns row brow := by
  obtain ⟨rows, brows, h1, h2, h3⟩ := hR t tm ht
  refine ⟨rows, h1, ?_⟩
  clear h1 h2
  induction h3 with
  | nil => simp
  | cons h _ ih =>
    intro row hr
    rcases List.mem_cons.1 hr with rfl | hr
    · exact ⟨_, h⟩
    · exact ih row hr

theorem mapM_names {cols : Dict String ColMeta} {row : PRow} (hv : ∀ n cm, Dict.get? cols n = some cm → ∃ v, Dict.get? row n = some v ∧ Suits cm v) :
    ∀ {ns : List String}, (∀ n ∈ ns, Readable cols n) → ∃ l : List DbVal, (ns.mapM fun n => Dict.get? (plainRow row) n) = some l ∧ l.map plainVal = ns.map (shown row)
  | [], _ => ⟨[], rfl, rfl⟩
  | n :: ns, h => by
    obtain ⟨l, h1, h2⟩ := mapM_names (ns := ns) hv fun m hm => h m (by simp [hm])
    obtain ⟨cm, _, hc, _⟩ := (h n (by simp)).col
    obtain ⟨v, hv', _⟩ := hv n cm hc
    refine ⟨v.db :: l, ?_, ?_⟩
    · rw [List.mapM_cons, plainRow, get?_map, hv']
      simp only [plainRow] at h1
      simp [h1]
    · rw [List.map_cons, List.map_cons, h2]
      congr 1
      simp only [shown, hv']
      cases v <;> rfl

theorem mapM_rows {cols : Dict String ColMeta} {ns : List String} (hns : ∀ n ∈ ns, Readable cols n) : ∀ {rows : List PRow},
    (∀ row ∈ rows, ∀ n cm, Dict.get? cols n = some cm → ∃ v, Dict.get? row n = some v ∧ Suits cm v) →
    ∃ out : List (List DbVal), ((rows.map plainRow).mapM fun row => ns.mapM fun n => Dict.get? row n) = some out ∧
      out.map (fun l => l.map plainVal) = rows.map fun row => ns.map (shown row)
  | [], _ => ⟨[], rfl, rfl⟩
  | row :: rows, h => by
    obtain ⟨out, h1, h2⟩ := mapM_rows (rows := rows) hns fun r hr => h r (by simp [hr])
    obtain ⟨l, h3, h4⟩ := mapM_names (h row (by simp)) hns
    refine ⟨l :: out, ?_, ?_⟩
    · rw [List.map_cons, List.mapM_cons, h3, h1]
      rfl
    · rw [List.map_cons, List.map_cons, h2, h4]

end EulerDB.Whole
