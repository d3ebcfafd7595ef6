/-
C91: queries over aliases and subqueries through the proxy.
-/
import Verif.Nested.Layer

namespace EulerDB.Nested

open EulerDB EulerDB.Clause EulerDB.Delta EulerDB.Whole EulerDB.Answer
open EulerDB.Join (Found)

/-! ### What is asked of the query -/

/-- The names of the backend's columns: none has a dot, and different columns are read from different columns. -/
structure Tidy (cols : Dict String ColMeta) : Prop where
  keys : (Dict.keys cols).Nodup
  read : ∀ n cm b, Dict.get? cols n = some cm → readName n cm = some b → '.' ∉ b.toList
  rank : ∀ n cm b, Dict.get? cols n = some cm → rankName n cm = some b → '.' ∉ b.toList
  apart : ∀ n n' cm cm' b, Dict.get? cols n = some cm → Dict.get? cols n' = some cm' → readName n cm = some b → readName n' cm' = some b → n = n'

/-- The columns of what the query reads. -/
def NQ.given (sch : String → List String) : NQ → List String
  | .plain q => sch q.table
  | .aliased _ t => sch t
  | .over _ n => n.names sch

/-- The items. -/
def NQ.items (sch : String → List String) (n : NQ) : List Answer.Item := meantItems n.top (n.given sch)

theorem names_items (sch : String → List String) (n : NQ) : n.names sch = (n.items sch).filterMap colOf := by cases n <;> rfl

/-- The columns as the query sees them. -/
def NQ.view (cols : Dict String ColMeta) (sch : String → List String) : NQ → Dict String ColMeta
  | .over _ n => sub cols (n.names sch)
  | _ => cols

/-- A query over something with an alias: no WHERE, no ORDER BY. -/
structure Named (q : Query) : Prop where
  ok : AliasOk q.table
  written : ∀ i ∈ q.items, Written q.table i
  cond : q.cond = none
  order : q.order = none

/-- A subquery: several columns (or `*`), with different names. -/
structure NQ.Sub (sch : String → List String) (n : NQ) : Prop where
  several : n.top.items.length ≠ 1
  cols : ∀ i ∈ n.items sch, ∃ m, i = .col m
  nodup : (n.names sch).Nodup

def NQ.Good (cols : Dict String ColMeta) (sch : String → List String) : NQ → Prop
  | .plain q => PlainTable q.table ∧ (∀ i ∈ q.items, bareItem q.table i = i) ∧ Layer cols (sch q.table) q
  | .aliased q t => Named q ∧ Layer cols (sch t) q
  | .over q n => Named q ∧ Layer (sub cols (n.names sch)) (n.names sch) q ∧ (q.items = [] → n.names sch = Dict.keys cols) ∧ n.Sub sch ∧ n.Good cols sch

theorem NQ.Good.layer {cols : Dict String ColMeta} {sch : String → List String} {n : NQ} (h : n.Good cols sch) : Layer (n.view cols sch) (n.given sch) n.top := by
  cases n with
  | plain q => exact h.2.2
  | aliased q t => exact h.2
  | over q m => exact h.2.1

theorem good_seen {cols : Dict String ColMeta} {sch : String → List String} : ∀ n : NQ, n.Good cols sch → n.top.items.length ≠ 1 → n.Seen
  | .plain _, _, h => h
  | .aliased _ _, _, h => h
  | .over _ m, hg, h => ⟨h, good_seen m hg.2.2.2.2 hg.2.2.2.1.several⟩

theorem good_items {cols : Dict String ColMeta} {sch : String → List String} {n : NQ} (h : n.Good cols sch) : ∀ i ∈ n.items sch, i.Fine cols ∧ i.sent (n.view cols sch) = i.sent cols := by
  intro i hi
  have := h.layer.fine.items i hi
  cases n with
  | plain q => exact ⟨this, rfl⟩
  | aliased q t => exact ⟨this, rfl⟩
  | over q m => exact fine_sub this

theorem good_single {cols : Dict String ColMeta} {sch : String → List String} {n : NQ} (h : n.Good cols sch) : single n.source = .str n.base := by
  apply source_single
  cases n with
  | plain q => trivial
  | aliased q t => trivial
  | over q m => exact good_seen m h.2.2.2.2 h.2.2.2.1.several

theorem sub_items {sch : String → List String} {n : NQ} (h : n.Sub sch) : n.items sch = (n.names sch).map .col := by
  rw [names_items]
  have : ∀ l : List Answer.Item, (∀ i ∈ l, ∃ m, i = Answer.Item.col m) → l = (l.filterMap colOf).map .col := by
    intro l
    induction l with
    | nil => intro _; rfl
    | cons i l ih =>
      intro h
      obtain ⟨m, rfl⟩ := h i (by simp)
      have := ih fun i hi => h i (by simp [hi])
      rw [List.filterMap_cons]
      simp only [colOf, List.map_cons]
      rw [← this]
  exact this _ h.cols

/-! ### The select list as sent -/

theorem sent_noDot {cols : Dict String ColMeta} (ht : Tidy cols) {i : Answer.Item} (h : i.Fine cols) : NoDot (i.sent cols) := by
  cases i with
  | col n =>
    obtain ⟨cm, b, hc, hb⟩ := h.col
    simp only [Answer.Item.sent, hc, Option.bind_some, hb, Option.getD_some]
    exact ht.read n cm b hc hb
  | count => show '.' ∉ "count".toList; decide
  | max n =>
    obtain ⟨cm, b, hc, hb, _⟩ := h.col
    simp only [Answer.Item.sent, hc, Option.bind_some, hb, Option.getD_some]
    exact ht.rank n cm b hc hb
  | min n =>
    obtain ⟨cm, b, hc, hb, _⟩ := h.col
    simp only [Answer.Item.sent, hc, Option.bind_some, hb, Option.getD_some]
    exact ht.rank n cm b hc hb

theorem bare_sentAs {cols : Dict String ColMeta} (ht : Tidy cols) {x : String} {i : Answer.Item} (h : (bareItem x i).Fine cols) :
    bareItem x (sentAs cols x i) = (bareItem x i).sent cols := by
  unfold sentAs
  split
  · exact bareItem_plain (sent_noDot ht h)
  · exact bareItem_qual _ _

/-- The select list of the statement sent. -/
def NQ.outItems (cols : Dict String ColMeta) (n : NQ) : List Answer.Item :=
  match n with
  | .plain q => if q.items = [] then starItems cols "" else q.items.map (Answer.Item.sent cols)
  | n => if n.top.items = [] then starItems cols (n.top.table ++ ".") else n.top.items.map (sentAs cols n.top.table)

def NQ.out (cols : Dict String ColMeta) (n : NQ) : Json :=
  if n.top.items = [] then .list ((n.outItems cols).map Answer.Item.value) else listOut (n.outItems cols)

/-- What is recorded. -/
def NQ.entries (cols : Dict String ColMeta) (n : NQ) : List Rec :=
  if n.top.items = [] then (Dict.keys cols).map fun k => (Answer.Item.col k).entry cols else
    match n with
    | .plain q => q.items.map (Answer.Item.entry cols)
    | n => n.top.items.map (entryAs cols n.top.table)

theorem out_items (cols : Dict String ColMeta) (n : NQ) : itemsOf (n.out cols) = some (n.outItems cols) := by
  unfold NQ.out
  split
  · exact mapM_values _
  · exact itemsOf_list _

section
variable {P : Proxy} {sch : String → List String} {tm : TableMeta ColMeta}

theorem star_items {n : NQ} (hs : sch n.base = Dict.keys tm.columns) (hg : n.Good tm.columns sch) (he : n.top.items = []) : n.items sch = (Dict.keys tm.columns).map .col := by
  unfold NQ.items meantItems
  rw [if_pos he]
  cases n with
  | plain q => exact congrArg _ hs
  | aliased q t => exact congrArg _ hs
  | over q m => exact congrArg _ (hg.2.2.1 he)

theorem select_rewritten {n : NQ} (hb : Dict.get? P.db n.base = some tm) (hs : sch n.base = Dict.keys tm.columns) (hg : n.Good tm.columns sch) (hd : Tidy tm.columns) (s : Sel) :
    selRw P.db n.source "symmetric" s (selIn n.top.items) = .ok (n.out tm.columns, s.pushes (n.entries tm.columns)) := by
  have hf := good_items hg
  by_cases he : n.top.items = []
  · have hi := star_items hs hg he
    have hr : ∀ k ∈ Dict.keys tm.columns, Readable tm.columns k := fun k hk => (hf (.col k) (by rw [hi]; exact List.mem_map.2 ⟨k, hk, rfl⟩)).1
    have hl : ∀ l, n.source ≠ .list l := by
      cases n <;> simp [NQ.source]
    have hsingle := good_single hg
    have star : ∀ p, starPrefix P.db false n.base n.source = .ok p → selRw P.db n.source "symmetric" s (.str "*") =
        .ok (.list ((starItems tm.columns p).map Answer.Item.value), s.pushes ((Dict.keys tm.columns).map fun k => (Answer.Item.col k).entry tm.columns)) := fun p hp =>
      star_rewritten hb hl hsingle hp hd.keys hr s
    rw [he]
    unfold NQ.out NQ.entries
    rw [if_pos he, if_pos he]
    cases n with
    | plain q =>
      have hq : q.items = [] := he
      simp only [NQ.outItems, hq, if_true]
      exact star "" rfl
    | aliased q t =>
      have hq : q.items = [] := he
      simp only [NQ.outItems, NQ.top, hq, if_true]
      exact star _ (prefix_named _ _ _ hg.1.ok)
    | over q m =>
      have hq : q.items = [] := he
      simp only [NQ.outItems, NQ.top, hq, if_true]
      exact star _ (prefix_named _ _ _ hg.1.ok)
  · have hin : selIn n.top.items = listIn n.top.items := by
      match hl : n.top.items, he with
      | [], he => exact absurd rfl he
      | [i], _ => rfl
      | i :: j :: l, _ => rfl
    rw [hin]
    unfold NQ.out NQ.entries
    rw [if_neg he, if_neg he]
    have hmem : ∀ i ∈ n.top.items, (bareItem n.top.table i).Fine tm.columns := fun i hi => (hf _ (by
      unfold NQ.items meantItems
      rw [if_neg he]
      exact List.mem_map.2 ⟨i, hi, rfl⟩)).1
    cases n with
    | plain q =>
      have hq : ¬ q.items = [] := he
      simp only [NQ.outItems, if_neg hq]
      refine Answer.list_rewritten hb s fun i hi => ?_
      have := hmem i hi
      rw [show bareItem (NQ.plain q).top.table i = i from hg.2.1 i hi] at this
      exact this
    | aliased q t =>
      have e : NQ.outItems tm.columns (.aliased q t) = q.items.map (sentAs tm.columns q.table) := if_neg he
      rw [e]
      have hd' : getNest (named (.str t) q.table) = .str (NQ.base (.aliased q t)) := good_single hg
      exact list_rewritten hb hd' hg.1.ok s fun i hi => ⟨hmem i hi, hg.1.written i hi⟩
    | over q m =>
      have e : NQ.outItems tm.columns (.over q m) = q.items.map (sentAs tm.columns q.table) := if_neg he
      rw [e]
      have hd' : getNest (named (.dict m.json) q.table) = .str (NQ.base (.over q m)) := good_single hg
      exact list_rewritten hb hd' hg.1.ok s fun i hi => ⟨hmem i hi, hg.1.written i hi⟩

theorem star_bare {cols : Dict String ColMeta} (x : String) : (starItems cols (x ++ ".")).map (bareItem x) = ((Dict.keys cols).map Answer.Item.col).map (Answer.Item.sent cols) := by
  unfold starItems
  rw [List.map_map, List.map_map]
  refine List.map_congr_left fun k _ => ?_
  simp only [Function.comp, bareItem, bareName_qual, Answer.Item.sent]

/-- The select list as MySQL reads it. -/
theorem items_read {n : NQ} (hs : sch n.base = Dict.keys tm.columns) (hg : n.Good tm.columns sch) (hd : Tidy tm.columns) {json : Dict String Json} {d : Bool}
    (hsel : selectOf json = some (d, n.out tm.columns))
    (hfrom : match n with | .plain _ => ∃ t, Dict.get? json "from" = some (.str t) | n => ∃ v, Dict.get? json "from" = some (.dict (named v n.top.table))) :
    itemsIn json = some ((n.items sch).map (Answer.Item.sent tm.columns)) := by
  have hf := good_items hg
  have key : ∀ (q : Query), n.top = q → (∃ v, Dict.get? json "from" = some (.dict (named v q.table))) →
      n.outItems tm.columns = (if q.items = [] then starItems tm.columns (q.table ++ ".") else q.items.map (sentAs tm.columns q.table)) →
      itemsIn json = some ((n.items sch).map (Answer.Item.sent tm.columns)) := by
    rintro q hq ⟨v, hv⟩ ho
    have hn : fromName json = some q.table := by
      unfold fromName
      rw [hv]
      simp [named, Dict.get?_cons]
    unfold itemsIn
    simp only [hsel, out_items, hn]
    rw [ho]
    congr 1
    by_cases he : q.items = []
    · rw [if_pos he, star_bare, star_items hs hg (by rw [hq]; exact he)]
    · rw [if_neg he]
      unfold NQ.items meantItems
      rw [hq, if_neg he, List.map_map, List.map_map]
      refine List.map_congr_left fun i hi => ?_
      refine bare_sentAs hd (hf _ ?_).1
      unfold NQ.items meantItems
      rw [hq, if_neg he]
      exact List.mem_map.2 ⟨i, hi, rfl⟩
  cases n with
  | plain q =>
    obtain ⟨t, hv⟩ := hfrom
    have hn : fromName json = none := by
      unfold fromName
      rw [hv]
    unfold itemsIn
    simp only [hsel, out_items, hn]
    congr 1
    by_cases he : q.items = []
    · rw [star_items hs hg he]
      simp only [NQ.outItems, if_pos he, starItems, List.map_map]
      refine List.map_congr_left fun k _ => ?_
      simp [Answer.Item.sent]
    · have e : (NQ.plain q).items sch = q.items.map (bareItem q.table) := if_neg he
      rw [e]
      simp only [NQ.outItems, if_neg he]
      rw [List.map_map]
      refine List.map_congr_left fun i hi => ?_
      simp only [Function.comp, hg.2.1 i hi]
  | aliased q t => exact key q rfl hfrom rfl
  | over q m => exact key q rfl hfrom rfl

/-! ### Decryption -/

/-- What is recorded for an item serves to decrypt it. -/
def Serves (P : Proxy) (t : String) (tm : TableMeta ColMeta) (source : Json) (i : Answer.Item) (r : Rec) : Prop :=
  r.2 = (i.entry tm.columns).2 ∧ (r.2.2 = "plaintext" ∨ decCol P.db source r.1 = decCol P.db (.str t) (i.entry tm.columns).1)

theorem entries_serve {n : NQ} (hs : sch n.base = Dict.keys tm.columns) (hg : n.Good tm.columns sch) :
    List.Forall₂ (Serves P n.base tm n.source) (n.items sch) (n.entries tm.columns) := by
  have hf := good_items hg
  have hsingle := good_single hg
  have hmap : ∀ {α : Type} {R : Answer.Item → Rec → Prop} {l : List α} {f : α → Answer.Item} {g : α → Rec}, (∀ a ∈ l, R (f a) (g a)) → List.Forall₂ R (l.map f) (l.map g) := by
    intro α R l f g h
    induction l with
    | nil => exact .nil
    | cons a l ih => exact .cons (h a (by simp)) (ih fun a ha => h a (by simp [ha]))
  have hdec : ∀ {n' : String}, '.' ∉ n'.toList → decCol P.db n.source n' = decCol P.db (.str n.base) n' := by
    intro n' hn'
    cases n with
    | plain q => rfl
    | aliased q t => exact (dec_named (v := .str t) (t := t) P.db hg.1.ok hn' hsingle).1
    | over q m => exact (dec_named (v := .dict m.json) (t := m.base) P.db hg.1.ok hn' hsingle).1
  unfold NQ.entries
  by_cases he : n.top.items = []
  · have hi := star_items hs hg he
    rw [if_pos he, hi]
    refine hmap fun k hk => ⟨rfl, .inr ?_⟩
    have : Readable tm.columns k := (hf (.col k) (by rw [hi]; exact List.mem_map.2 ⟨k, hk, rfl⟩)).1
    exact hdec this.dot
  · rw [if_neg he]
    have hmem : ∀ i ∈ n.top.items, (bareItem n.top.table i).Fine tm.columns := fun i hi => (hf _ (by
      unfold NQ.items meantItems
      rw [if_neg he]
      exact List.mem_map.2 ⟨i, hi, rfl⟩)).1
    have key : ∀ {v : Json}, n.source = .dict (named v n.top.table) → Named n.top → getNest (named v n.top.table) = .str n.base →
        List.Forall₂ (Serves P n.base tm n.source) (n.items sch) (n.top.items.map (entryAs tm.columns n.top.table)) := by
      intro v hv hn hnest
      unfold NQ.items meantItems
      rw [if_neg he]
      refine hmap fun i hi => ⟨rfl, ?_⟩
      have h1 := hmem i hi
      have h2 := hn.written i hi
      unfold Written at h2
      rw [hv]
      unfold entryAs
      generalize hj : bareItem n.top.table i = j at h1 h2
      have hrec : recorded j = (j.entry tm.columns).1 := by cases j <;> rfl
      have hdot : '.' ∉ (recorded j).toList := Fine.noDot h1
      rcases h2 with rfl | rfl
      · right
        rw [hrec] at hdot ⊢
        exact (dec_named P.db hn.ok hdot hnest).1
      · cases j with
        | count => exact .inl rfl
        | col m => exact .inr (dec_named P.db hn.ok hdot hnest).2
        | max m => exact .inr (dec_named P.db hn.ok hdot hnest).2
        | min m => exact .inr (dec_named P.db hn.ok hdot hnest).2
    cases n with
    | plain q =>
      unfold NQ.items meantItems
      rw [if_neg he]
      refine hmap fun i hi => ?_
      rw [show bareItem (NQ.plain q).top.table i = i from hg.2.1 i hi]
      exact ⟨rfl, .inr rfl⟩
    | aliased q t => exact key rfl hg.1 hsingle
    | over q m => exact key rfl hg.1 hsingle

theorem decrypt_congr {source : Json} {t col col' st : String} {x : DbVal} (h : decCol P.db source col = decCol P.db (.str t) col') :
    decryptVal P.c P.homDec P.ev P.db source x col st = decryptVal P.c P.homDec P.ev P.db (.str t) x col' st := by
  unfold decryptVal
  rw [h]

theorem row_decrypted {t : String} {source : Json} (ht : Dict.get? P.db t = some tm) {more : List Rec} : ∀ {is : List Answer.Item} {rs : List Rec} {os : List (Option Val)} {xs : List DbVal},
    (∀ i ∈ is, i.Fine tm.columns) → List.Forall₂ (Serves P t tm source) is rs → LineRel P.c tm.columns is os xs →
    decryptRow P.c P.homDec P.ev P.db source ((rs ++ more).map Prod.fst) ((rs ++ more).map fun r => r.2.2) xs = .ok (os.map outVal)
  | [], rs, os, xs, _, hr, h => by
    cases hr
    cases h
    rw [List.nil_append]
    cases more <;> rfl
  | i :: is, rs, os, xs, hi, hrs, h => by
    cases hrs with
    | @cons _ r _ rs hr hrs =>
      cases h with
      | @cons _ o x _ os xs h1 h2 =>
        have e1 := shown_decrypted ht (hi i (by simp)) h1
        have e2 := row_decrypted ht (more := more) (fun i h => hi i (by simp [h])) hrs h2
        have e3 : (if r.2.2 = "plaintext" then .ok (plainVal x) else decryptVal P.c P.homDec P.ev P.db source x r.1 r.2.2 : Except PyErr OutVal) = .ok (outVal o) := by
          rw [← e1, ← hr.1]
          rcases hr.2 with h | h
          · rw [if_pos h, if_pos h]
          · rw [decrypt_congr h]
        rw [List.cons_append, List.map_cons, List.map_cons, decryptRow, e3]
        simp only [e2, List.map_cons]

theorem answers_decrypted {t : String} {source : Json} (ht : Dict.get? P.db t = some tm) {is : List Answer.Item} {rs more : List Rec} (hi : ∀ i ∈ is, i.Fine tm.columns)
    (hr : List.Forall₂ (Serves P t tm source) is rs) : ∀ {a : List (List (Option Val))} {b : List (List DbVal)}, List.Forall₂ (LineRel P.c tm.columns is) a b →
    P.answer source (Sel.pushes {} (rs ++ more)) b = .ok (a.map fun r => r.map outVal)
  | _, _, .nil => rfl
  | _, _, .cons h1 h2 => by
    have e1 := row_decrypted ht (more := more) hi hr h1
    have e2 := answers_decrypted ht (more := more) hi hr h2
    rw [Proxy.answer, pushes_columns, pushes_state]
    simp only [List.nil_append]
    rw [e1]
    simp only [e2, List.map_cons]

/-! ### All layers -/

/-- The loop over the clauses ends with `json` and records `es`. -/
def Sends (P : Proxy) (n : NQ) (json : Dict String Json) (es : List Rec) : Prop :=
  ∀ fuel, n.depth ≤ fuel → ∀ F, (∀ v s, (∀ l, v ≠ .list l) → F n.source v s = fromInner P.c P.db (rewriteClause P.c P.db fuel) n.source v s) → ∀ columns s,
    clauseLoop P.c P.db F n.source columns clauseKeys n.json s = .ok (json, s.pushes es)

theorem find_source (n : NQ) : findTable n.json tableKeys = .ok n.source := by
  rw [json_source]
  exact find_layer _ _

theorem sent_query {n : NQ} {json : Dict String Json} {es : List Rec} (h : Sends P n json es) {fuel : Nat} (hf : n.depth ≤ fuel) :
    rewriteQuery P.c P.db fuel n.json = .ok (json, n.source, Sel.pushes {} es) := by
  rw [rewriteQuery, find_source]
  simp only
  rw [h fuel hf]
  intro v s hv
  unfold fromOuter
  split
  · rename_i l
    exact absurd rfl (hv l)
  · rfl

theorem sent_clause {n : NQ} {json : Dict String Json} {es : List Rec} (h : Sends P n json es) {fuel : Nat} (hf : n.depth ≤ fuel) (s : Sel) :
    rewriteClause P.c P.db (fuel + 1) s (.dict n.json) = .ok (.dict json, s.pushes es) := by
  rw [rewriteClause]
  simp only [find_source]
  rw [h fuel hf]
  intro v s hv
  rfl

theorem pushes_append (s : Sel) (l l' : List Rec) : (s.pushes l).pushes l' = s.pushes (l ++ l') := by
  simp [Sel.pushes]

theorem outNames_sub {n : NQ} (hs : n.Sub sch) (hg : n.Good tm.columns sch) (hd : Tidy tm.columns) {json : Dict String Json}
    (hi : itemsIn json = some ((n.items sch).map (Answer.Item.sent tm.columns))) :
    ((n.names sch).map (sn tm.columns)).Nodup ∧ outNames json = some ((n.names sch).map (sn tm.columns)) := by
  have hf := good_items hg
  have hmem : ∀ m ∈ n.names sch, Readable tm.columns m := fun m hm => (hf (.col m) (by rw [sub_items hs]; exact List.mem_map.2 ⟨m, hm, rfl⟩)).1
  have hn : ((n.names sch).map (sn tm.columns)).Nodup := by
    refine List.Nodup.map_on (fun a ha b hb e => ?_) hs.nodup
    obtain ⟨cm, x, hc, hx⟩ := (hmem a ha).col
    obtain ⟨cm', y, hc', hy⟩ := (hmem b hb).col
    simp only [sn, hc, hc', Option.bind_some, hx, hy, Option.getD_some] at e
    subst e
    exact hd.apart a b cm cm' x hc hc' hx hy
  refine ⟨hn, ?_⟩
  unfold outNames
  rw [hi, sub_items hs]
  have : ∀ l : List String, ((l.map Answer.Item.col).map (Answer.Item.sent tm.columns)).mapM colOf = some (l.map (sn tm.columns)) := by
    intro l
    induction l with
    | nil => rfl
    | cons a l ih =>
      rw [List.map_cons, List.map_cons, List.mapM_cons, ih]
      simp [Answer.Item.sent, colOf, sn]
  simp only [this, if_pos hn]

/-- The answers to the query and to the query sent. -/
structure Same (P : Proxy) (le : String → String → Bool) (sch : String → List String) (pst : PTables) (bst : Tables) (cols : Dict String ColMeta) (n : NQ) (json : Dict String Json) :
    Prop where
  back : ∀ b, NAnswers le bst json b → ∃ a, n.Answers le sch pst a ∧ List.Forall₂ (LineRel P.c cols (n.items sch)) a b
  forth : ∀ a, n.Answers le sch pst a → ∃ b, NAnswers le bst json b ∧ List.Forall₂ (LineRel P.c cols (n.items sch)) a b
  full : (∀ i ∈ n.items sch, ∃ m, i = .col m) → ∀ a, n.Answers le sch pst a → ∀ r ∈ a, ∀ o ∈ r, o.isSome = true

theorem set_value (v w : Json) (x : String) : Dict.set (named v x) "value" w = named w x := by
  simp [named, Dict.set]

theorem correct {pst : PTables} {bst : Tables} (hr : Rel P pst bst) (le : String → String → Bool) (hd : Tidy tm.columns) : ∀ n : NQ, Dict.get? P.db n.base = some tm →
    sch n.base = Dict.keys tm.columns → n.Good tm.columns sch → ∃ json es, Sends P n json (n.entries tm.columns ++ es) ∧
      itemsIn json = some ((n.items sch).map (Answer.Item.sent tm.columns)) ∧ Same P le sch pst bst tm.columns n json
  | .plain q, hb, hs, hg => by
    obtain ⟨rows, brows, h1, h2, h3⟩ := hr q.table tm hb
    have htab : tableOf P.db q.table = .ok tm := getItem_ok.2 hb
    have hp : pyIn "value" (.str q.table) = false := hg.1
    have hl := hg.2.2
    obtain ⟨json, hj, hloop⟩ := layer_rewritten (c := P.c) (db := P.db) (q := q) (f := .str q.table) (table := .str q.table) (out := NQ.out tm.columns (.plain q))
      (fv := .str tm.anonymous) (es := NQ.entries tm.columns (.plain q)) (es' := []) (wj := Cond.sealed P.c tm.columns) (oj := orderSent tm.columns)
      (fun s => select_rewritten hb hs hg hd s) (fun x hx => where_sealed hb "" x (typed_fits (someVals_kinds _) x (hl.fine.cond x hx))) (fun k hk => by
        obtain ⟨cm, b, hc, hb', _⟩ := hl.fine.order k hk
        have hb0 : Dict.get? P.db q.table = some tm := hb
        rw [order_rewrite hb0 k hc, orderSent, hc]
        by_cases h : cm.plaintext = true
        · simp [h]
        · have hb2 := hb'
          rw [rankName, if_neg h] at hb2
          simp only [h, getItem_ok.2 hb2, hb']
          simp)
    have hit := items_read hs hg hd hj.sel ⟨_, hj.source⟩
    obtain ⟨_, g2, g3⟩ := layer_answers h3 hl hj hit rfl rfl le
    have hrows : (Dict.get? pst q.table).getD [] = rows := by rw [h1]; rfl
    refine ⟨json, [], ?_, hit, ?_, ?_, ?_⟩
    · intro fuel _ F hF columns s
      have := hloop F (fun s => by
        have := hF (.str q.table) s (by simp)
        simp only [NQ.source] at this
        rw [this]
        simp [fromInner, hp, fromRw, htab, Except.map, Sel.pushes]) columns s
      rw [pushes_append] at this
      exact this
    · intro b hb'
      cases hb' with
      | table e1 e2 e3 =>
        rw [hj.source] at e1
        injection e1 with e1
        injection e1 with e1
        subst e1
        rw [h2] at e2
        injection e2 with e2
        subst e2
        obtain ⟨a, k1, k2⟩ := g2 b e3
        exact ⟨a, by rw [NQ.Answers, hrows]; exact k1, k2⟩
      | aliased e1 => rw [hj.source] at e1; injection e1 with e1; cases e1
      | derived e1 => rw [hj.source] at e1; injection e1 with e1; cases e1
    · intro a ha
      rw [NQ.Answers, hrows] at ha
      obtain ⟨b, k1, k2⟩ := g3 a ha
      exact ⟨b, .table hj.source h2 k1, k2⟩
    · intro hc a ha
      rw [NQ.Answers, hrows] at ha
      refine layer_full hl (fun row hrow n cm hcm => ?_) hc ha
      obtain ⟨brow, _, hk⟩ := f2_right (f2_flip h3) row hrow
      obtain ⟨v, hv, _⟩ := hk.vals n cm hcm
      rw [hv]
      rfl
  | .aliased q t, hb, hs, hg => by
    obtain ⟨rows, brows, h1, h2, h3⟩ := hr t tm hb
    have htab : tableOf P.db t = .ok tm := getItem_ok.2 hb
    have hl := hg.2
    obtain ⟨json, hj, hloop⟩ := layer_rewritten (c := P.c) (db := P.db) (q := q) (f := .dict (named (.str t) q.table)) (table := .dict (named (.str t) q.table))
      (out := NQ.out tm.columns (.aliased q t)) (fv := .dict (named (.str tm.anonymous) q.table)) (es := NQ.entries tm.columns (.aliased q t)) (es' := [])
      (wj := Cond.sealed P.c tm.columns) (oj := orderSent tm.columns) (fun s => select_rewritten hb hs hg hd s) (fun x hx => by rw [hg.1.cond] at hx; cases hx)
      (fun k hk => by rw [hg.1.order] at hk; cases hk)
    have hit := items_read hs hg hd hj.sel ⟨_, hj.source⟩
    obtain ⟨_, g2, g3⟩ := layer_answers h3 hl hj hit rfl rfl le
    have hrows : (Dict.get? pst t).getD [] = rows := by rw [h1]; rfl
    have hv : Dict.get? (named (.str tm.anonymous) q.table) "value" = some (.str tm.anonymous) := by simp [named, Dict.get?_cons]
    refine ⟨json, [], ?_, hit, ?_, ?_, ?_⟩
    · intro fuel hfuel F hF columns s
      obtain ⟨fuel, rfl⟩ : ∃ k, fuel = k + 1 := ⟨fuel - 1, by have : 1 ≤ fuel := hfuel; omega⟩
      have := hloop F (fun s => by
        have := hF (.dict (named (.str t) q.table)) s (by simp)
        simp only [NQ.source] at this
        rw [this]
        have hp : pyIn "value" (.dict (named (.str t) q.table)) = true := by simp [pyIn, named, Dict.get?_cons]
        have hg' : Dict.get? (named (.str t) q.table) "value" = some (.str t) := by simp [named, Dict.get?_cons]
        rw [fromInner, if_pos hp]
        simp only [fromValue, hg', rewriteClause, htab, Except.map, set_value]
        simp [Sel.pushes]) columns s
      rw [pushes_append] at this
      exact this
    · intro b hb'
      cases hb' with
      | table e1 => rw [hj.source] at e1; injection e1 with e1; cases e1
      | aliased e1 e2 e3 e4 =>
        rw [hj.source] at e1
        injection e1 with e1
        injection e1 with e1
        subst e1
        rw [hv] at e2
        injection e2 with e2
        injection e2 with e2
        subst e2
        rw [h2] at e3
        injection e3 with e3
        subst e3
        obtain ⟨a, k1, k2⟩ := g2 b e4
        exact ⟨a, by rw [NQ.Answers, hrows]; exact k1, k2⟩
      | derived e1 e2 =>
        rw [hj.source] at e1
        injection e1 with e1
        injection e1 with e1
        subst e1
        rw [hv] at e2
        injection e2 with e2
        cases e2
    · intro a ha
      rw [NQ.Answers, hrows] at ha
      obtain ⟨b, k1, k2⟩ := g3 a ha
      exact ⟨b, .aliased hj.source hv h2 k1, k2⟩
    · intro hc a ha
      rw [NQ.Answers, hrows] at ha
      refine layer_full hl (fun row hrow n cm hcm => ?_) hc ha
      obtain ⟨brow, _, hk⟩ := f2_right (f2_flip h3) row hrow
      obtain ⟨v, hv, _⟩ := hk.vals n cm hcm
      rw [hv]
      rfl
  | .over q m, hb, hs, hg => by
    obtain ⟨hn, hl, hstar, hsub, hm⟩ := hg
    have hg : (NQ.over q m).Good tm.columns sch := ⟨hn, hl, hstar, hsub, hm⟩
    obtain ⟨j, es, i1, i2, i3⟩ := correct hr le hd m hb hs hm
    obtain ⟨hnod, hout⟩ := outNames_sub hsub hm hd i2
    have hitems := good_items hm
    have hread : ∀ k ∈ m.names sch, ∃ cm b, Dict.get? tm.columns k = some cm ∧ readName k cm = some b := fun k hk =>
      (hitems (.col k) (by rw [sub_items hsub]; exact List.mem_map.2 ⟨k, hk, rfl⟩)).1.col
    obtain ⟨json, hj, hloop⟩ := layer_rewritten (c := P.c) (db := P.db) (q := q) (f := .dict (named (.dict m.json) q.table)) (table := .dict (named (.dict m.json) q.table))
      (out := NQ.out tm.columns (.over q m)) (fv := .dict (named (.dict j) q.table)) (es := NQ.entries tm.columns (.over q m)) (es' := m.entries tm.columns ++ es)
      (wj := Cond.sealed P.c (sub tm.columns (m.names sch))) (oj := orderSent (sub tm.columns (m.names sch))) (fun s => select_rewritten hb hs hg hd s)
      (fun x hx => by rw [hn.cond] at hx; cases hx) (fun k hk => by rw [hn.order] at hk; cases hk)
    have hit := items_read hs hg hd hj.sel ⟨_, hj.source⟩
    have hit' : itemsIn json = some ((meantItems q (m.names sch)).map (Answer.Item.sent (sub tm.columns (m.names sch)))) := by
      rw [hit]
      congr 1
      exact List.map_congr_left fun i hi => (good_items hg i hi).2.symm
    have hv : Dict.get? (named (.dict j) q.table) "value" = some (.dict j) := by simp [named, Dict.get?_cons]
    have hx : Dict.get? (named (.dict j) q.table) "name" = some (.str q.table) := by simp [named, Dict.get?_cons]
    have keeps : ∀ {a : List (List (Option Val))} {b : List (List DbVal)}, m.Answers le sch pst a → List.Forall₂ (LineRel P.c tm.columns (m.items sch)) a b →
        List.Forall₂ (Keeps P.c (sub tm.columns (m.names sch))) (a.map (rowOf (m.names sch))) (b.map ((m.names sch).map (sn tm.columns)).zip) := by
      intro a b ha hab
      have hfull := i3.full hsub.cols a ha
      rw [sub_items hsub] at hab
      clear ha
      induction hab with
      | nil => exact .nil
      | cons h1 _ ih =>
        exact .cons (row_keeps h1 hsub.nodup hnod (hfull _ (by simp)) hread) (ih fun r hr => hfull r (by simp [hr]))
    refine ⟨json, m.entries tm.columns ++ es, ?_, hit, ?_, ?_, ?_⟩
    · intro fuel hfuel F hF columns s
      obtain ⟨fuel, rfl⟩ : ∃ k, fuel = k + 1 := ⟨fuel - 1, by have : m.depth + 1 ≤ fuel := hfuel; omega⟩
      have hfuel : m.depth ≤ fuel := Nat.le_of_succ_le_succ hfuel
      have := hloop F (fun s => by
        have := hF (.dict (named (.dict m.json) q.table)) s (by simp)
        simp only [NQ.source] at this
        rw [this]
        have hp : pyIn "value" (.dict (named (.dict m.json) q.table)) = true := by simp [pyIn, named, Dict.get?_cons]
        have hg' : Dict.get? (named (.dict m.json) q.table) "value" = some (.dict m.json) := by simp [named, Dict.get?_cons]
        rw [fromInner, if_pos hp]
        simp only [fromValue, hg', sent_clause i1 hfuel, set_value]) columns s
      rw [pushes_append] at this
      exact this
    · intro b hb'
      cases hb' with
      | table e1 => rw [hj.source] at e1; injection e1 with e1; cases e1
      | aliased e1 e2 =>
        rw [hj.source] at e1
        injection e1 with e1
        injection e1 with e1
        subst e1
        rw [hv] at e2
        injection e2 with e2
        cases e2
      | @derived _ j' d x ns b0 _ e1 e2 e3 e4 e5 e6 =>
        rw [hj.source] at e1
        injection e1 with e1
        injection e1 with e1
        subst e1
        rw [hv] at e2
        injection e2 with e2
        injection e2 with e2
        subst e2
        rw [hout] at e5
        injection e5 with e5
        subst e5
        obtain ⟨a0, k1, k2⟩ := i3.back b0 e4
        obtain ⟨_, g2, _⟩ := layer_answers (keeps k1 k2) hl hj hit' rfl rfl le
        obtain ⟨a, k3, k4⟩ := g2 b e6
        exact ⟨a, ⟨a0, k1, k3⟩, k4.imp fun _ _ h => line_sub h⟩
    · rintro a ⟨a0, ha0, ha⟩
      obtain ⟨b0, k1, k2⟩ := i3.forth a0 ha0
      obtain ⟨_, _, g3⟩ := layer_answers (keeps ha0 k2) hl hj hit' rfl rfl le
      obtain ⟨b, k3, k4⟩ := g3 a ha
      exact ⟨b, .derived hj.source hv hx k1 hout k3, k4.imp fun _ _ h => line_sub h⟩
    · rintro hc a ⟨a0, ha0, ha⟩
      obtain ⟨b0, k1, k2⟩ := i3.forth a0 ha0
      have hk := keeps ha0 k2
      refine layer_full hl (fun row hrow n cm hcm => ?_) hc ha
      obtain ⟨brow, _, hk⟩ := f2_right (f2_flip hk) row hrow
      obtain ⟨v, hv, _⟩ := hk.vals n cm hcm
      rw [hv]
      rfl

end

/-- The answers a client without encryption may get. -/
def NQ.Client (le : String → String → Bool) (sch : String → List String) (st : PTables) (n : NQ) (ans : List (List OutVal)) : Prop :=
  ∃ a, n.Answers le sch st a ∧ ans = a.map fun r => r.map outVal

/-- **C91, partial.** A query over a table, over a table with an alias or over a subquery (of any depth): if every layer over an alias or a subquery is without WHERE and ORDER BY and
every subquery has several columns (or `*`), all of them columns, then the query is rewritten, and MySQL's answers to the rewritten query, decrypted, are exactly the answers that
the query has without encryption. -/
theorem C91_query_partial {P : Proxy} {pst : PTables} {bst : Tables} (hr : Rel P pst bst) {n : NQ} {tm : TableMeta ColMeta} (ht : Dict.get? P.db n.base = some tm)
    (hd : Tidy tm.columns) {sch : String → List String} (hs : sch n.base = Dict.keys tm.columns) (hg : n.Good tm.columns sch) (hf : n.depth ≤ P.fuel)
    (le : String → String → Bool) : ∃ json table s, rewriteQuery P.c P.db P.fuel n.json = .ok (json, table, s) ∧
      (∀ bans, NAnswers le bst json bans → ∃ ans, P.answer table s bans = .ok ans ∧ n.Client le sch pst ans) ∧
      ∀ ans, n.Client le sch pst ans → ∃ bans, NAnswers le bst json bans ∧ P.answer table s bans = .ok ans := by
  obtain ⟨json, es, h1, _, h3⟩ := correct hr le hd n ht hs hg
  have hserve := entries_serve (P := P) hs hg
  have hfine : ∀ i ∈ n.items sch, i.Fine tm.columns := fun i hi => (good_items hg i hi).1
  refine ⟨json, n.source, _, sent_query h1 hf, ?_, ?_⟩
  · intro b hb
    obtain ⟨a, k1, k2⟩ := h3.back b hb
    exact ⟨_, answers_decrypted ht hfine hserve k2, a, k1, rfl⟩
  · rintro ans ⟨a, ha, rfl⟩
    obtain ⟨b, k1, k2⟩ := h3.forth a ha
    exact ⟨b, k1, answers_decrypted ht hfine hserve k2⟩

/-- There is an answer if the texts are ordered. -/
theorem C91_answered {le : String → String → Bool} (htot : ∀ a b, le a b = true ∨ le b a = true) (htrans : ∀ a b c, le a b = true → le b c = true → le a c = true)
    (sch : String → List String) (st : PTables) (n : NQ) : ∃ ans, n.Client le sch st ans := by
  have one : ∀ (q : Query) (names : List String) (rows : List PRow), ∃ a, overRows le q names rows a := by
    intro q names rows
    obtain ⟨_, a, h, _⟩ := C81_answered htot htrans (meant q names) [(q.table, rows)]
    exact ⟨a, h⟩
  have : ∀ n : NQ, ∃ a, n.Answers le sch st a := by
    intro n
    induction n with
    | plain q => exact one _ _ _
    | aliased q t => exact one _ _ _
    | over q m ih =>
      obtain ⟨b, hb⟩ := ih
      obtain ⟨a, ha⟩ := one q (m.names sch) (b.map (rowOf (m.names sch)))
      exact ⟨a, b, hb, ha⟩
  obtain ⟨a, ha⟩ := this n
  exact ⟨_, a, ha, rfl⟩

end EulerDB.Nested
