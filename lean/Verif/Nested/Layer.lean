/-
C91: one layer of a query, over rows that hold the client's rows.
-/
import Verif.Nested.Rewrite

namespace EulerDB.Nested

open EulerDB EulerDB.Clause EulerDB.Delta EulerDB.Whole EulerDB.Answer
open EulerDB.Join (Found)

/-! ### The columns of a subquery -/

/-- Only the AES column. -/
def strip (cm : ColMeta) : ColMeta := { cm with encCols := match Dict.get? cm.encCols "symmetric" with | some b => [("symmetric", b)] | none => [] }

/-- The columns that a subquery with the columns `names` gives. -/
def sub (cols : Dict String ColMeta) (names : List String) : Dict String ColMeta := names.filterMap fun n => (Dict.get? cols n).map fun cm => (n, strip cm)

theorem get_sub (cols : Dict String ColMeta) (n : String) : ∀ names : List String, Dict.get? (sub cols names) n = if n ∈ names then (Dict.get? cols n).map strip else none
  | [] => by simp [sub]
  | m :: names => by
    have ih := get_sub cols n names
    unfold sub at ih ⊢
    rw [List.filterMap_cons]
    cases hm : Dict.get? cols m with
    | none =>
      simp only [Option.map_none]
      rw [ih]
      by_cases e : n = m
      · subst e
        simp [hm]
      · simp [e]
    | some cm =>
      simp only [Option.map_some, Dict.get?_cons]
      rw [ih]
      by_cases e : n = m
      · subst e
        simp [hm]
      · simp [e, Ne.symm e]

theorem get_sub_some {cols : Dict String ColMeta} {names : List String} {n : String} {cm : ColMeta} (h : Dict.get? (sub cols names) n = some cm) :
    n ∈ names ∧ ∃ cm', Dict.get? cols n = some cm' ∧ cm = strip cm' := by
  rw [get_sub] at h
  split at h
  · rename_i hn
    refine ⟨hn, ?_⟩
    cases hc : Dict.get? cols n with
    | none => simp [hc] at h
    | some cm' => exact ⟨cm', rfl, by simpa [hc] using h.symm⟩
  · cases h

theorem strip_sym (cm : ColMeta) : Dict.get? (strip cm).encCols "symmetric" = Dict.get? cm.encCols "symmetric" := by
  unfold strip
  cases h : Dict.get? cm.encCols "symmetric" <;> simp [Dict.get?_cons]

theorem strip_other (cm : ColMeta) {k : String} (h : k ≠ "symmetric") : Dict.get? (strip cm).encCols k = none := by
  unfold strip
  cases Dict.get? cm.encCols "symmetric" <;> simp [Dict.get?_cons, Ne.symm h]

theorem strip_read (n : String) (cm : ColMeta) : readName n (strip cm) = readName n cm := by
  unfold readName
  rw [strip_sym]
  rfl

theorem strip_rank {n b : String} {cm : ColMeta} (h : rankName n (strip cm) = some b) : rankName n cm = some b ∧ cm.plaintext = true := by
  unfold rankName at h ⊢
  have e : (strip cm).plaintext = cm.plaintext := rfl
  rw [e] at h
  by_cases hp : cm.plaintext = true
  · rw [if_pos hp] at h ⊢
    exact ⟨h, hp⟩
  · rw [if_neg hp, strip_other cm (by decide)] at h
    cases h

section
variable {cols : Dict String ColMeta} {names : List String}

theorem fine_sub {i : Answer.Item} (h : i.Fine (sub cols names)) : i.Fine cols ∧ i.sent (sub cols names) = i.sent cols := by
  have rank : ∀ {n : String}, Ranked (sub cols names) n → Ranked cols n ∧ (Dict.get? (sub cols names) n).bind (rankName n) = (Dict.get? cols n).bind (rankName n) := by
    rintro n ⟨h1, h2, cm, b, h3, h4, h5⟩
    obtain ⟨hn, cm', hc, rfl⟩ := get_sub_some h3
    obtain ⟨h6, h7⟩ := strip_rank h4
    exact ⟨⟨h1, h2, cm', b, hc, h6, fun e => by simp [h7] at e⟩, by rw [h3, hc, Option.bind_some, Option.bind_some, h4, h6]⟩
  cases i with
  | col n =>
    obtain ⟨h1, h2, cm, b, h3, h4⟩ := h
    obtain ⟨hn, cm', hc, rfl⟩ := get_sub_some h3
    rw [strip_read] at h4
    refine ⟨⟨h1, h2, cm', b, hc, h4⟩, ?_⟩
    simp only [Answer.Item.sent, h3, hc, Option.bind_some, strip_read]
  | count => exact ⟨trivial, rfl⟩
  | max n =>
    obtain ⟨h1, h2⟩ := rank h
    exact ⟨h1, by simp only [Answer.Item.sent, h2]⟩
  | min n =>
    obtain ⟨h1, h2⟩ := rank h
    exact ⟨h1, by simp only [Answer.Item.sent, h2]⟩

theorem shows_sub {c : Crypto} {i : Answer.Item} {o : Option Val} {x : DbVal} (h : Shows c (sub cols names) i o x) : Shows c cols i o x := by
  cases i with
  | col n =>
    obtain ⟨cm, h1, h2⟩ := h
    obtain ⟨_, cm', hc, rfl⟩ := get_sub_some h1
    exact ⟨cm', hc, by cases o <;> exact h2⟩
  | count => exact h
  | max n =>
    obtain ⟨cm, h1, h2⟩ := h
    obtain ⟨_, cm', hc, rfl⟩ := get_sub_some h1
    exact ⟨cm', hc, by cases o <;> exact h2⟩
  | min n =>
    obtain ⟨cm, h1, h2⟩ := h
    obtain ⟨_, cm', hc, rfl⟩ := get_sub_some h1
    exact ⟨cm', hc, by cases o <;> exact h2⟩

theorem line_sub {c : Crypto} {is : List Answer.Item} {os : List (Option Val)} {xs : List DbVal} (h : LineRel c (sub cols names) is os xs) : LineRel c cols is os xs := by
  induction h with
  | nil => exact .nil
  | cons h1 _ ih => exact .cons (shows_sub h1) ih

/-- The backend's name of a column. -/
def sn (cols : Dict String ColMeta) (n : String) : String := ((Dict.get? cols n).bind (readName n)).getD ""

theorem sent_col (n : String) : (Answer.Item.col n).sent cols = .col (sn cols n) := rfl

/-- A value and what is stored for it, in the rows of an answer. -/
theorem lookup_rel {c : Crypto} : ∀ {names : List String} {os : List (Option Val)} {xs : List DbVal}, LineRel c cols (names.map .col) os xs → names.Nodup →
    (names.map (sn cols)).Nodup → (∀ o ∈ os, o.isSome = true) → ∀ n ∈ names,
    ∃ v x cm, Dict.get? (rowOf names os) n = some v ∧ Dict.get? ((names.map (sn cols)).zip xs) (sn cols n) = some x ∧ Dict.get? cols n = some cm ∧ Found c cm (some v) x
  | [], _, _, _, _, _, _, n, hn => by simp at hn
  | m :: names, os, xs, h, h1, h2, h3, n, hn => by
    obtain ⟨a1, a2⟩ := List.nodup_cons.1 h1
    rw [List.map_cons, List.nodup_cons] at h2
    rw [List.map_cons] at h
    cases h with
    | @cons _ o x _ os xs hs hl =>
      obtain ⟨v, rfl⟩ := Option.isSome_iff_exists.1 (h3 o (by simp))
      obtain ⟨cm, hc, hf⟩ := hs
      simp only [rowOf, List.map_cons, List.zip_cons_cons, Dict.get?_cons]
      by_cases e : m = n
      · subst e
        exact ⟨v, x, cm, by simp, by simp, hc, hf⟩
      · have hn' : n ∈ names := by
          rcases List.mem_cons.1 hn with rfl | hn
          · exact absurd rfl e
          · exact hn
        obtain ⟨v', x', cm', g1, g2, g3, g4⟩ := lookup_rel hl a2 h2.2 (fun o ho => h3 o (by simp [ho])) n hn'
        refine ⟨v', x', cm', by rw [if_neg e]; exact g1, ?_, g3, g4⟩
        have : sn cols m ≠ sn cols n := fun e' => h2.1 (by rw [e']; exact List.mem_map.2 ⟨n, hn', rfl⟩)
        rw [if_neg this]
        exact g2

/-- The rows of an answer hold the rows of the client's answer. -/
theorem row_keeps {c : Crypto} {os : List (Option Val)} {xs : List DbVal} (h : LineRel c cols (names.map .col) os xs) (h1 : names.Nodup) (h2 : (names.map (sn cols)).Nodup)
    (h3 : ∀ o ∈ os, o.isSome = true) (hr : ∀ n ∈ names, ∃ cm b, Dict.get? cols n = some cm ∧ readName n cm = some b) :
    Keeps c (sub cols names) (rowOf names os) ((names.map (sn cols)).zip xs) := by
  have look := lookup_rel h h1 h2 h3
  have hsn : ∀ {n : String} {cm : ColMeta} {b : String}, Dict.get? cols n = some cm → readName n cm = some b → sn cols n = b := by
    intro n cm b hc hb
    simp [sn, hc, hb]
  have ht : ∀ n ∈ names, targets (sub cols names) n = [sn cols n] := by
    intro n hn
    obtain ⟨cm, b, hc, hb⟩ := hr n hn
    rw [hsn hc hb]
    unfold targets
    rw [get_sub, if_pos hn, hc]
    simp only [Option.map_some]
    have e : (strip cm).plaintext = cm.plaintext := rfl
    unfold readName at hb
    rw [e]
    by_cases hp : cm.plaintext = true
    · rw [if_pos hp] at hb ⊢
      injection hb with hb
      rw [hb]
    · rw [if_neg hp] at hb ⊢
      simp [strip, hb]
  have hkeys : ∀ n ∈ Dict.keys (sub cols names), n ∈ names := by
    intro n hn
    obtain ⟨⟨m, cm⟩, he, rfl⟩ := List.mem_map.1 hn
    unfold sub at he
    obtain ⟨k, hk, e⟩ := List.mem_filterMap.1 he
    cases hc : Dict.get? cols k with
    | none => simp [hc] at e
    | some cm' =>
      simp only [hc, Option.map_some, Option.some.injEq, Prod.mk.injEq] at e
      rw [← e.1]
      exact hk
  refine ⟨?_, ⟨?_, ?_, ?_, ?_⟩, ?_, ?_⟩
  · intro n cm hc
    obtain ⟨hn, cm', hc', rfl⟩ := get_sub_some hc
    obtain ⟨v, x, cm, g1, _, g3, g4⟩ := look n hn
    rw [hc'] at g3
    injection g3 with g3
    subst g3
    refine ⟨v, g1, ?_⟩
    have := g4.1
    cases v <;> exact this
  · intro n v cm hv hc hp
    obtain ⟨hn, cm', hc', rfl⟩ := get_sub_some hc
    obtain ⟨v', x, cm, g1, g2, g3, g4⟩ := look n hn
    rw [hc'] at g3
    injection g3 with g3
    subst g3
    have hp : cm'.plaintext = true := hp
    simp only [g1, Option.some.injEq] at hv
    subst hv
    rw [hsn hc' (b := n) (by simp [readName, hp])] at g2
    rw [g2, g4.2, if_pos hp]
  · intro n v cm b hv hc hp hb
    obtain ⟨hn, cm', hc', rfl⟩ := get_sub_some hc
    obtain ⟨v', x, cm, g1, g2, g3, g4⟩ := look n hn
    rw [hc'] at g3
    injection g3 with g3
    subst g3
    have hp : cm'.plaintext = false := hp
    simp only [g1, Option.some.injEq] at hv
    subst hv
    rw [strip_sym] at hb
    rw [hsn hc' (b := b) (by simp [readName, hp, hb])] at g2
    refine ⟨_, sym_eq .., ?_⟩
    rw [g2, g4.2, hp]
    simp [strip]
  · intro n z cm b _ hc _ hb
    obtain ⟨_, cm', _, rfl⟩ := get_sub_some hc
    rw [strip_other _ (by decide)] at hb
    cases hb
  · intro n v cm b _ hc _ hb
    obtain ⟨_, cm', _, rfl⟩ := get_sub_some hc
    rw [strip_other _ (by decide)] at hb
    cases hb
  · intro n hn b hb
    have hn := hkeys n hn
    rw [ht n hn, List.mem_singleton] at hb
    obtain ⟨v', x, cm, g1, g2, g3, g4⟩ := look n hn
    rw [hb, g2]
    rfl
  · intro b hb
    obtain ⟨⟨b', x⟩, he, rfl⟩ := List.mem_map.1 hb
    obtain ⟨n, hn, e⟩ := List.mem_map.1 (List.of_mem_zip he).1
    obtain ⟨cm, y, hc, hy⟩ := hr n hn
    refine ⟨n, mem_keys (x := strip cm) (by rw [get_sub, if_pos hn, hc]; rfl), ?_⟩
    rw [ht n hn]
    simp [e]

end

/-! ### The answers of a layer -/

/-- What is asked of a layer over the columns `cols`, in the order `names`. -/
structure Layer (cols : Dict String ColMeta) (names : List String) (q : Query) : Prop where
  fine : Answer.Fine cols (meant q names)
  opn : Answer.Open cols (meant q names)
  asc : Ascending cols (meant q names)

theorem layer_answers {P : Proxy} {cols : Dict String ColMeta} {names : List String} {q : Query} {rows : List PRow} {brows : List Row} (hk : List.Forall₂ (Keeps P.c cols) rows brows)
    (hq : Layer cols names q) {json : Dict String Json} {out fv : Json} {wj : Cond → Json} {oj : SortKey → Json} (hs : SentAs json q out fv wj oj)
    (hi : itemsIn json = some ((meantItems q names).map (Answer.Item.sent cols))) (hw : q.cond.map wj = q.cond.map (Cond.sealed P.c cols))
    (ho : q.order.map oj = q.order.map (orderSent cols)) (le : String → String → Bool) :
    (runOn le brows json).isSome = true ∧
    (∀ b, AnswersOn le brows json b → ∃ a, overRows le q names rows a ∧ List.Forall₂ (LineRel P.c cols (meantItems q names)) a b) ∧
    ∀ a, overRows le q names rows a → ∃ b, AnswersOn le brows json b ∧ List.Forall₂ (LineRel P.c cols (meantItems q names)) a b := by
  obtain ⟨hf, hg, ha⟩ := hq
  let P' : Proxy := { P with db := [(q.table, ⟨q.table, cols, none⟩)] }
  have hr : Rel P' [(q.table, rows)] [(q.table, brows)] := by
    intro t tm ht
    have h0 : Dict.get? ([(q.table, ⟨q.table, cols, none⟩)] : Db) t = some tm := ht
    rw [Dict.get?_cons] at h0
    split at h0
    · rename_i e
      subst e
      injection h0 with h0
      subst h0
      exact ⟨rows, brows, by simp [Dict.get?_cons], by simp [Dict.get?_cons], hk⟩
    · simp at h0
  have ht : Dict.get? P'.db (meant q names).table = some ⟨q.table, cols, none⟩ := by
    show Dict.get? ([(q.table, ⟨q.table, cols, none⟩)] : Db) q.table = _
    simp [Dict.get?_cons]
  obtain ⟨brows', bl, h1, h2, h3⟩ := lines_run hr ht hf hg le
  have h1 : Dict.get? [(q.table, brows)] q.table = some brows' := h1
  obtain rfl : brows = brows' := by simpa [Dict.get?_cons] using h1
  have h2 : runLines le q.distinct ((meantItems q names).map (Answer.Item.sent cols)) (q.cond.map (Cond.sealed P.c cols)) q.group q.having (q.order.map (orderName cols)) brows = some bl :=
    h2
  have h3 : List.Forall₂ (Lined P.c cols (meant q names)) ((meant q names).lines le [(q.table, rows)]) bl := h3
  obtain ⟨hord, hd⟩ := orderOf_sent (q := meant q names) hf.order
  have hord : orderOf (q.order.map (orderSent cols)) = some (q.order.map (orderName cols)) := hord
  have hd : descOf (q.order.map (orderSent cols)) = ((meant q names).taken cols).desc := hd
  rw [taken_eq hf.order ha] at hd
  have hd : descOf (q.order.map (orderSent cols)) = q.desc := hd
  have hrun : runOn le brows json = some bl := by
    unfold runOn
    simp only [hs.sel, hi, hs.rest "groupby" (by simp), groupOf_json, hs.rest "having" (by simp), havingOf_json, hs.order, ho, hord, hs.cond, hw, h2]
  have hwin : windowOf (Dict.get? json "limit") (Dict.get? json "offset") = some q.window := by
    rw [hs.rest "limit" (by simp), hs.rest "offset" (by simp), windowOf_json]
  have hdesc : descOf (Dict.get? json "orderby") = q.desc := by rw [hs.order, ho, hd]
  refine ⟨by rw [hrun]; rfl, ?_, ?_⟩
  · rintro bans ⟨l, w, h4, h5, h6⟩
    rw [hrun] at h4
    injection h4 with h4
    subst h4
    rw [hwin] at h5
    injection h5 with h5
    subst h5
    rw [hdesc] at h6
    obtain ⟨a, h7, h8⟩ := admissible_rel (R := fun b a => LineRel P.c cols (meantItems q names) a b) (S := fun y x => Sorted P.c cols (meant q names) x y) (le' := leKey le)
      (fun a a' b b' ha hb => (ha.le le hb).symm) ((f2_flip h3).imp fun b a h => by
        obtain ⟨h1, h2⟩ := h.sorted
        refine ⟨h1, h2.imp (fun h => ⟨h.2, h.1⟩) ?_⟩
        rintro ⟨x, y, h3, h4, h5⟩
        exact ⟨y, x, h4, h3, h5⟩) h6
    exact ⟨a, h7, f2_flip h8⟩
  · intro a h4
    obtain ⟨b, h5, h6⟩ := admissible_rel (R := LineRel P.c cols (meantItems q names)) (S := Sorted P.c cols (meant q names)) (le' := leDb le) (fun a a' b b' ha hb => ha.le le hb)
      (h3.imp fun a b h => h.sorted) h4
    exact ⟨b, ⟨bl, q.window, hrun, hwin, by rw [hdesc]; exact h5⟩, h6⟩

/-! ### Answers without NULL -/

theorem units_ne {α κ : Type} [DecidableEq κ] {a g : Bool} {key : α → κ} {l : List α} (h : g = true ∨ a = false) : ∀ u ∈ units a g key l, u ≠ [] ∧ ∀ x ∈ u, x ∈ l := by
  intro u hu
  unfold units at hu
  split at hu
  · unfold groups at hu
    obtain ⟨x, hx, rfl⟩ := List.mem_map.1 hu
    have hm : ∀ {l : List α}, ∀ x ∈ firsts key l, x ∈ l := by
      intro l
      induction l with
      | nil => intro x hx; exact hx
      | cons y l ih =>
        intro x hx
        rw [firsts] at hx
        rcases List.mem_cons.1 hx with rfl | hx
        · simp
        · exact List.mem_cons_of_mem _ (ih x (List.mem_filter.1 hx).1)
    refine ⟨fun e => ?_, fun y hy => (List.mem_filter.1 hy).1⟩
    have : x ∈ l.filter fun b => decide (key b = key x) := List.mem_filter.2 ⟨hm x hx, by simp⟩
    rw [e] at this
    cases this
  · rename_i hg
    split at hu
    · rename_i ha
      rcases h with h | h
      · exact absurd h hg
      · rw [h] at ha
        cases ha
    · obtain ⟨x, hx, rfl⟩ := List.mem_map.1 hu
      exact ⟨by simp, fun y hy => by rw [List.mem_singleton.1 hy]; exact hx⟩

theorem firsts_mem {α κ : Type} [DecidableEq κ] (f : α → κ) : ∀ {l : List α}, ∀ x ∈ firsts f l, x ∈ l
  | [], x, hx => hx
  | y :: l, x, hx => by
    rw [firsts] at hx
    rcases List.mem_cons.1 hx with rfl | hx
    · simp
    · exact List.mem_cons_of_mem _ (firsts_mem f x (List.mem_filter.1 hx).1)

theorem layer_full {le : String → String → Bool} {cols : Dict String ColMeta} {names : List String} {q : Query} {rows : List PRow} (hq : Layer cols names q)
    (hr : ∀ row ∈ rows, ∀ n cm, Dict.get? cols n = some cm → (Dict.get? row n).isSome = true) (hc : ∀ i ∈ meantItems q names, ∃ n, i = .col n)
    {a : List (List (Option Val))} (h : overRows le q names rows a) : ∀ r ∈ a, ∀ o ∈ r, o.isSome = true := by
  intro r hra o ho
  obtain ⟨l', hp, _, rfl⟩ := h
  have hin : r ∈ l'.map Prod.fst := by
    cases hw : q.window with
    | none => simpa [hw, window] using hra
    | some w =>
      rw [hw] at hra
      exact List.mem_of_mem_drop (List.mem_of_mem_take hra)
  obtain ⟨e, he, rfl⟩ := List.mem_map.1 hin
  have he := hp.mem_iff.1 he
  have he : e ∈ (((meant q names).units [(q.table, rows)]).filter ((meant q names).keeps le)).map ((meant q names).line le) := by
    unfold Query.lines at he
    dsimp only at he
    split at he
    · exact firsts_mem _ _ he
    · exact he
  obtain ⟨u, hu, rfl⟩ := List.mem_map.1 he
  have hu := (List.mem_filter.1 hu).1
  have hg : (!(meant q names).group.isEmpty) = true ∨ (meant q names).aggregated = false := by
    cases hag : (meant q names).aggregated with
    | false => exact .inr rfl
    | true =>
      left
      obtain ⟨i, hi⟩ := List.exists_mem_of_ne_nil _ hq.fine.some
      obtain ⟨n, rfl⟩ := hc i hi
      have : n ∈ (meant q names).group := (hq.opn.full hag).1 _ hi
      cases hgr : (meant q names).group with
      | nil => rw [hgr] at this; cases this
      | cons _ _ => rfl
  obtain ⟨hne, hmem⟩ := units_ne hg u hu
  obtain ⟨row, u, rfl⟩ := List.exists_cons_of_ne_nil hne
  obtain ⟨i, hi, rfl⟩ := List.mem_map.1 ho
  obtain ⟨n, rfl⟩ := hc i hi
  have hrow : row ∈ rows := by
    have := (List.mem_filter.1 (hmem row (by simp))).1
    simpa [meant, Dict.get?_cons] using this
  obtain ⟨cm, b, hcm, _⟩ := (hq.fine.items _ hi).col
  exact hr row hrow n cm hcm

end EulerDB.Nested
