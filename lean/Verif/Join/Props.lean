/-
C80: a join through the proxy answers what the join would answer without encryption.
-/
import Verif.Join.Rewrite
import Verif.Whole.SessionProps
import Verif.Clause.PipeProps

namespace EulerDB.Join

open EulerDB EulerDB.Clause EulerDB.Delta EulerDB.Whole

/-! ### Lists side by side -/

theorem f2_append {α β : Type} {R : α → β → Prop} : ∀ {l m : List α} {l' m' : List β}, List.Forall₂ R l l' → List.Forall₂ R m m' → List.Forall₂ R (l ++ m) (l' ++ m')
  | _, _, _, _, .nil, h => h
  | _, _, _, _, .cons h1 h2, h => .cons h1 (f2_append h2 h)

theorem f2_map {α β γ δ : Type} {R : α → β → Prop} {S : γ → δ → Prop} {f : α → γ} {g : β → δ} (hf : ∀ a b, R a b → S (f a) (g b)) :
    ∀ {l : List α} {l' : List β}, List.Forall₂ R l l' → List.Forall₂ S (l.map f) (l'.map g)
  | _, _, .nil => .nil
  | _, _, .cons h1 h2 => .cons (hf _ _ h1) (f2_map hf h2)

theorem f2_flatMap {α β γ δ : Type} {R : α → β → Prop} {S : γ → δ → Prop} {f : α → List γ} {g : β → List δ} (hf : ∀ a b, R a b → List.Forall₂ S (f a) (g b)) :
    ∀ {l : List α} {l' : List β}, List.Forall₂ R l l' → List.Forall₂ S (l.flatMap f) (l'.flatMap g)
  | _, _, .nil => .nil
  | _, _, .cons h1 h2 => by
    rw [List.flatMap_cons, List.flatMap_cons]
    exact f2_append (hf _ _ h1) (f2_flatMap hf h2)

theorem f2_filter {α β : Type} {R : α → β → Prop} {p : α → Bool} {p' : β → Bool} (hp : ∀ a b, R a b → p a = p' b) :
    ∀ {l : List α} {l' : List β}, List.Forall₂ R l l' → List.Forall₂ R (l.filter p) (l'.filter p')
  | _, _, .nil => .nil
  | _, _, @List.Forall₂.cons _ _ _ a b _ _ h1 h2 => by
    rw [List.filter_cons, List.filter_cons, hp a b h1]
    split
    · exact .cons h1 (f2_filter hp h2)
    · exact f2_filter hp h2

theorem f2_isEmpty {α β : Type} {R : α → β → Prop} {l : List α} {l' : List β} (h : List.Forall₂ R l l') : l.isEmpty = l'.isEmpty := by
  cases h <;> rfl

theorem f2_all {α β : Type} {R : α → β → Prop} {p' : β → Bool} (hp : ∀ a b, R a b → p' b = true) : ∀ {l : List α} {l' : List β}, List.Forall₂ R l l' → l'.all p' = true
  | _, _, .nil => rfl
  | _, _, .cons h1 h2 => by simp [hp _ _ h1, f2_all hp h2]

/-! ### Environments side by side -/

/-- The row of a table, or none. -/
def CellRel (c : Crypto) (db : Db) (p : String × Option PRow) (b : String × Option Row) : Prop :=
  ∃ tm, Dict.get? db p.1 = some tm ∧ b.1 = tm.anonymous ∧
    (p.2 = none ∧ b.2 = none ∨ ∃ r br, p.2 = some r ∧ b.2 = some br ∧ Keeps c tm.columns r br)

def EnvRel (c : Crypto) (db : Db) (ts : List String) (e : Env PRow) (e' : Env Row) : Prop := e.map Prod.fst = ts ∧ List.Forall₂ (CellRel c db) e e'

theorem env_get {c : Crypto} {db : Db} (hn : Names db) {t : String} {tm : TableMeta ColMeta} (ht : Dict.get? db t = some tm) :
    ∀ {e : Env PRow} {e' : Env Row}, List.Forall₂ (CellRel c db) e e' → t ∈ e.map Prod.fst →
      (Dict.get? e t = some none ∧ Dict.get? e' tm.anonymous = some none) ∨
        ∃ r br, Dict.get? e t = some (some r) ∧ Dict.get? e' tm.anonymous = some (some br) ∧ Keeps c tm.columns r br
  | _, _, .nil, h => by simp at h
  | _, _, @List.Forall₂.cons _ _ _ (k, o) (k', o') _ _ ⟨tm', h1, h2, h3⟩ h4, h => by
    have h1 : Dict.get? db k = some tm' := h1
    have h2 : k' = tm'.anonymous := h2
    have h3 : o = none ∧ o' = none ∨ ∃ r br, o = some r ∧ o' = some br ∧ Keeps c tm'.columns r br := h3
    rw [Dict.get?_cons, Dict.get?_cons]
    by_cases e : k = t
    · subst e
      rw [ht] at h1
      injection h1 with h1
      subst h1
      rw [if_pos rfl, if_pos h2]
      rcases h3 with ⟨rfl, rfl⟩ | ⟨r, br, rfl, rfl, hk⟩
      · exact .inl ⟨rfl, rfl⟩
      · exact .inr ⟨r, br, rfl, rfl, hk⟩
    · have : k' ≠ tm.anonymous := fun e' => e (hn.tables k t tm' tm h1 ht (h2 ▸ e'))
      rw [if_neg e, if_neg this]
      refine env_get hn ht h4 ?_
      simp only [List.map_cons, List.mem_cons] at h
      exact h.resolve_left (Ne.symm e)

theorem splitDot_dot {t n : String} (h1 : '.' ∉ t.toList) (h2 : '.' ∉ n.toList) : splitDot (t ++ "." ++ n) = [t, n] := by
  have e : (t ++ "." ++ n).toList = t.toList ++ '.' :: n.toList := by simp
  unfold splitDot
  simp only [e, Text.split_append _ _ h1, Text.split_word _ h2]
  simp

/-- What the backend finds in a column. -/
def Found (c : Crypto) (cm : ColMeta) (o : Option Val) (x : DbVal) : Prop :=
  match o with
  | none => x = .null
  | some v => Suits cm v ∧ x = if cm.plaintext then v.db else .text (String.ofList (Aes.ct (c.aes cm.key) v.str))

theorem look_found {c : Crypto} {db : Db} (hn : Names db) {ts : List String} {e : Env PRow} {e' : Env Row} (h : EnvRel c db ts e e') {a : Ref} (ha : a.1 ∈ ts)
    {tm : TableMeta ColMeta} {cm : ColMeta} {b : String} (hk : Known db a tm cm b) : ∃ x, look e' (bref db a) = some x ∧ Found c cm (valueOf e a) x := by
  have hs : splitDot (bref db a) = [tm.anonymous, b] := by
    rw [hk.bref]
    exact splitDot_dot (hn.anon _ _ hk.table).1 (hn.cols _ _ _ _ _ hk.table hk.col hk.read)
  rcases env_get hn hk.table h.2 (by rw [h.1]; exact ha) with ⟨h1, h2⟩ | ⟨r, br, h1, h2, h3⟩
  · exact ⟨.null, by simp [look, hs, h2], by simp [valueOf, h1, Found]⟩
  · obtain ⟨v, hv, hsu⟩ := h3.vals a.2 cm hk.col
    have hrd := hk.read
    unfold readName at hrd
    by_cases hp : cm.plaintext = true
    · rw [if_pos hp] at hrd
      injection hrd with hrd
      have := h3.holds.plain a.2 v cm hv hk.col hp
      refine ⟨v.db, ?_, ?_⟩
      · simp [look, hs, h2, ← hrd, this]
      · simp [valueOf, h1, hv, Found, hsu, hp]
    · have hp' : cm.plaintext = false := by simpa using hp
      rw [if_neg hp] at hrd
      obtain ⟨y, hy, hg⟩ := h3.holds.sym a.2 v cm b hv hk.col hp' hrd
      rw [sym_eq, String.toList_ofList] at hy
      injection hy with hy
      refine ⟨.text y, ?_, ?_⟩
      · simp [look, hs, h2, hg]
      · simp [valueOf, h1, hv, Found, hsu, hp', hy]

theorem Found.eq3 {c : Crypto} {cm cm' : ColMeta} (hc : Comparable cm cm') {o o' : Option Val} {x x' : DbVal} (h : Found c cm o x) (h' : Found c cm' o' x') :
    eq3 x x' = some (eqVal o o') := by
  cases o with
  | none =>
    have h : x = .null := h
    subst h
    rfl
  | some v =>
    cases o' with
    | none =>
      have h' : x' = .null := h'
      subst h'
      cases x <;> rfl
    | some w =>
      obtain ⟨hs, rfl⟩ := h
      obtain ⟨hs', rfl⟩ := h'
      obtain ⟨hc1, hc2⟩ := hc
      rcases hc1 with ⟨hp, hp'⟩ | ⟨hp, hp', hkey⟩
      · rw [if_pos hp, if_pos hp']
        cases v with
        | int a =>
          cases w with
          | int b => simp [Val.db, Join.eq3, dbEq, eqVal]
          | text b => exact absurd (hc2.1 hs) hs'.1
        | text a =>
          cases w with
          | int b => exact absurd (hc2.2 hs') hs.1
          | text b => simp [Val.db, Join.eq3, dbEq, eqVal]
      · rw [if_neg (by simp [hp]), if_neg (by simp [hp']), ← hkey]
        simp only [Join.eq3, dbEq, Option.map_some, ofList_inj, eqVal]
        cases v with
        | int a =>
          cases w with
          | int b =>
            have := ct_inj (A := c.aes cm.key) (intStr_not_nul a) (intStr_not_nul b)
            have e : Text.intStr a = Text.intStr b ↔ a = b := ⟨fun h => by
              have := congrArg Text.parseInt h
              rw [Text.parseInt_intStr, Text.parseInt_intStr] at this
              injection this, fun h => by rw [h]⟩
            simp only [Val.str, this, e, Val.int.injEq]
          | text b => exact absurd (hc2.1 hs) hs'.1
        | text a =>
          cases w with
          | int b => exact absurd (hc2.2 hs') hs.1
          | text b =>
            have := ct_inj (A := c.aes cm.key) hs.2.2.2 hs'.2.2.2
            simp only [Val.str, this, String.toList_inj, Val.text.injEq]

mutual
theorem on_truth {c : Crypto} {db : Db} (hn : Names db) {ts : List String} {e : Env PRow} {e' : Env Row} (h : EnvRel c db ts e e') : ∀ {ts' : List String} {o : On},
    o.Fits db ts' → (∀ t ∈ ts', t ∈ ts) → truthJ e' (o.sent db) = some (o.truth e)
  | ts', .eq a b, hf, hs => by
    obtain ⟨ha, hb, tm, cm, x, tm', cm', x', h1, h2, h3⟩ := hf
    obtain ⟨y, hy, fy⟩ := look_found hn h (hs _ ha) h1
    obtain ⟨z, hz, fz⟩ := look_found hn h (hs _ hb) h2
    have := fy.eq3 h3 fz
    simp (decide := true) only [On.sent, truthJ, truthD, truthO, if_false, if_true, hy, hz, this, On.truth]
  | ts', .and l, hf, hs => by
    have := on_truths hn h (l := l) hf hs
    simp (decide := true) only [On.sent, truthJ, truthD, truthO, if_true, this.1, On.truth]
  | ts', .or l, hf, hs => by
    have := on_truths hn h (l := l) hf hs
    simp (decide := true) only [On.sent, truthJ, truthD, truthO, if_false, if_true, this.2, On.truth]

theorem on_truths {c : Crypto} {db : Db} (hn : Names db) {ts : List String} {e : Env PRow} {e' : Env Row} (h : EnvRel c db ts e e') : ∀ {ts' : List String} {l : List On},
    On.FitAll db ts' l → (∀ t ∈ ts', t ∈ ts) → truthAll e' (On.sents db l) = some (On.allTrue e l) ∧ truthSome e' (On.sents db l) = some (On.someTrue e l)
  | ts', [], _, _ => by simp only [On.sents, truthAll, truthSome, On.allTrue, On.someTrue, and_self]
  | ts', o :: l, hf, hs => by
    have h1 := on_truth hn h hf.1 hs
    have h2 := on_truths hn h hf.2 hs
    simp only [On.sents, truthAll, truthSome, On.allTrue, On.someTrue, h1, h2.1, h2.2, and_self]
end

/-! ### Joining side by side -/

theorem EnvRel.snoc {c : Crypto} {db : Db} {ts : List String} {e : Env PRow} {e' : Env Row} (h : EnvRel c db ts e e') {t : String} {tm : TableMeta ColMeta}
    (ht : Dict.get? db t = some tm) {o : Option PRow} {o' : Option Row} (ho : o = none ∧ o' = none ∨ ∃ r br, o = some r ∧ o' = some br ∧ Keeps c tm.columns r br) :
    EnvRel c db (ts ++ [t]) (e ++ [(t, o)]) (e' ++ [(tm.anonymous, o')]) :=
  ⟨by rw [List.map_append, h.1]; rfl, f2_append h.2 (.cons ⟨tm, ht, rfl, ho⟩ .nil)⟩

theorem none_env {c : Crypto} {db : Db} : ∀ {ts : List String}, (∀ t ∈ ts, ∃ tm, Dict.get? db t = some tm) →
    EnvRel c db ts (ts.map fun p => (p, none)) ((ts.map (btable db)).map fun p => (p, none))
  | [], _ => ⟨rfl, .nil⟩
  | t :: ts, h => by
    obtain ⟨tm, ht⟩ := h t (by simp)
    have ih := none_env (c := c) (ts := ts) fun t ht => h t (by simp [ht])
    exact ⟨by simp [ih.1], .cons ⟨tm, ht, btable_eq ht, .inl ⟨rfl, rfl⟩⟩ ih.2⟩

theorem step_rel {c : Crypto} {db : Db} {kind : Option Kind} {prev : List String} (hp : ∀ t ∈ prev, ∃ tm, Dict.get? db t = some tm) {t : String} {tm : TableMeta ColMeta}
    (ht : Dict.get? db t = some tm) {rows : List PRow} {brows : List Row} (hr : List.Forall₂ (Keeps c tm.columns) rows brows) {on : Env PRow → Bool} {on' : Env Row → Bool}
    (ho : ∀ e e', EnvRel c db (prev ++ [t]) e e' → on e = on' e') {envs : List (Env PRow)} {benvs : List (Env Row)} (he : List.Forall₂ (EnvRel c db prev) envs benvs) :
    List.Forall₂ (EnvRel c db (prev ++ [t])) (joinStep kind prev t rows on envs) (joinStep kind (prev.map (btable db)) tm.anonymous brows on' benvs) := by
  have one : ∀ e e', EnvRel c db prev e e' → List.Forall₂ (EnvRel c db (prev ++ [t])) ((rows.map fun r => e ++ [(t, some r)]).filter on)
      ((brows.map fun r => e' ++ [(tm.anonymous, some r)]).filter on') := fun e e' h =>
    f2_filter ho (f2_map (fun r br hk => h.snoc ht (.inr ⟨r, br, rfl, rfl, hk⟩)) hr)
  have inner : List.Forall₂ (EnvRel c db (prev ++ [t])) (envs.flatMap fun e => (rows.map fun r => e ++ [(t, some r)]).filter on)
      (benvs.flatMap fun e' => (brows.map fun r => e' ++ [(tm.anonymous, some r)]).filter on') := f2_flatMap one he
  cases kind with
  | none => exact inner
  | some k =>
    cases k with
    | join => exact inner
    | inner => exact inner
    | left =>
      refine f2_flatMap (fun e e' h => ?_) he
      have := one e e' h
      dsimp only
      rw [f2_isEmpty this]
      split
      · exact .cons (h.snoc ht (.inl ⟨rfl, rfl⟩)) .nil
      · exact this
    | right =>
      refine f2_flatMap (fun r br hk => ?_) hr
      have : List.Forall₂ (EnvRel c db (prev ++ [t])) ((envs.map fun e => e ++ [(t, some r)]).filter on)
          ((benvs.map fun e' => e' ++ [(tm.anonymous, some br)]).filter on') :=
        f2_filter ho (f2_map (fun e e' h => h.snoc ht (.inr ⟨r, br, rfl, rfl, hk⟩)) he)
      dsimp only
      rw [f2_isEmpty this]
      split
      · exact .cons ((none_env hp).snoc ht (.inr ⟨r, br, rfl, rfl, hk⟩)) .nil
      · exact this

theorem stepOf_sent (db : Db) (s : Step) : stepOf (s.sent db) = some (s.kind, btable db s.table, s.how.map fun p => p.2.sent db) := by
  cases hh : s.how with
  | none => simp [Step.sent, hh, stepOf, Step.kind]
  | some p =>
    obtain ⟨k, o⟩ := p
    cases k <;> simp (decide := true) [Step.sent, hh, stepOf, Step.kind, Kind.key, kindOf]

theorem rows_rel {P : Proxy} {pst : PTables} {bst : Tables} (hr : Rel P pst bst) {t : String} {tm : TableMeta ColMeta} (ht : Dict.get? P.db t = some tm) :
    ∃ brows, Dict.get? bst tm.anonymous = some brows ∧ List.Forall₂ (Keeps P.c tm.columns) (rowsOf pst t) brows := by
  obtain ⟨rows, brows, h1, h2, h3⟩ := hr t tm ht
  exact ⟨brows, h2, by simpa [rowsOf, h1] using h3⟩

theorem joins_rel {P : Proxy} (hn : Names P.db) {pst : PTables} {bst : Tables} (hr : Rel P pst bst) : ∀ {l : List Step} {prev : List String},
    (∀ t ∈ prev ++ l.map (·.table), ∃ tm, Dict.get? P.db t = some tm) → (prev ++ l.map (·.table)).Nodup → StepsFit P.db prev l → ∀ {envs : List (Env PRow)} {benvs : List (Env Row)},
    List.Forall₂ (EnvRel P.c P.db prev) envs benvs → ∃ out, bjoin bst (l.map (Step.sent P.db)) (prev.map (btable P.db)) benvs = some out ∧
      List.Forall₂ (EnvRel P.c P.db (prev ++ l.map (·.table))) (joinAll pst l prev envs) out
  | [], prev, _, _, _, envs, benvs, h => ⟨benvs, rfl, by simpa [joinAll] using h⟩
  | s :: l, prev, hk, hd, hf, envs, benvs, h => by
    obtain ⟨tm, ht⟩ := hk s.table (by simp)
    obtain ⟨brows, hb, hrows⟩ := rows_rel hr ht
    have hp : ∀ t ∈ prev, ∃ tm, Dict.get? P.db t = some tm := fun t ht => hk t (by simp [ht])
    have hnew : tm.anonymous ∉ prev.map (btable P.db) := by
      intro hm
      obtain ⟨t', ht', e⟩ := List.mem_map.1 hm
      obtain ⟨tm', htm'⟩ := hp t' ht'
      rw [btable_eq htm'] at e
      have := hn.tables t' s.table tm' tm htm' ht e
      rw [List.nodup_append] at hd
      exact hd.2.2 t' ht' s.table (by simp) this
    have htruth : ∀ k o, s.how = some (k, o) → ∀ e e', EnvRel P.c P.db (prev ++ [s.table]) e e' → truthJ e' (o.sent P.db) = some (o.truth e) :=
      fun k o hh e e' h => on_truth hn h (hf.1 k o hh) fun t ht => ht
    have hon : ∀ e e', EnvRel P.c P.db (prev ++ [s.table]) e e' → s.keep e = keeps (s.how.map fun p => p.2.sent P.db) e' := by
      intro e e' h
      cases hh : s.how with
      | none => simp [Step.keep, hh, keeps]
      | some p => simp [Step.keep, hh, keeps, htruth p.1 p.2 hh e e' h]
    have hdef : (benvs.all fun e => brows.all fun row => defined (s.how.map fun p => p.2.sent P.db) (e ++ [(tm.anonymous, some row)])) = true := by
      refine f2_all (fun e e' h => f2_all (fun r br hk => ?_) hrows) h
      have := h.snoc ht (.inr ⟨r, br, rfl, rfl, hk⟩)
      cases hh : s.how with
      | none => rfl
      | some p => simp [defined, htruth p.1 p.2 hh _ _ this]
    obtain ⟨out, h1, h2⟩ := joins_rel hn hr (l := l) (prev := prev ++ [s.table]) (by simpa using hk) (by simpa using hd) hf.2 (step_rel hp ht hrows hon h)
    refine ⟨out, ?_, by simpa [joinAll] using h2⟩
    rw [List.map_append, List.map_cons, List.map_nil, btable_eq ht] at h1
    rw [List.map_cons, bjoin, stepOf_sent]
    simp only [btable_eq ht, hb, if_neg hnew, hdef, if_true]
    exact h1

/-! ### The answer -/

theorem pushRefs_columns {db : Db} : ∀ {l : List Ref}, (∀ a ∈ l, ∃ tm cm b, Known db a tm cm b) → ∀ s, (pushRefs db s l).columns = s.columns ++ l.map dotted
  | [], _, s => by simp [pushRefs]
  | a :: l, h, s => by
    obtain ⟨tm, cm, b, hk⟩ := h a (by simp)
    rw [pushRefs_cons hk, pushRefs_columns fun a ha => h a (by simp [ha])]
    simp [Sel.push]

/-- What is recorded of a column. -/
def stateOf (db : Db) (a : Ref) : String := (((Dict.get? db a.1).bind fun tm => Dict.get? tm.columns a.2).map readState).getD ""

theorem pushRefs_state {db : Db} : ∀ {l : List Ref}, (∀ a ∈ l, ∃ tm cm b, Known db a tm cm b) → ∀ s, (pushRefs db s l).state = s.state ++ l.map (stateOf db)
  | [], _, s => by simp [pushRefs]
  | a :: l, h, s => by
    obtain ⟨tm, cm, b, hk⟩ := h a (by simp)
    rw [pushRefs_cons hk, pushRefs_state fun a ha => h a (by simp [ha])]
    simp [Sel.push, stateOf, hk.table, hk.col]

theorem cell_answer {P : Proxy} (hn : Names P.db) {q : Query} (hq : Fine P.db q) {e : Env PRow} {e' : Env Row} (h : EnvRel P.c P.db q.tables e e') {a : Ref} (ha : a.1 ∈ q.tables)
    {tm : TableMeta ColMeta} {cm : ColMeta} {b : String} (hk : Known P.db a tm cm b) : ∃ x, look e' (bref P.db a) = some x ∧
      (if stateOf P.db a = "plaintext" then .ok (plainVal x) else decryptVal P.c P.homDec P.ev P.db q.from x (dotted a) (stateOf P.db a) : Except PyErr OutVal) = .ok (outOf e a) := by
  obtain ⟨x, hx, hf⟩ := look_found hn h ha hk
  refine ⟨x, hx, ?_⟩
  have hst : stateOf P.db a = readState cm := by simp [stateOf, hk.table, hk.col]
  rw [hst]
  unfold outOf
  cases hv : valueOf e a with
  | none =>
    rw [hv] at hf
    have hf : x = .null := hf
    subst hf
    rw [C25_null_result]
    simp [plainVal]
  | some v =>
    rw [hv] at hf
    obtain ⟨hsu, rfl⟩ := hf
    by_cases hp : cm.plaintext = true
    · rw [readState, if_pos hp, if_pos rfl, if_pos hp]
      cases v <;> rfl
    · rw [readState, if_neg hp, if_neg (by decide), if_neg hp]
      have g0 : splitDot (dotted a) = [a.1, a.2] := splitDot_dot hk.dot1 hk.dot2
      have g1 : tableOfJson P.db (.str a.1) = .ok tm := getItem_ok.2 hk.table
      have g2 : Dict.getItem tm.columns a.2 = .ok cm := getItem_ok.2 hk.col
      unfold decryptVal decCol
      rw [if_neg (by simp)]
      simp only [g0, origin_from hq ha, Except.map, g1, g2, if_true]
      rw [symDec_ct]
      · cases v with
        | int z =>
          unfold Suits at hsu
          simp [Val.str, decodeVal, hsu, Text.parseInt_intStr, Val.out]
        | text s =>
          obtain ⟨h3, h4, h5, _⟩ := hsu
          simp [Val.str, decodeVal, h3, h4, h5, Val.out]
      · cases v with
        | int z => exact intStr_not_nul z
        | text s => exact hsu.2.2.2

theorem cells_answer {P : Proxy} (hn : Names P.db) {q : Query} (hq : Fine P.db q) {e : Env PRow} {e' : Env Row} (h : EnvRel P.c P.db q.tables e e') : ∀ {l : List Ref},
    (∀ a ∈ l, a.1 ∈ q.tables ∧ ∃ tm cm b, Known P.db a tm cm b) → ∃ cells, (l.map (bref P.db)).mapM (look e') = some cells ∧
      decryptRow P.c P.homDec P.ev P.db q.from (l.map dotted) (l.map (stateOf P.db)) cells = .ok (l.map (outOf e))
  | [], _ => ⟨[], rfl, rfl⟩
  | a :: l, hl => by
    obtain ⟨ha, tm, cm, b, hk⟩ := hl a (by simp)
    obtain ⟨x, h1, h2⟩ := cell_answer hn hq h ha hk
    obtain ⟨cells, h3, h4⟩ := cells_answer hn hq h (l := l) fun a ha => hl a (by simp [ha])
    refine ⟨x :: cells, by simp [List.mapM_cons, h1, h3], ?_⟩
    simp only [List.map_cons, decryptRow, h2, h4]

theorem envs_answer {P : Proxy} (hn : Names P.db) {q : Query} (hq : Fine P.db q) : ∀ {l : List (Env PRow)} {l' : List (Env Row)},
    List.Forall₂ (EnvRel P.c P.db q.tables) l l' → ∃ rows, (l'.mapM fun e => ((q.refs P.db).map (bref P.db)).mapM (look e)) = some rows ∧
      P.answer q.from (pushRefs P.db {} (q.refs P.db)) rows = .ok (l.map fun e => (q.refs P.db).map (outOf e))
  | _, _, .nil => ⟨[], rfl, rfl⟩
  | _, _, .cons h1 h2 => by
    obtain ⟨rows, h3, h4⟩ := envs_answer hn hq h2
    obtain ⟨cells, h5, h6⟩ := cells_answer hn hq h1 hq.refs
    refine ⟨cells :: rows, by simp only [List.mapM_cons, h3, h5]; rfl, ?_⟩
    have hk : ∀ a ∈ q.refs P.db, ∃ tm cm b, Known P.db a tm cm b := fun a ha => (hq.refs a ha).2
    rw [Proxy.answer]
    rw [pushRefs_columns hk, pushRefs_state hk] 
    simp only [List.nil_append, h6, h4, List.map_cons]

theorem names_sent (q : Query) (db : Db) : namesOf (q.cols db) = some ((q.refs db).map (bref db)) := by
  have hm : ∀ l : List Ref, selectNames (l.map fun a => .str (bref db a)) = some (l.map (bref db)) := by
    intro l
    have := selectNames_map (l.map (bref db))
    simpa [List.map_map, Function.comp_def] using this
  unfold Query.cols
  cases hi : q.items with
  | none => exact hm _
  | some l =>
    have hr : q.refs db = l := by simp [Query.refs, hi]
    rw [hr]
    match l with
    | [] => rfl
    | [a] => rfl
    | a :: b :: r => exact selectNames_map ((a :: b :: r).map (bref db))

/-- **C80, partial: joins.** If the backend holds the client's tables, a query over several tables is rewritten, MySQL answers the rewritten query, and
what the proxy makes of this answer is what the query means on the client's tables: the same rows, with NULL where an outer join found nothing. -/
theorem C80_join_partial {P : Proxy} (hn : Names P.db) {pst : PTables} {bst : Tables} (hr : Rel P pst bst) {q : Query} (hq : Fine P.db q) :
    ∃ json table s rows, rewriteQuery P.c P.db P.fuel q.json = .ok (json, table, s) ∧ runJoin bst json = some rows ∧
      P.answer table s rows = .ok (q.answer P.db pst) := by
  obtain ⟨tm, ht⟩ := hq.known q.first (by simp [Query.tables])
  obtain ⟨brows, hb, hrows⟩ := rows_rel hr ht
  have hstart : List.Forall₂ (EnvRel P.c P.db [q.first]) ((rowsOf pst q.first).map fun r => [(q.first, some r)]) (brows.map fun r => [(tm.anonymous, some r)]) :=
    f2_map (fun r br hk => ⟨rfl, .cons ⟨tm, ht, rfl, .inr ⟨r, br, rfl, rfl, hk⟩⟩ .nil⟩) hrows
  obtain ⟨benvs, h1, h2⟩ := joins_rel hn hr (l := q.steps) (prev := [q.first]) hq.known hq.once hq.steps hstart
  have hcond : ∀ e e', EnvRel P.c P.db q.tables e e' → ∀ o, q.cond = some o → truthJ e' (o.sent P.db) = some (o.truth e) :=
    fun e e' h o ho => on_truth hn h (hq.cond o ho) fun t ht => ht
  have h2 : List.Forall₂ (EnvRel P.c P.db q.tables) (joinAll pst q.steps [q.first] ((rowsOf pst q.first).map fun r => [(q.first, some r)])) benvs := h2
  have h3 := f2_filter (p := fun e => match q.cond with | none => true | some c => c.truth e == some true) (p' := keeps (q.cond.map (On.sent P.db))) (fun e e' h => by
    cases ho : q.cond with
    | none => rfl
    | some o => simp [keeps, hcond e e' h o ho]) h2
  have h4 : benvs.all (defined (q.cond.map (On.sent P.db))) = true := f2_all (fun e e' h => by
    cases ho : q.cond with
    | none => rfl
    | some o => simp [defined, hcond e e' h o ho]) h2
  obtain ⟨rows, h5, h6⟩ := envs_answer hn hq h3
  refine ⟨_, _, _, rows, join_rewritten hn hq P.fuel, ?_, h6⟩
  have g1 : Dict.get? (q.sent P.db) "select" = some (q.cols P.db) := by
    simp [Query.sent, Dict.get?_cons]
  have g2 : Dict.get? (q.sent P.db) "from" = some (.list (.str (btable P.db q.first) :: q.steps.map (Step.sent P.db))) := by
    simp (decide := true) [Query.sent, Dict.get?_cons]
  have g3 : Dict.get? (q.sent P.db) "where" = q.cond.map (On.sent P.db) := by
    cases ho : q.cond <;> simp (decide := true) [Query.sent, Dict.get?_cons, ho, Dict.get?]
  have g4 : ((q.steps.map (Step.sent P.db)).all isStr || (q.steps.map (Step.sent P.db)).all (fun j => !isStr j)) = true := by
    rw [Bool.or_eq_true]
    refine hq.uniform.imp ?_ ?_
    · intro h
      simp only [List.all_map, List.all_eq_true, Function.comp_apply]
      intro s hs
      simp [Step.sent, h s hs, isStr]
    · intro h
      simp only [List.all_map, List.all_eq_true, Function.comp_apply]
      intro s hs
      cases hh : s.how with
      | none => exact absurd hh (h s hs)
      | some p => simp [Step.sent, hh, isStr]
  have g5 : fromRows bst (.list (.str (btable P.db q.first) :: q.steps.map (Step.sent P.db))) = some benvs := by
    rw [List.map_cons, List.map_nil, btable_eq ht] at h1
    simp only [fromRows, btable_eq ht, hb, g4, if_true, h1]
  rw [runJoin, g1, g2, g3]
  simp only [names_sent, g5, h4, if_true, h5]

end EulerDB.Join
