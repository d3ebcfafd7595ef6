/-
Sessions that create tables and use them (C84).
-/
import Verif.Create.Fits

namespace EulerDB.Create

open EulerDB EulerDB.Table EulerDB.Delta EulerDB.Whole EulerDB.Clause

/-! ### What the client means -/

/-- A declared table: its columns, and the options of those that are to be encrypted. -/
structure Decl where
  cols : List Col
  opts : Dict String EncOpt

/-- The client's database: declared tables and their rows. -/
structure Client where
  decls : Dict String Decl
  rows : PTables

inductive UReq where
  | create (t : String) (d : Decl)
  | stmt (u : UStmt)

/-- What a database without encryption does. -/
def Client.exec (k : Client) : UReq → Client × List (List OutVal)
  | .create t d => (⟨Dict.set k.decls t d, Dict.set k.rows t []⟩, [])
  | .stmt u => (⟨k.decls, (pexec k.rows u).1⟩, (pexec k.rows u).2)

def Client.session (k : Client) : List UReq → Client × List (List (List OutVal))
  | [] => (k, [])
  | u :: us => (((k.exec u).1.session us).1, (k.exec u).2 :: ((k.exec u).1.session us).2)

/-- The request spells what is meant. -/
inductive Asks (P : Proxy) : Req → UReq → Prop
  | create {sql s n : List Char} {cols : List Col} {opts : Dict String EncOpt} {env : Table.Env} : Sql.Trimmed P.space sql s → SpCreate s n cols →
      Asks P (.create sql opts env) (.create (Sql.strOf n) ⟨cols, opts⟩)
  | stmt {sql : List Char} {u : UStmt} : Says P.env P.space sql u → Asks P (.stmt sql) (.stmt u)

/-! ### What is asked of the requests -/

/-- The columns of the declared table, each cipher stored under its own name. -/
def Decl.columns (d : Decl) : Dict String ColMeta := metaAll (fun k _ => k) d.opts 0 d.cols

/-- The declared tables. -/
def declared (ds : Dict String Decl) : Db := ds.map fun e => (e.1, ⟨"", e.2.columns, none⟩)

/-- The types that the backend will give the columns. -/
def Decl.types (d : Decl) : List MType := (outsAll ⟨fun _ => "", "", fun _ _ _ => .ok ""⟩ d.opts 0 d.cols).map mtypeOf

def Decl.keyTypes (d : Decl) : List MType := ((outsAll ⟨fun _ => "", "", fun _ _ _ => .ok ""⟩ d.opts 0 d.cols).filter Out.pk).map mtypeOf

/-- A table within the limits of the backend. -/
structure Roomy (w : Nat) (d : Decl) : Prop where
  good : ∀ c ∈ d.cols, Good d.opts c
  names : (d.cols.map Col.name).Nodup
  some : d.cols ≠ []
  count : d.types.length ≤ 1017
  bytes : (d.types.map (MType.bytes w)).sum ≤ 65535
  key : d.keyTypes.length ≤ 1
  index : ∀ t ∈ d.keyTypes, t.keyBytes w ≤ 3072

/-- The names in the backend: plain words, different even without case. -/
structure Fresh (W : Writer) (res : List Char → Bool) (env : Table.Env) (d : Decl) : Prop where
  anon : Bare W res env.anon
  bare : ∀ o ∈ outsAll env d.opts 0 d.cols, Bare W res o.name
  differ : ((outsAll env d.opts 0 d.cols).map fun o => low o.name).Nodup

/-- The client's rows fit the declared columns, and the primary keys differ. -/
def Client.fits (k : Client) : Prop := ∀ t d, Dict.get? k.decls t = some d → ∀ rows, Dict.get? k.rows t = some rows →
  (∀ row ∈ rows, ∀ c ∈ d.cols, ∃ v, Dict.get? row c.name = some v ∧ VFits d.opts c v) ∧
  ∀ c ∈ d.cols, c.opts.pk = true → (rows.map fun row => Dict.get? row c.name).Nodup

/-- A request that may be asked: a new table within the limits, or a statement on declared tables after which the rows fit. -/
def Allowed (P : Proxy) (B : Back) (k : Client) : Req → UReq → Prop
  | .create _ _ env, .create t d => Dict.get? k.decls t = none ∧ Roomy B.width d ∧ Fresh P.w B.res env d
  | .stmt _, .stmt u => Fine (declared k.decls) u ∧ (k.exec (.stmt u)).1.fits
  | _, _ => False

/-! ### Declared and recorded columns -/

/-- The same columns, stored under other names. -/
structure Same (a b : Dict String ColMeta) : Prop where
  keys : Dict.keys a = Dict.keys b
  cols : ∀ n x, Dict.get? a n = some x → ∃ y, Dict.get? b n = some y ∧ y.type = x.type ∧ y.plaintext = x.plaintext ∧ y.homKey = x.homKey ∧
    Dict.keys y.encCols = Dict.keys x.encCols

theorem metaOf_same (f g : String → Nat → String) (opts : Dict String EncOpt) (i : Nat) (c : Col) :
    (metaOf g opts i c).type = (metaOf f opts i c).type ∧ (metaOf g opts i c).plaintext = (metaOf f opts i c).plaintext ∧
    (metaOf g opts i c).homKey = (metaOf f opts i c).homKey ∧ Dict.keys (metaOf g opts i c).encCols = Dict.keys (metaOf f opts i c).encCols := by
  unfold metaOf
  cases Dict.get? opts c.name with
  | none => exact ⟨rfl, rfl, rfl, rfl⟩
  | some o =>
    refine ⟨rfl, rfl, rfl, ?_⟩
    simp only [Dict.keys, List.map_map]
    rfl

theorem metaAll_same (f g : String → Nat → String) (opts : Dict String EncOpt) : ∀ (i : Nat) (cols : List Col), Same (metaAll f opts i cols) (metaAll g opts i cols)
  | i, [] => ⟨rfl, fun n x h => by simp [metaAll] at h⟩
  | i, c :: r => by
    have ih := metaAll_same f g opts (i + taken opts c) r
    refine ⟨by rw [metaAll_keys, metaAll_keys], fun n x h => ?_⟩
    rw [metaAll, Dict.get?_cons] at h
    rw [metaAll, Dict.get?_cons]
    split at h
    · rename_i hc
      injection h with h
      subst h
      rw [if_pos hc]
      exact ⟨_, rfl, metaOf_same f g opts i c⟩
    · rename_i hc
      rw [if_neg hc]
      exact ih.cols n x h

theorem keys_mem {d d' : Dict String String} (h : Dict.keys d' = Dict.keys d) {k b : String} (hb : (k, b) ∈ d') : ∃ b', (k, b') ∈ d := by
  have : k ∈ Dict.keys d' := List.mem_map.2 ⟨_, hb, rfl⟩
  rw [h] at this
  obtain ⟨e, he, rfl⟩ := List.mem_map.1 this
  exact ⟨e.2, he⟩

theorem keys_get {d d' : Dict String String} (h : Dict.keys d' = Dict.keys d) {k b : String} (hb : Dict.get? d k = some b) : ∃ b', Dict.get? d' k = some b' := by
  cases hx : Dict.get? d' k with
  | some b' => exact ⟨b', rfl⟩
  | none =>
    rw [Dict.get?_eq_none_iff] at hx
    exact absurd (show k ∈ Dict.keys d' by rw [h]; exact List.mem_map.2 ⟨_, Dict.mem_of_get? hb, rfl⟩) hx

section
variable {x y : ColMeta} (ht : y.type = x.type) (hp : y.plaintext = x.plaintext) (hh : y.homKey = x.homKey) (hk : Dict.keys y.encCols = Dict.keys x.encCols)
include ht hp hk

theorem assignable_same {v : Val} (h : Assignable x v) : Assignable y v := by
  cases v with
  | int z =>
    obtain ⟨h1, h2⟩ := h
    refine ⟨ht.trans h1, fun hy => ⟨(h2 (hp ▸ hy)).1, fun ⟨b, hb⟩ => (h2 (hp ▸ hy)).2 ?_⟩⟩
    exact keys_mem hk hb
  | text s =>
    obtain ⟨h1, h2, h3, h4⟩ := h
    refine ⟨by rw [ht]; exact h1, h2, fun hy => h3 (hp ▸ hy), fun hy e b hb => ?_⟩
    obtain ⟨b', hb'⟩ := keys_mem hk hb
    exact h4 (hp ▸ hy) e b' hb'

omit hp hk in
theorem suits_same {v : Val} (h : Suits x v) : Suits y v := by
  cases v with
  | int z => exact ht.trans h
  | text s =>
    unfold Suits
    rw [ht]
    exact h

omit ht in
theorem readName_same {n b : String} (h : readName n x = some b) : ∃ b', readName n y = some b' := by
  unfold readName at h ⊢
  rw [hp]
  cases hx : x.plaintext with
  | true => exact ⟨n, by simp⟩
  | false =>
    rw [hx] at h
    simp only [Bool.false_eq_true, if_false] at h ⊢
    exact keys_get hk h

omit ht hp in
include hh in
theorem accepts_same {v : Val} (h : Accepts x v) : Accepts y v := by
  intro e he
  have := h e (hk ▸ he)
  rw [hh]
  exact this

end

theorem readable_same {a b : Dict String ColMeta} (hs : Same a b) {n : String} (h : Readable a n) : Readable b n := by
  obtain ⟨cm, c, h1, h2⟩ := h.col
  obtain ⟨y, h3, _, h5, _, h7⟩ := hs.cols n cm h1
  obtain ⟨c', h8⟩ := readName_same (y := y) h5 h7 h2
  exact ⟨h.dot, h.star, y, c', h3, h8⟩

mutual
theorem typed_same {a b : Dict String ColMeta} (hs : Same a b) : ∀ x : Cond, Whole.Typed a x → Whole.Typed b x
  | .eqInt n z, h => by
    rw [Whole.Typed] at h ⊢
    obtain ⟨cm, h1, h2, h3⟩ := h
    obtain ⟨y, h4, h5, h6, _, h7⟩ := hs.cols n cm h1
    refine ⟨y, h4, h5.trans h2, fun hy => ?_⟩
    obtain ⟨h8, c, h9⟩ := h3 (h6 ▸ hy)
    exact ⟨h8, keys_get h7 h9⟩
  | .eqText n s, h => by
    rw [Whole.Typed] at h ⊢
    obtain ⟨cm, h1, h2, h3, h3'⟩ := h
    obtain ⟨y, h4, h5, h6, _, h7⟩ := hs.cols n cm h1
    refine ⟨y, h4, by rw [h5]; exact h2, fun hy => h3 (h6 ▸ hy), fun hy => ?_⟩
    obtain ⟨h8, c, h9⟩ := h3' (h6 ▸ hy)
    exact ⟨h8, keys_get h7 h9⟩
  | .cmp o n z, h => by
    rw [Whole.Typed] at h ⊢
    obtain ⟨cm, h1, h2, h3⟩ := h
    obtain ⟨y, h4, h5, h6, _, h7⟩ := hs.cols n cm h1
    refine ⟨y, h4, h5.trans h2, fun hy => ?_⟩
    obtain ⟨h8, c, h9⟩ := h3 (h6 ▸ hy)
    exact ⟨h8, keys_get h7 h9⟩
  | .and l, h => by
    rw [Whole.Typed] at h ⊢
    exact ⟨h.1, typedAll_same hs l h.2⟩
  | .or l, h => by
    rw [Whole.Typed] at h ⊢
    exact ⟨h.1, typedAll_same hs l h.2⟩

theorem typedAll_same {a b : Dict String ColMeta} (hs : Same a b) : ∀ l : List Cond, TypedAll a l → TypedAll b l
  | [], _ => by rw [TypedAll]; trivial
  | x :: l, h => by
    rw [TypedAll] at h ⊢
    exact ⟨typed_same hs x h.1, typedAll_same hs l h.2⟩
end

theorem get_declared (ds : Dict String Decl) (t : String) : Dict.get? (declared ds) t = (Dict.get? ds t).map fun d => ⟨"", d.columns, none⟩ := by
  induction ds with
  | nil => rfl
  | cons e r ih =>
    obtain ⟨n, d⟩ := e
    have : declared ((n, d) :: r) = (n, ⟨"", d.columns, none⟩) :: declared r := rfl
    rw [this, Dict.get?_cons, Dict.get?_cons, ih]
    split <;> rfl

/-- A statement that fits some tables fits tables with the same columns. -/
theorem fine_db {db db' : Db} (hg : ∀ {t : String} {tm : TableMeta ColMeta}, Dict.get? db t = some tm → ∃ tm', Dict.get? db' t = some tm' ∧ Same tm.columns tm'.columns)
    {u : UStmt} (h : Fine db u) : Fine db' u := by
  cases u with
  | insert t row =>
    obtain ⟨tm, h1, h2, h3, h4, h5⟩ := h
    obtain ⟨tm', h6, h7⟩ := hg h1
    refine ⟨tm', h6, h2, h3, fun n hn => h4 n (h7.keys ▸ hn), fun e he => ?_⟩
    obtain ⟨cm, h8, h9, h10, h11⟩ := h5 e he
    obtain ⟨y, a1, a2, a3, a4, a5⟩ := h7.cols _ _ h8
    exact ⟨y, a1, suits_same a2 h9, accepts_same a4 a5 h10, fun s hv hy => h11 s hv (a3 ▸ hy)⟩
  | select t ns w =>
    obtain ⟨tm, h1, h2, h3, h4, h5⟩ := h
    obtain ⟨tm', h6, h7⟩ := hg h1
    exact ⟨tm', h6, h2, h3, fun n hn => readable_same h7 (h4 n hn), fun x hx => typed_same h7 x (h5 x hx)⟩
  | update t sets w =>
    obtain ⟨tm, h1, h2, h3, h4, h5⟩ := h
    obtain ⟨tm', h6, h7⟩ := hg h1
    refine ⟨tm', h6, h2, h3, fun e he => ?_, fun x hx => typed_same h7 x (h5 x hx)⟩
    obtain ⟨cm, h8, h9⟩ := h4 e he
    obtain ⟨y, a1, a2, a3, a4, a5⟩ := h7.cols _ _ h8
    exact ⟨y, a1, assignable_same a2 a3 a5 h9⟩
  | delete t w =>
    obtain ⟨tm, h1, h5⟩ := h
    obtain ⟨tm', h6, h7⟩ := hg h1
    exact ⟨tm', h6, fun x hx => typed_same h7 x (h5 x hx)⟩

/-- A statement that fits the declared tables fits the recorded ones. -/
theorem fine_same {ds : Dict String Decl} {db : Db} (hs : ∀ t d, Dict.get? ds t = some d → ∃ tm, Dict.get? db t = some tm ∧ Same d.columns tm.columns) {u : UStmt}
    (h : Fine (declared ds) u) : Fine db u := by
  refine fine_db ?_ h
  intro t tm ht
  rw [get_declared] at ht
  cases hd : Dict.get? ds t with
  | none => rw [hd] at ht; cases ht
  | some d =>
    rw [hd] at ht
    injection ht with ht
    subst ht
    exact hs t d hd

/-! ### The backend accepts the table -/

def Out.unnamed (o : Out) : Out := { o with name := "" }

theorem outs_unnamed (env env' : Table.Env) (opts : Dict String EncOpt) (i : Nat) (c : Col) :
    (outs env opts i c).map Out.unnamed = (outs env' opts i c).map Out.unnamed := by
  unfold outs
  cases Dict.get? opts c.name with
  | none => rfl
  | some o => simp only [List.map_map]; rfl

theorem outsAll_unnamed (env env' : Table.Env) (opts : Dict String EncOpt) : ∀ (i : Nat) (cols : List Col),
    (outsAll env opts i cols).map Out.unnamed = (outsAll env' opts i cols).map Out.unnamed
  | _, [] => rfl
  | i, c :: r => by rw [outsAll, outsAll, List.map_append, List.map_append, outs_unnamed env env', outsAll_unnamed env env']

theorem types_eq (env : Table.Env) (d : Decl) : d.types = (outsAll env d.opts 0 d.cols).map mtypeOf := by
  have h := outsAll_unnamed ⟨fun _ => "", "", fun _ _ _ => .ok ""⟩ env d.opts 0 d.cols
  have := congrArg (List.map mtypeOf) h
  simp only [List.map_map] at this
  exact this

theorem keyTypes_eq (env : Table.Env) (d : Decl) : d.keyTypes = ((outsAll env d.opts 0 d.cols).filter Out.pk).map mtypeOf := by
  have h := outsAll_unnamed ⟨fun _ => "", "", fun _ _ _ => .ok ""⟩ env d.opts 0 d.cols
  have := congrArg (fun l => (l.filter Out.pk).map mtypeOf) h
  simp only [List.filter_map, List.map_map] at this
  exact this

theorem outs_ne (env : Table.Env) (opts : Dict String EncOpt) (i : Nat) (c : Col) : outs env opts i c ≠ [] := by
  unfold outs
  cases Dict.get? opts c.name with
  | none => simp
  | some o => simp [ciphers]

theorem outsAll_ne (env : Table.Env) (opts : Dict String EncOpt) (i : Nat) {cols : List Col} (h : cols ≠ []) : outsAll env opts i cols ≠ [] := by
  cases cols with
  | nil => exact absurd rfl h
  | cons c r =>
    rw [outsAll]
    intro he
    exact outs_ne env opts i c (List.append_eq_nil_iff.1 he).1

theorem roomy_legal {W : Writer} {res : List Char → Bool} {w : Nat} {env : Table.Env} {d : Decl} (hr : Roomy w d) (hf : Fresh W res env d) :
    legal w ((outsAll env d.opts 0 d.cols).map mcol) = true := by
  have h1 := types_eq env d
  have h2 := keyTypes_eq env d
  unfold legal
  simp only [Bool.and_eq_true, decide_eq_true_eq, List.all_eq_true]
  refine ⟨⟨⟨⟨⟨⟨?_, ?_⟩, ?_⟩, ?_⟩, ?_⟩, ?_⟩, ?_⟩
  · have := outsAll_ne env d.opts 0 hr.some
    cases hx : outsAll env d.opts 0 d.cols with
    | nil => exact absurd hx this
    | cons _ _ => rfl
  · have := hr.count
    rw [h1, List.length_map] at this
    rw [List.length_map]
    exact this
  · rw [List.map_map]
    exact hf.differ
  · have := hr.bytes
    rw [h1, List.map_map] at this
    rw [List.map_map]
    exact this
  · have := hr.key
    rw [h2, List.length_map] at this
    rw [List.filter_map, List.length_map]
    exact this
  · intro mc hmc
    obtain ⟨o, ho, rfl⟩ := List.mem_map.1 hmc
    cases hp : o.pk with
    | false => simp [mcol, hp]
    | true =>
      have := hr.index (mtypeOf o) (by rw [h2]; exact List.mem_map.2 ⟨o, List.mem_filter.2 ⟨ho, hp⟩, rfl⟩)
      simp [mcol, hp, this]
  · intro mc hmc
    obtain ⟨o, ho, rfl⟩ := List.mem_map.1 hmc
    simp [mcol]

/-! ### The state -/

/-- The proxy with the metadata of the moment. -/
abbrev at_ (P : Proxy) (w : World) : Proxy := { P with db := w.db }

/-- The proxy has recorded and the backend has created the client's tables, and the backend holds the client's rows. -/
structure Inv (P : Proxy) (B : Back) (k : Client) (w : World) : Prop where
  sound : Sound (at_ P w) B.res
  rel : Rel (at_ P w) k.rows w.store.rows
  tabs : ∀ t d, Dict.get? k.decls t = some d → ∃ env, Dict.get? w.db t = some (tableOf env d.opts d.cols) ∧ (∀ c ∈ d.cols, Good d.opts c) ∧ (d.cols.map Col.name).Nodup
  none : ∀ t, Dict.get? k.decls t = none → Dict.get? w.db t = none
  store : ∀ e ∈ w.store.cols, ∃ t d env, Dict.get? k.decls t = some d ∧ Dict.get? w.db t = some (tableOf env d.opts d.cols) ∧
    e = (env.anon, (outsAll env d.opts 0 d.cols).map mcol)
  made : ∀ t tm, Dict.get? w.db t = some tm → tm.anonymous ∈ Dict.keys w.store.cols

theorem metaOf_known (names : String → Nat → String) (opts : Dict String EncOpt) (i : Nat) (c : Col) : ∀ k ∈ Dict.keys (metaOf names opts i c).encCols, k ∈ knownCiphers := by
  unfold metaOf
  cases Dict.get? opts c.name with
  | none => simp [Dict.keys]
  | some o =>
    simp only [Dict.keys, List.map_map]
    have : (Prod.fst ∘ fun e : String × Nat => (e.1, names e.1 e.2)) = Prod.fst := rfl
    rw [this, List.zipIdx_map_fst]
    intro k hk
    rcases mem_ciphers hk with ⟨rfl, _⟩ | rfl | ⟨rfl, _⟩ <;> decide

theorem tableOf_named {W : Writer} {res : List Char → Bool} {env : Table.Env} {d : Decl} (hf : Fresh W res env d) : Named W res (tableOf env d.opts d.cols) := by
  have hcol : ∀ n cm, Dict.get? (metaAll (fun _ => env.names) d.opts 0 d.cols) n = some cm → ∀ b ∈ (if cm.plaintext then [n] else cm.encCols.map Prod.snd), Bare W res b := by
    intro n cm h b hb
    obtain ⟨c, _, j, he, ho⟩ := metaAll_mem env d.opts (fun _ => env.names) 0 d.cols _ (Dict.mem_of_get? h)
    injection he with h1 h2
    subst h1
    subst h2
    rw [← outs_names] at hb
    obtain ⟨o, hoo, rfl⟩ := List.mem_map.1 hb
    exact hf.bare o (ho o hoo)
  refine ⟨hf.anon, fun n cm h hp => hcol n cm h n (by simp [hp]), fun n cm h hp e b hb => hcol n cm h b ?_⟩
  rw [hp]
  exact List.mem_map.2 ⟨(e, b), hb, rfl⟩

theorem tableOf_stored {env : Table.Env} {d : Decl} {n : String} {cm : ColMeta} (h : Dict.get? (metaAll (fun _ => env.names) d.opts 0 d.cols) n = some cm)
    (hp : cm.plaintext = false) : (∀ k ∈ Dict.keys cm.encCols, k ∈ knownCiphers) ∧ cm.encCols ≠ [] := by
  obtain ⟨c, _, j, he, _⟩ := metaAll_mem env d.opts (fun _ => env.names) 0 d.cols _ (Dict.mem_of_get? h)
  injection he with h1 h2
  subst h2
  refine ⟨metaOf_known _ _ _ _, ?_⟩
  unfold metaOf at hp ⊢
  cases hx : Dict.get? d.opts c.name with
  | none => rw [hx] at hp; cases hp
  | some o => simp [ciphers]

/-- After a table was recorded and created under a new name: everything is sound, and the table is empty. -/
theorem create_sound {P : Proxy} {B : Back} {k : Client} {w : World} (h : Inv P B k w) (t : String) {d : Decl} {env : Table.Env}
    (hr : Roomy B.width d) (hf : Fresh P.w B.res env d) (ha : env.anon ∉ Dict.keys w.store.cols) :
    Sound (at_ P ⟨Dict.set w.db t (tableOf env d.opts d.cols),
        ⟨Dict.set w.store.rows env.anon [], Dict.set w.store.cols env.anon ((outsAll env d.opts 0 d.cols).map mcol)⟩⟩) B.res ∧
      Rel (at_ P ⟨Dict.set w.db t (tableOf env d.opts d.cols),
        ⟨Dict.set w.store.rows env.anon [], Dict.set w.store.cols env.anon ((outsAll env d.opts 0 d.cols).map mcol)⟩⟩) (Dict.set k.rows t [])
        (Dict.set w.store.rows env.anon []) := by
  have hget : ∀ {t' : String} {tm : TableMeta ColMeta}, Dict.get? (Dict.set w.db t (tableOf env d.opts d.cols)) t' = some tm →
      (t' = t ∧ tm = tableOf env d.opts d.cols) ∨ (t' ≠ t ∧ Dict.get? w.db t' = some tm) := by
    intro t' tm hg
    by_cases he : t' = t
    · subst he
      rw [Dict.get?_set_self] at hg
      injection hg with hg
      exact Or.inl ⟨rfl, hg.symm⟩
    · rw [Dict.get?_set_ne _ he] at hg
      exact Or.inr ⟨he, hg⟩
  have hanon : ∀ {t' : String} {tm : TableMeta ColMeta}, Dict.get? w.db t' = some tm → tm.anonymous ≠ env.anon := fun hg hx => ha (hx ▸ h.made _ _ hg)
  refine ⟨⟨h.sound.depth, h.sound.hom, ?_, ?_, ?_, ?_, ?_⟩, ?_⟩
  · intro t1 t2 tm1 tm2 h1 h2 he
    rcases hget h1 with ⟨a1, rfl⟩ | ⟨_, a1⟩ <;> rcases hget h2 with ⟨a2, rfl⟩ | ⟨_, a2⟩
    · exact a1.trans a2.symm
    · exact absurd he.symm (hanon a2)
    · exact absurd he (hanon a1)
    · exact h.sound.tables _ _ _ _ a1 a2 he
  · intro t1 tm h1
    rcases hget h1 with ⟨_, rfl⟩ | ⟨_, a1⟩
    · exact tableOf_named hf
    · exact h.sound.named _ _ a1
  · intro t1 tm h1 n cm hc hp
    rcases hget h1 with ⟨_, rfl⟩ | ⟨_, a1⟩
    · exact (tableOf_stored hc hp).1
    · exact h.sound.known _ _ a1 n cm hc hp
  · intro t1 tm h1 n cm hc hp
    rcases hget h1 with ⟨_, rfl⟩ | ⟨_, a1⟩
    · exact (tableOf_stored hc hp).2
    · exact h.sound.stored _ _ a1 n cm hc hp
  · intro t1 tm h1
    rcases hget h1 with ⟨_, rfl⟩ | ⟨_, a1⟩
    · have := targets_all env d.opts hr.names
      simp only [tableOf]
      rw [this]
      have hd := hf.differ
      rw [show (fun o : Out => low o.name) = low ∘ Out.name from rfl, ← List.map_map] at hd
      exact List.Nodup.of_map low hd
    · exact h.sound.names _ _ a1
  · intro t1 tm h1
    rcases hget h1 with ⟨rfl, rfl⟩ | ⟨hne, a1⟩
    · exact ⟨[], [], Dict.get?_set_self _ _ _, Dict.get?_set_self _ _ _, .nil⟩
    · obtain ⟨rows, brows, b1, b2, b3⟩ := h.rel _ _ a1
      refine ⟨rows, brows, ?_, ?_, b3⟩
      · exact (Dict.get?_set_ne _ hne _).trans b1
      · exact (Dict.get?_set_ne _ (hanon a1) _).trans b2

/-- A new table. -/
theorem inv_create {P : Proxy} {B : Back} {k : Client} {w : World} (h : Inv P B k w) {t : String} {d : Decl} {env : Table.Env} (ht : Dict.get? k.decls t = none)
    (hr : Roomy B.width d) (hf : Fresh P.w B.res env d) (ha : env.anon ∉ Dict.keys w.store.cols) :
    Inv P B (k.exec (.create t d)).1 ⟨Dict.set w.db t (tableOf env d.opts d.cols),
      ⟨Dict.set w.store.rows env.anon [], Dict.set w.store.cols env.anon ((outsAll env d.opts 0 d.cols).map mcol)⟩⟩ := by
  obtain ⟨hs, hl⟩ := create_sound h t hr hf ha
  have hget : ∀ {t' : String} {tm : TableMeta ColMeta}, Dict.get? (Dict.set w.db t (tableOf env d.opts d.cols)) t' = some tm →
      (t' = t ∧ tm = tableOf env d.opts d.cols) ∨ (t' ≠ t ∧ Dict.get? w.db t' = some tm) := by
    intro t' tm hg
    by_cases he : t' = t
    · subst he
      rw [Dict.get?_set_self] at hg
      injection hg with hg
      exact Or.inl ⟨rfl, hg.symm⟩
    · rw [Dict.get?_set_ne _ he] at hg
      exact Or.inr ⟨he, hg⟩
  refine ⟨hs, hl, ?_, ?_, ?_, ?_⟩
  · intro t1 d1 h1
    simp only [Client.exec] at h1
    by_cases he : t1 = t
    · subst he
      rw [Dict.get?_set_self] at h1
      injection h1 with h1
      subst h1
      exact ⟨env, Dict.get?_set_self _ _ _, hr.good, hr.names⟩
    · rw [Dict.get?_set_ne _ he] at h1
      obtain ⟨env1, b1, b2⟩ := h.tabs _ _ h1
      exact ⟨env1, (Dict.get?_set_ne _ he _).trans b1, b2⟩
  · intro t1 h1
    simp only [Client.exec] at h1
    by_cases he : t1 = t
    · subst he
      rw [Dict.get?_set_self] at h1
      cases h1
    · rw [Dict.get?_set_ne _ he] at h1
      exact (Dict.get?_set_ne _ he _).trans (h.none _ h1)
  · intro e he
    have hn : Dict.get? w.store.cols env.anon = .none := (Dict.get?_eq_none_iff _ _).2 ha
    simp only [Dict.set_of_none _ _ _ hn, List.mem_append, List.mem_singleton] at he
    rcases he with he | rfl
    · obtain ⟨t1, d1, env1, b1, b2, b3⟩ := h.store e he
      have hne : t1 ≠ t := by rintro rfl; rw [ht] at b1; cases b1
      exact ⟨t1, d1, env1, (Dict.get?_set_ne _ hne _).trans b1, (Dict.get?_set_ne _ hne _).trans b2, b3⟩
    · exact ⟨t, d, env, Dict.get?_set_self _ _ _, Dict.get?_set_self _ _ _, rfl⟩
  · intro t1 tm h1
    have hn : Dict.get? w.store.cols env.anon = .none := (Dict.get?_eq_none_iff _ _).2 ha
    simp only [Dict.set_of_none _ _ _ hn, Dict.keys, List.map_append, List.mem_append]
    rcases hget h1 with ⟨_, rfl⟩ | ⟨_, a1⟩
    · right; simp [tableOf]
    · left; exact h.made _ _ a1

theorem forall₂_right {α β : Type} {R : α → β → Prop} {l : List α} {m : List β} (h : List.Forall₂ R l m) {y : β} (hy : y ∈ m) : ∃ x ∈ l, R x y := by
  induction h with
  | nil => simp at hy
  | @cons a b l m hx _ ih =>
    rcases List.mem_cons.1 hy with rfl | hy
    · exact ⟨a, by simp, hx⟩
    · obtain ⟨r, hr, hk⟩ := ih hy
      exact ⟨r, by simp [hr], hk⟩

/-- The backend accepts the rows. -/
theorem store_fine {P : Proxy} {B : Back} {k : Client} {w : World} (h : Inv P B k w) (hN : P.c.alnum '\x00' = false) {pst : PTables} {bst : Tables}
    (hrel : Rel (at_ P w) pst bst) (hf : Client.fits ⟨k.decls, pst⟩) : Store.fine ⟨bst, w.store.cols⟩ = true := by
  unfold Store.fine
  rw [List.all_eq_true]
  intro e he
  obtain ⟨t, d, env, h1, h2, rfl⟩ := h.store e he
  obtain ⟨env', _, hg, hn⟩ := h.tabs t d h1
  obtain ⟨rows, brows, h3, h4, h5⟩ := hrel t _ h2
  obtain ⟨h6, h7⟩ := hf t d h1 rows h3
  have h4 : Dict.get? bst env.anon = some brows := h4
  simp only [h4, Bool.and_eq_true, List.all_eq_true]
  refine ⟨fun brow hb => ?_, rows_keyed hn h5 h7⟩
  have : ∃ row ∈ rows, Keeps P.c (metaAll (fun _ => env.names) d.opts 0 d.cols) row brow := by
    exact forall₂_right h5 hb
  obtain ⟨row, hrow, hk⟩ := this
  exact row_fits hN hn hg hk (h6 row hrow)

/-! ### One request -/

theorem serve_create {P : Proxy} {B : Back} {w : World} {sql s n : List Char} {cols : List Col} {opts : Dict String EncOpt} {env : Table.Env}
    (ht : Sql.Trimmed P.space sql s) (hs : SpCreate s n cols) (hr : Roomy B.width ⟨cols, opts⟩)
    (hf : Fresh P.w B.res env ⟨cols, opts⟩) (ha : env.anon ∉ Dict.keys w.store.cols) :
    serve P B w (.create sql opts env) = some (⟨Dict.set w.db (Sql.strOf n) (tableOf env opts cols),
      ⟨Dict.set w.store.rows env.anon [], Dict.set w.store.cols env.anon ((outsAll env opts 0 cols).map mcol)⟩⟩, []) := by
  obtain ⟨r, h1, h2, h3⟩ := rewriteCreate_good (t := Sql.strOf n) env hr.good hr.names
  have h4 := read_create (P := P.w) (res := B.res) (env := env) (outsAll_ne env opts 0 hr.some) hf.anon
    fun o ho => ⟨hf.bare o ho, outsAll_known env 0 hr.good o ho⟩
  have h5 : Dict.get? w.store.cols env.anon = none := (Dict.get?_eq_none_iff _ _).2 ha
  rw [serve, C84_read_partial P.space ht hs]
  simp only
  rw [h1]
  simp only [h2, h3]
  rw [h4]
  simp only [Store.create, h5, roomy_legal hr hf, if_true]

/-- **C84, partial: a table that is created can be used.** -/
theorem serve_asks {P : Proxy} {B : Back} {k : Client} {w : World} (h : Inv P B k w) (hN : P.c.alnum '\x00' = false) {q : Req} {u : UReq} (hq : Asks P q u)
    (ha : Allowed P B k q u) (hnew : ∀ sql opts env, q = .create sql opts env → env.anon ∉ Dict.keys w.store.cols) :
    ∃ w', serve P B w q = some (w', (k.exec u).2) ∧ Inv P B (k.exec u).1 w' ∧
      Dict.keys w'.store.cols = Dict.keys w.store.cols ++ (match q with | .create _ _ env => [env.anon] | .stmt _ => []) := by
  cases hq with
  | @create sql s n cols opts env ht hs =>
    obtain ⟨h1, h2, h3⟩ := ha
    have h4 := hnew _ _ _ rfl
    refine ⟨_, serve_create ht hs h2 h3 h4, inv_create h h1 h2 h3 h4, ?_⟩
    simp [Dict.set_of_none _ _ _ ((Dict.get?_eq_none_iff _ _).2 h4), Dict.keys]
  | @stmt sql u hs =>
    obtain ⟨h1, h2⟩ := ha
    have hfine : Fine (at_ P w).db u := by
      refine fine_same ?_ h1
      intro t d ht
      obtain ⟨env, h3, _, _⟩ := h.tabs t d ht
      exact ⟨_, h3, metaAll_same _ _ _ _ _⟩
    obtain ⟨bst', h3, h4⟩ := serve_says h.sound h.rel (P := at_ P w) hs hfine
    have h5 := store_fine h hN h4 h2
    refine ⟨⟨w.db, ⟨bst', w.store.cols⟩⟩, ?_, ?_, by simp⟩
    · simp only [serve, h3, h5, if_true, Client.exec]
    · exact ⟨h.sound, h4, h.tabs, h.none, h.store, h.made⟩

/-! ### Sessions -/

/-- Every request spells what is meant and may be asked when its turn comes. -/
def AllowedAll (P : Proxy) (B : Back) : Client → List Req → List UReq → Prop
  | _, [], [] => True
  | k, q :: qs, u :: us => Asks P q u ∧ Allowed P B k q u ∧ AllowedAll P B (k.exec u).1 qs us
  | _, _, _ => False

/-- The names drawn for the tables. -/
def anons : List Req → List String
  | [] => []
  | .create _ _ env :: r => env.anon :: anons r
  | .stmt _ :: r => anons r

/-- **C84, partial: tables created through the proxy can be used as declared.**  Requests that create tables within the limits of the backend, and statements on them
whose values fit, are all accepted and answered as a database without encryption would answer. -/
theorem C84_session_partial {P : Proxy} {B : Back} (hN : P.c.alnum '\x00' = false) : ∀ {qs : List Req} {us : List UReq} {k : Client} {w : World}, Inv P B k w →
    AllowedAll P B k qs us → (Dict.keys w.store.cols ++ anons qs).Nodup → ∃ w', session P B w qs = some (w', (k.session us).2) ∧ Inv P B (k.session us).1 w'
  | [], [], k, w, h, _, _ => ⟨w, rfl, h⟩
  | q :: qs, u :: us, k, w, h, ha, hn => by
    obtain ⟨h1, h2, h3⟩ := ha
    obtain ⟨w1, h4, h5, h6⟩ := serve_asks h hN h1 h2 (by
      rintro sql opts env rfl
      intro hm
      rw [List.nodup_append] at hn
      exact hn.2.2 _ hm env.anon (by simp [anons]) rfl)
    obtain ⟨w2, h7, h8⟩ := C84_session_partial hN h5 h3 (by
      rw [h6]
      cases q <;> simpa [anons] using hn)
    exact ⟨w2, by rw [session, h4]; simp only [h7]; rfl, h8⟩
  | [], _ :: _, _, _, _, ha, _ => by simp [AllowedAll] at ha
  | _ :: _, [], _, _, _, ha, _ => by simp [AllowedAll] at ha

/-- Nothing created yet. -/
theorem inv_empty {P : Proxy} {B : Back} (hd : ∃ n, P.depth = n + 3) (hh : ∀ k z, '\\' ∉ (P.c.hom k z).toList) : Inv P B ⟨[], []⟩ ⟨[], ⟨[], []⟩⟩ := by
  refine ⟨⟨hd, hh, ?_, ?_, ?_, ?_, ?_⟩, ?_, ?_, ?_, ?_, ?_⟩
  all_goals first
    | (intro t tm h; cases h; done)
    | (intro t t' tm tm' h; cases h)
    | (intro t h; rfl)
    | (intro e he; cases he)

/-- A session that begins with an empty database. -/
theorem C84_fresh_partial {P : Proxy} {B : Back} (hd : ∃ n, P.depth = n + 3) (hh : ∀ k z, '\\' ∉ (P.c.hom k z).toList) (hN : P.c.alnum '\x00' = false) {qs : List Req}
    {us : List UReq} (ha : AllowedAll P B ⟨[], []⟩ qs us) (hn : (anons qs).Nodup) :
    ∃ w, session P B ⟨[], ⟨[], []⟩⟩ qs = some (w, (Client.session ⟨[], []⟩ us).2) := by
  obtain ⟨w, h, _⟩ := C84_session_partial hN (inv_empty (B := B) hd hh) ha (by simpa [Dict.keys] using hn)
  exact ⟨w, h⟩

end EulerDB.Create
