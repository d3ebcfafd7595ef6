/-
Values that fit the declared columns fit the columns of the backend (C84).
-/
import Verif.Create.Decl
import Verif.Fuzzy.Props

namespace EulerDB.Create

open EulerDB EulerDB.Table EulerDB.Delta EulerDB.Whole EulerDB.Clause

/-! ### Names and recorded columns -/

theorem ciphers_nodup (c : Col) (o : EncOpt) : (ciphers c o).Nodup := by
  unfold ciphers
  split <;> split <;> decide

theorem metaAll_keys (names : String → Nat → String) (opts : Dict String EncOpt) : ∀ (i : Nat) (cols : List Col), Dict.keys (metaAll names opts i cols) = cols.map Col.name
  | _, [] => rfl
  | i, c :: r => by
    have := metaAll_keys names opts (i + taken opts c) r
    simp only [Dict.keys] at this
    simp [metaAll, Dict.keys, this]

theorem outsAll_mem (env : Table.Env) (opts : Dict String EncOpt) (names : String → Nat → String) : ∀ (i : Nat) (cols : List Col), ∀ o ∈ outsAll env opts i cols,
    ∃ c ∈ cols, ∃ j, o ∈ outs env opts j c ∧ (c.name, metaOf names opts j c) ∈ metaAll names opts i cols
  | _, [], o, h => by simp [outsAll] at h
  | i, c :: r, o, h => by
    rcases List.mem_append.1 h with h | h
    · exact ⟨c, by simp, i, h, by simp [metaAll]⟩
    · obtain ⟨c', hc, j, h1, h2⟩ := outsAll_mem env opts names _ r o h
      exact ⟨c', by simp [hc], j, h1, by simp [metaAll, h2]⟩

theorem metaAll_mem (env : Table.Env) (opts : Dict String EncOpt) (names : String → Nat → String) : ∀ (i : Nat) (cols : List Col), ∀ e ∈ metaAll names opts i cols,
    ∃ c ∈ cols, ∃ j, e = (c.name, metaOf names opts j c) ∧ ∀ o ∈ outs env opts j c, o ∈ outsAll env opts i cols
  | _, [], o, h => by simp [metaAll] at h
  | i, c :: r, e, h => by
    rcases List.mem_cons.1 h with h | h
    · exact ⟨c, by simp, i, h, fun o ho => by simp [outsAll, ho]⟩
    · obtain ⟨c', hc, j, h1, h2⟩ := metaAll_mem env opts names _ r e h
      exact ⟨c', by simp [hc], j, h1, fun o ho => by simp [outsAll, h2 o ho]⟩

theorem metaAll_get {names : String → Nat → String} {opts : Dict String EncOpt} {i : Nat} {cols : List Col} (hn : (cols.map Col.name).Nodup) {n : String} {cm : ColMeta}
    (h : (n, cm) ∈ metaAll names opts i cols) : Dict.get? (metaAll names opts i cols) n = some cm :=
  Dict.get?_of_mem_nodup (by rw [metaAll_keys]; exact hn) h

/-- The columns that are written for a column are those that are recorded. -/
theorem outs_names (env : Table.Env) (opts : Dict String EncOpt) (j : Nat) (c : Col) : (outs env opts j c).map Out.name =
    if (metaOf (fun _ => env.names) opts j c).plaintext then [c.name] else (metaOf (fun _ => env.names) opts j c).encCols.map Prod.snd := by
  unfold outs metaOf
  cases Dict.get? opts c.name <;> simp

theorem targets_get {cols : Dict String ColMeta} {n : String} {cm : ColMeta} (h : Dict.get? cols n = some cm) :
    targets cols n = if cm.plaintext then [n] else cm.encCols.map Prod.snd := by
  simp [targets, h]

theorem targets_all (env : Table.Env) (opts : Dict String EncOpt) {cols : List Col} (hn : (cols.map Col.name).Nodup) :
    (Dict.keys (metaAll (fun _ => env.names) opts 0 cols)).flatMap (targets (metaAll (fun _ => env.names) opts 0 cols)) = (outsAll env opts 0 cols).map Out.name := by
  have : ∀ (l : List Col) (i : Nat), (∀ e ∈ metaAll (fun _ => env.names) opts i l, Dict.get? (metaAll (fun _ => env.names) opts 0 cols) e.1 = some e.2) →
      (l.map Col.name).flatMap (targets (metaAll (fun _ => env.names) opts 0 cols)) = (outsAll env opts i l).map Out.name := by
    intro l
    induction l with
    | nil => intro i _; rfl
    | cons c r ih =>
      intro i h
      have h1 := h _ (by rw [metaAll]; exact List.mem_cons_self)
      rw [List.map_cons, List.flatMap_cons, targets_get h1, ih (i + taken opts c) fun e he => h e (by simp [metaAll, he]), outsAll, List.map_append, outs_names]
  rw [metaAll_keys]
  exact this cols 0 fun e he => metaAll_get hn he

/-! ### Values -/

/-- The value fits the declared column.  A text of an encrypted column is limited in bytes, and to 84 characters if it can be searched. -/
def VFits (opts : Dict String EncOpt) (c : Col) : Val → Prop
  | .int z => -(2 : Int) ^ 31 ≤ z ∧ z < 2 ^ 31
  | .text s => s.toList.length ≤ c.size ∧ ∀ o, Dict.get? opts c.name = some o → (Aes.utf8 s.toList).length ≤ c.size ∧ (o.fuzzy = true → s.toList.length ≤ 84)

theorem fits_chars {b : Bool} {n : Nat} {s : String} (h : s.toList.length ≤ n) : (MType.chars b n).fits (.text s) = true := by
  simp only [MType.fits]
  exact decide_eq_true h

theorem int_length {z : Int} (h : -(2 : Int) ^ 31 ≤ z ∧ z < 2 ^ 31) : Clause.Int64 z ∧ (Text.intStr z).length ≤ 20 := by
  have h64 : Clause.Int64 z := by
    unfold Clause.Int64
    constructor <;> omega
  exact ⟨h64, intStr_length h64⟩

theorem mtypeOf_eq {o : Out} {ty : MType} (h : o.type = some ty) : mtypeOf o = ty := by simp [mtypeOf, h]

/-- The type of a column that is not encrypted. -/
theorem plain_type {opts : Dict String EncOpt} {c : Col} (h : Good opts c) {v : Val} {cm : ColMeta} (hcm : cm.type = c.type) (hs : Suits cm v) (hv : VFits opts c v)
    {n : String} {u : Option Bool} {k : Bool} : (mtypeOf ⟨n, c.type, if c.type = "int" then none else some c.size, u, k⟩).fits v.db = true := by
  rcases h.type with ⟨h1, _⟩ | ⟨m, h1, h2, h3⟩
  · cases v with
    | text s => exact absurd (hcm.trans h1) hs.1
    | int z =>
      rw [mtypeOf_eq (ty := .integer 4) (by simp [Out.type, mtype, h1])]
      simp only [VFits] at hv
      simp only [Val.db, MType.fits]
      exact decide_eq_true hv
  · have hne : c.type ≠ "int" := by rcases h3 with h3 | ⟨h3, _⟩ <;> rw [h3] <;> decide
    cases v with
    | int z => exact absurd (hcm.symm.trans hs) hne
    | text s =>
      have hsz : c.size = m := by simp [Col.size, h1]
      rw [if_neg hne, hsz]
      have hlen : s.toList.length ≤ m := hsz ▸ hv.1
      rcases h3 with h3 | ⟨h3, h4⟩
      · rw [mtypeOf_eq (ty := .chars false m) (by simp [Out.type, mtype, h3])]
        exact fits_chars hlen
      · rw [mtypeOf_eq (ty := .chars true m) (by simp [Out.type, mtype, h3, h4])]
        exact fits_chars hlen

theorem mem_ciphers {c : Col} {o : EncOpt} {k : String} (h : k ∈ ciphers c o) : k = "order-preserving" ∧ c.type = "int" ∨ k = "symmetric" ∨ k = "fuzzy" ∧ o.fuzzy = true := by
  unfold ciphers at h
  rcases List.mem_append.1 h with h | h
  · rcases List.mem_append.1 h with h | h
    · split at h
      · exact Or.inl ⟨by simpa using h, by assumption⟩
      · simp at h
    · exact Or.inr (Or.inl (by simpa using h))
  · split at h
    · exact Or.inr (Or.inr ⟨by simpa using h, by assumption⟩)
    · simp at h

/-- The stored value of every column that is written fits it. -/
theorem out_fits {c : Crypto} (hN : c.alnum '\x00' = false) {env : Table.Env} {opts : Dict String EncOpt} {cols : Dict String ColMeta} {col : Col} (hg : Good opts col) {j : Nat}
    (hm : Dict.get? cols col.name = some (metaOf (fun _ => env.names) opts j col)) {row : PRow} {brow : Row} (hk : Keeps c cols row brow)
    {v : Val} (hv : Dict.get? row col.name = some v) (hf : VFits opts col v) : ∀ o ∈ outs env opts j col, ∃ x, Dict.get? brow o.name = some x ∧ (mtypeOf o).fits x = true := by
  intro o ho
  have hty : (metaOf (fun _ => env.names) opts j col).type = col.type := by
    unfold metaOf
    cases Dict.get? opts col.name <;> rfl
  have hs : Suits (metaOf (fun _ => env.names) opts j col) v := by
    obtain ⟨v', h1, h2⟩ := hk.vals _ _ hm
    rw [hv] at h1
    injection h1 with h1
    rw [h1]
    exact h2
  cases hx : Dict.get? opts col.name with
  | none =>
    have hp : (metaOf (fun _ => env.names) opts j col).plaintext = true := by simp [metaOf, hx]
    unfold outs at ho
    rw [hx] at ho
    rcases List.mem_singleton.1 ho with rfl
    exact ⟨v.db, hk.holds.plain _ _ _ hv hm hp, plain_type hg hty hs hf⟩
  | some eo =>
    have hp : (metaOf (fun _ => env.names) opts j col).plaintext = false := by simp [metaOf, hx]
    have he : (metaOf (fun _ => env.names) opts j col).encCols = ((ciphers col eo).zipIdx j).map fun e => (e.1, env.names e.2) := by simp [metaOf, hx]
    unfold outs at ho
    rw [hx] at ho
    obtain ⟨e, hem, rfl⟩ := List.mem_map.1 ho
    have hget : Dict.get? (metaOf (fun _ => env.names) opts j col).encCols e.1 = some (env.names e.2) := by
      refine Dict.get?_of_mem_nodup ?_ ?_
      · rw [he, Dict.keys, List.map_map]
        have : (Prod.fst ∘ fun e : String × Nat => (e.1, env.names e.2)) = Prod.fst := rfl
        rw [this, List.zipIdx_map_fst]
        exact ciphers_nodup col eo
      · rw [he]
        exact List.mem_map.2 ⟨e, hem, rfl⟩
    have hmem : e.1 ∈ ciphers col eo := by
      have : e.1 ∈ ((ciphers col eo).zipIdx j).map Prod.fst := List.mem_map.2 ⟨e, hem, rfl⟩
      rwa [List.zipIdx_map_fst] at this
    have hT := cipherType_some ⟨env.names e.2, (cipherType col e.1).1, (cipherType col e.1).2, col.opts.nullable, col.opts.pk && e.1 == "symmetric"⟩ col e.1 rfl rfl
    rw [mtypeOf_eq hT]
    rcases mem_ciphers hmem with ⟨h1, h2⟩ | h1 | ⟨h1, h2⟩
    · cases v with
      | text s => exact absurd (hty.trans h2) hs.1
      | int z =>
        obtain ⟨y, hy, hb⟩ := hk.holds.ope _ _ _ _ hv hm hp (h1 ▸ hget)
        refine ⟨.int y, hb, ?_⟩
        have h64 := (int_length hf).1
        have : c.opeEnc (metaOf (fun _ => env.names) opts j col).key z = .ok z := Ope.C04_fails_ope_is_identity _ _ h64.1 h64.2
        rw [this] at hy
        injection hy with hy
        subst hy
        rw [if_pos h1]
        simp only [MType.fits]
        obtain ⟨h3, h4⟩ := hf
        refine decide_eq_true ⟨?_, ?_⟩ <;> omega
    · obtain ⟨y, hy, hb⟩ := hk.holds.sym _ _ _ _ hv hm hp (h1 ▸ hget)
      refine ⟨.text y, hb, ?_⟩
      rw [if_neg (by rw [h1]; decide), if_neg (by rw [h1]; decide)]
      rw [sym_eq] at hy
      injection hy with hy
      subst hy
      cases v with
      | int z =>
        rw [if_pos (hty.symm.trans hs)]
        refine fits_chars ?_
        rw [String.toList_ofList, String.toList_ofList]
        obtain ⟨x, hx1, hx2⟩ := Aes.C07_width_sufficient_bytes_partial (c.aes (metaOf (fun _ => env.names) opts j col).key) false 20 (Text.intStr z)
          (by rw [Aes.utf8_ascii_length _ (intStr_ascii z)]; exact (int_length hf).2)
        rw [Aes.encrypt_eq] at hx1
        injection hx1 with hx1
        subst hx1
        have : (Aes.typeAndLen false 20).2 = 44 := by decide
        rw [this] at hx2
        exact Nat.le_trans hx2 (by decide)
      | text s =>
        rw [if_neg fun hh => hs.1 (hty.trans hh)]
        refine fits_chars ?_
        rw [String.toList_ofList, String.toList_ofList]
        obtain ⟨x, hx1, hx2⟩ := Aes.C07_width_sufficient_bytes_partial (c.aes (metaOf (fun _ => env.names) opts j col).key) (col.type = "char") col.size s.toList
          (hf.2 eo hx).1
        rw [Aes.encrypt_eq] at hx1
        injection hx1 with hx1
        subst hx1
        exact hx2
    · obtain ⟨y, hy, hb⟩ := hk.holds.fuzzy _ _ _ _ hv hm hp (h1 ▸ hget)
      refine ⟨.text y, hb, ?_⟩
      rw [if_neg (by rw [h1]; decide), if_pos h1]
      refine fits_chars ?_
      unfold Crypto.fuzzy at hy
      cases hz : Fuzzy.fuzzyEncrypt c.alnum (c.aes (metaOf (fun _ => env.names) opts j col).key) (String.ofList v.str).toList with
      | error e => rw [hz] at hy; cases hy
      | ok z =>
        rw [hz] at hy
        injection hy with hy
        subst hy
        rw [String.toList_ofList]
        refine Fuzzy.C51_fuzzy_fits_partial _ hN _ _ _ hz ?_
        rw [String.toList_ofList]
        cases v with
        | int z => exact Nat.le_trans (int_length hf).2 (by decide)
        | text s => exact (hf.2 eo hx).2 h2

/-- A row that fits. -/
theorem row_fits {c : Crypto} (hN : c.alnum '\x00' = false) {env : Table.Env} {opts : Dict String EncOpt} {cols : List Col} (hn : (cols.map Col.name).Nodup)
    (hg : ∀ col ∈ cols, Good opts col) {row : PRow} {brow : Row} (hk : Keeps c (metaAll (fun _ => env.names) opts 0 cols) row brow)
    (hf : ∀ col ∈ cols, ∃ v, Dict.get? row col.name = some v ∧ VFits opts col v) : rowFits ((outsAll env opts 0 cols).map mcol) brow = true := by
  unfold rowFits
  rw [Bool.and_eq_true, List.all_eq_true, List.all_eq_true]
  constructor
  · intro e he
    obtain ⟨n, hn', hb⟩ := hk.only e.1 (List.mem_map.2 ⟨e, he, rfl⟩)
    have : e.1 ∈ (outsAll env opts 0 cols).map Out.name := by
      rw [← targets_all env opts hn]
      exact List.mem_flatMap.2 ⟨n, hn', hb⟩
    obtain ⟨o, ho, hoe⟩ := List.mem_map.1 this
    rw [List.any_eq_true]
    exact ⟨mcol o, List.mem_map.2 ⟨o, ho, rfl⟩, by simp [mcol, hoe]⟩
  · intro mc hmc
    obtain ⟨o, ho, rfl⟩ := List.mem_map.1 hmc
    obtain ⟨col, hc, j, h1, h2⟩ := outsAll_mem env opts (fun _ => env.names) 0 cols o ho
    obtain ⟨v, hv, hvf⟩ := hf col hc
    obtain ⟨x, hx, hxf⟩ := out_fits hN (hg col hc) (metaAll_get hn h2) hk hv hvf o h1
    simp [mcol, hx, hxf]

/-! ### Primary keys -/

theorem val_db_inj {u v : Val} (h : u.db = v.db) : u = v := by
  cases u <;> cases v <;> simp_all [Val.db]

theorem forall₂_pairwise {α β : Type} {R : α → β → Prop} {p : α → α → Prop} {q : β → β → Prop} (h : ∀ a b x y, R a x → R b y → p a b → q x y) :
    ∀ {l : List α} {m : List β}, List.Forall₂ R l m → l.Pairwise p → m.Pairwise q
  | [], [], _, _ => .nil
  | a :: l, x :: m, h2, hp => by
    cases h2 with
    | cons h1 h2 =>
      rw [List.pairwise_cons] at hp ⊢
      refine ⟨?_, forall₂_pairwise h h2 hp.2⟩
      intro y hy
      have : ∃ b ∈ l, R b y := by
        clear hp
        induction h2 with
        | nil => simp at hy
        | @cons b z l m hb _ ih =>
          rcases List.mem_cons.1 hy with rfl | hy
          · exact ⟨b, by simp, hb⟩
          · obtain ⟨b', hb', hr⟩ := ih hy
            exact ⟨b', by simp [hb'], hr⟩
      obtain ⟨b, hb, hr⟩ := this
      exact h _ _ _ _ h1 hr (hp.1 b hb)

theorem str_inj {cm : ColMeta} {u v : Val} (hu : Suits cm u) (hv : Suits cm v) (h : u.str = v.str) : u = v := by
  cases u <;> cases v
  · exact congrArg _ (Text.intStr_inj h)
  · exact absurd hu hv.1
  · exact absurd hv hu.1
  · exact congrArg _ (String.toList_injective h)

theorem str_not_nul {cm : ColMeta} {v : Val} (h : Suits cm v) : ¬ Aes.EndsInNul v.str := by
  cases v with
  | int z => exact intStr_not_nul z
  | text s => exact h.2.2.2

/-- Rows with different values of the column have different values of the key that is written for it. -/
theorem key_differs {c : Crypto} {env : Table.Env} {opts : Dict String EncOpt} {cols : Dict String ColMeta} {col : Col} {j : Nat}
    (hm : Dict.get? cols col.name = some (metaOf (fun _ => env.names) opts j col)) {o : Out} (ho : o ∈ outs env opts j col) (hpk : o.pk = true)
    {row row' : PRow} {brow brow' : Row} (hk : Keeps c cols row brow) (hk' : Keeps c cols row' brow') (hne : Dict.get? row col.name ≠ Dict.get? row' col.name) :
    Dict.get? brow o.name ≠ Dict.get? brow' o.name := by
  obtain ⟨v, hv, hs⟩ := hk.vals _ _ hm
  obtain ⟨v', hv', hs'⟩ := hk'.vals _ _ hm
  rw [hv, hv'] at hne
  cases hx : Dict.get? opts col.name with
  | none =>
    have hp : (metaOf (fun _ => env.names) opts j col).plaintext = true := by simp [metaOf, hx]
    unfold outs at ho
    rw [hx] at ho
    rcases List.mem_singleton.1 ho with rfl
    simp only
    rw [hk.holds.plain _ _ _ hv hm hp, hk'.holds.plain _ _ _ hv' hm hp]
    intro h
    injection h with h
    exact hne (congrArg _ (val_db_inj h))
  | some eo =>
    have hp : (metaOf (fun _ => env.names) opts j col).plaintext = false := by simp [metaOf, hx]
    have he : (metaOf (fun _ => env.names) opts j col).encCols = ((ciphers col eo).zipIdx j).map fun e => (e.1, env.names e.2) := by simp [metaOf, hx]
    unfold outs at ho
    rw [hx] at ho
    obtain ⟨e, hem, rfl⟩ := List.mem_map.1 ho
    have hget : Dict.get? (metaOf (fun _ => env.names) opts j col).encCols e.1 = some (env.names e.2) := by
      refine Dict.get?_of_mem_nodup ?_ ?_
      · rw [he, Dict.keys, List.map_map]
        have : (Prod.fst ∘ fun e : String × Nat => (e.1, env.names e.2)) = Prod.fst := rfl
        rw [this, List.zipIdx_map_fst]
        exact ciphers_nodup col eo
      · rw [he]
        exact List.mem_map.2 ⟨e, hem, rfl⟩
    simp only [Bool.and_eq_true, beq_iff_eq] at hpk
    rw [hpk.2] at hget
    obtain ⟨y, hy, hb⟩ := hk.holds.sym _ _ _ _ hv hm hp hget
    obtain ⟨y', hy', hb'⟩ := hk'.holds.sym _ _ _ _ hv' hm hp hget
    simp only
    rw [hb, hb']
    rw [sym_eq] at hy hy'
    injection hy with hy
    injection hy' with hy'
    subst hy
    subst hy'
    intro h
    injection h with h
    injection h with h
    have h := congrArg String.toList h
    simp only [String.toList_ofList] at h
    exact hne (congrArg _ (str_inj hs hs' ((ct_inj (str_not_nul hs) (str_not_nul hs')).1 h)))

/-- The primary keys differ. -/
theorem rows_keyed {c : Crypto} {env : Table.Env} {opts : Dict String EncOpt} {cols : List Col} (hn : (cols.map Col.name).Nodup) {rows : List PRow} {brows : List Row}
    (hk : List.Forall₂ (Keeps c (metaAll (fun _ => env.names) opts 0 cols)) rows brows)
    (hd : ∀ col ∈ cols, col.opts.pk = true → (rows.map fun row => Dict.get? row col.name).Nodup) : keyed ((outsAll env opts 0 cols).map mcol) brows = true := by
  unfold keyed
  rw [List.all_eq_true]
  intro mc hmc
  obtain ⟨o, ho, rfl⟩ := List.mem_map.1 hmc
  cases hpk : o.pk with
  | false => simp [mcol, hpk]
  | true =>
    obtain ⟨col, hc, j, h1, h2⟩ := outsAll_mem env opts (fun _ => env.names) 0 cols o ho
    have hcp : col.opts.pk = true := by
      unfold outs at h1
      cases hx : Dict.get? opts col.name with
      | none =>
        rw [hx] at h1
        rcases List.mem_singleton.1 h1 with rfl
        exact hpk
      | some eo =>
        rw [hx] at h1
        obtain ⟨e, _, rfl⟩ := List.mem_map.1 h1
        simp only [Bool.and_eq_true] at hpk
        exact hpk.1
    have hp := List.pairwise_map.1 (hd col hc hcp)
    have := forall₂_pairwise (p := fun a b : PRow => Dict.get? a col.name ≠ Dict.get? b col.name) (q := fun x y => Dict.get? x o.name ≠ Dict.get? y o.name)
      (fun a b x y ha hb hab => key_differs (metaAll_get hn h2) h1 hpk ha hb hab) hk hp
    simp only [mcol, hpk, Bool.not_true, Bool.false_or]
    exact decide_eq_true (List.pairwise_map.2 this)

end EulerDB.Create
