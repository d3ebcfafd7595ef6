import Verif.Table.Model
import Verif.Delta.Lemmas
import Mathlib.Data.List.Nodup
import Mathlib.Data.Nat.Basic

/-!
# CREATE TABLE: C21, C22
-/

namespace EulerDB.Table

open EulerDB EulerDB.Delta

/-! ## Vocabulary of the statements -/

/-- The backend columns the metadata records for a logical column. -/
def backendNames (cols : Dict String ColMeta) (n : String) : List String :=
  match Dict.get? cols n with
  | none => []
  | some m => if m.plaintext then [n] else m.encCols.map Prod.snd

/-- The ciphers asked for by the type and the options. -/
def wanted (typeName : String) (o : EncOpt) : List String :=
  (if upper typeName = "INT" ∨ upper typeName = "FLOAT" ∨ upper typeName = "DOUBLE" then ["order-preserving"] else []) ++ ["symmetric"] ++
  (if o.fuzzy then ["fuzzy"] else []) ++ (if o.arithmetic then ["arithmetic"] else []) ++ (if o.sm4 then ["sm4"] else [])

/-- The encrypted column types that can be created: numbers without length, strings with length. -/
def Accepted (t : String) (a : TypeArg) : Prop :=
  ((upper t = "INT" ∨ upper t = "FLOAT" ∨ upper t = "DOUBLE") ∧ a.truthy = false) ∨
  ((upper t = "CHAR" ∨ upper t = "VARCHAR") ∧ a.truthy = true ∧ (t = "char" ∨ t = "varchar" → ∃ n, a = .num n))

/-! ## Lemmas -/

theorem foldl_set_aux (l : List (String × BCol)) (d : Dict String String) (h : (d.map Prod.fst ++ l.map Prod.fst).Nodup) :
    l.foldl (fun d e => Dict.set d e.1 e.2.name) d = d ++ l.map fun e => (e.1, e.2.name) := by
  induction l generalizing d with
  | nil => simp
  | cons e r ih =>
    simp only [List.foldl_cons, List.map_cons]
    have hn : Dict.get? d e.1 = none := by
      rw [Dict.get?_eq_none_iff]
      intro hm
      simp only [List.map_cons] at h
      rw [List.nodup_append] at h
      exact h.2.2 e.1 hm e.1 (by simp) rfl
    rw [Dict.set_of_none _ _ _ hn, ih]
    · simp
    · simpa [List.append_assoc] using h

theorem elemCols_spec {env : Env} {o : EncOpt} {c : ColDef} {i : Nat} {et : Dict String ElemType} {l : List (String × BCol)}
    (h : elemCols env o c i et = .ok l) :
    l.map Prod.fst = et.map Prod.fst ∧ l.map (fun e => e.2.name) = (List.range l.length).map fun k => env.names (i + k) := by
  induction et generalizing i l with
  | nil => simp [elemCols] at h; subst h; simp
  | cons e r ih =>
    obtain ⟨k, v⟩ := e
    simp only [elemCols] at h
    split at h <;> try simp at h
    split at h <;> try simp at h
    split at h <;> try simp at h
    rename_i bs hb
    subst h
    obtain ⟨h1, h2⟩ := ih hb
    refine ⟨by simp [h1], ?_⟩
    simp only [List.map_cons, h2, List.length_cons, List.range_succ_eq_map, List.map_map, Nat.add_zero]
    congr 1
    apply List.map_congr_left
    intro a _
    simp [Nat.add_comm, Nat.add_left_comm]

theorem optCol_spec {env : Env} {o : EncOpt} {c : ColDef} {i : Nat} {on : Bool} {k t : String} {l : List (String × BCol)}
    (h : optCol env o c i on k t = .ok l) :
    l.map Prod.fst = (if on then [k] else []) ∧ l.map (fun e => e.2.name) = (List.range l.length).map fun k => env.names (i + k) := by
  unfold optCol at h
  split at h
  · rename_i hon
    split at h <;> simp at h
    subst h; simp [hon]
  · rename_i hon
    simp at h; subst h; simp [hon]

theorem range_append_names (f : Nat → String) (i a b : Nat) :
    ((List.range a).map fun k => f (i + k)) ++ ((List.range b).map fun k => f (i + a + k)) = (List.range (a + b)).map fun k => f (i + k) := by
  rw [List.range_add, List.map_append, List.map_map]
  congr 1
  apply List.map_congr_left
  intro k _
  simp [Nat.add_assoc]

theorem elementType_keys {t : String} {et : Dict String ElemType} (h : elementType t = some et) :
    et.map Prod.fst = (if t = "INT" ∨ t = "FLOAT" ∨ t = "DOUBLE" then ["order-preserving"] else []) ++ ["symmetric"] := by
  unfold elementType at h
  by_cases h1 : t = "INT"
  · subst h1; simp at h; subst h; rfl
  · rw [if_neg h1] at h
    by_cases h2 : t = "VARCHAR"
    · subst h2; simp at h; subst h; rfl
    · rw [if_neg h2] at h
      by_cases h3 : t = "CHAR"
      · subst h3; simp at h; subst h; rfl
      · rw [if_neg h3] at h
        by_cases h4 : t = "FLOAT"
        · subst h4; simp at h; subst h; rfl
        · rw [if_neg h4] at h
          by_cases h5 : t = "DOUBLE"
          · subst h5; simp at h; subst h; rfl
          · rw [if_neg h5] at h; cases h

theorem cipherCols_spec {env : Env} {o : EncOpt} {c : ColDef} {i : Nat} {l : List (String × BCol)} (h : cipherCols env o c i = .ok l) :
    l.map Prod.fst = wanted c.typeName o ∧ l.map (fun e => e.2.name) = (List.range l.length).map fun k => env.names (i + k) := by
  unfold cipherCols at h
  split at h <;> try simp at h
  rename_i et het
  split at h <;> try simp at h
  rename_i l1 h1
  split at h <;> try simp at h
  rename_i l2 h2
  split at h <;> try simp at h
  rename_i l3 h3
  split at h <;> try simp at h
  rename_i l4 h4
  subst h
  obtain ⟨a1, b1⟩ := elemCols_spec h1
  obtain ⟨a2, b2⟩ := optCol_spec h2
  obtain ⟨a3, b3⟩ := optCol_spec h3
  obtain ⟨a4, b4⟩ := optCol_spec h4
  constructor
  · rw [← List.append_assoc, ← List.append_assoc]
    simp only [List.map_append, a1, a2, a3, a4, elementType_keys het, wanted]
  · rw [← List.append_assoc, ← List.append_assoc]
    simp only [List.map_append, b1, b2, b3, b4, List.length_append]
    rw [range_append_names, Nat.add_assoc i, range_append_names, Nat.add_assoc i, range_append_names]

theorem wanted_nodup (t : String) (o : EncOpt) : (wanted t o).Nodup := by
  unfold wanted
  split <;> split <;> split <;> split <;> decide

/-- What one column contributes. -/
structure ColSpec (env : Env) (opts : Dict String EncOpt) (i : Nat) (c : ColDef) (b : List BCol) (m : ColMeta) (j : Nat) : Prop where
  type : m.type = c.typeName
  comment : m.comment = c.comment
  plain : Dict.get? opts c.name = none → m.plaintext = true ∧ m.key = "" ∧ b.map BCol.name = [c.name] ∧ j = i
  cipher : ∀ o, Dict.get? opts c.name = some o → m.plaintext = false ∧ m.key = o.key ∧ Dict.keys m.encCols = wanted c.typeName o ∧
    m.encCols.map Prod.snd = b.map BCol.name ∧ j = i + b.length ∧ b.map BCol.name = (List.range b.length).map fun k => env.names (i + k)

theorem rewriteCol_spec {env : Env} {opts : Dict String EncOpt} {i : Nat} {c : ColDef} {b : List BCol} {m : ColMeta} {j : Nat}
    (h : rewriteCol env opts i c = .ok (b, m, j)) : ColSpec env opts i c b m j := by
  unfold rewriteCol at h
  split at h
  · rename_i ho
    split at h <;> simp at h
    rename_i bs m' hp
    obtain ⟨rfl, rfl, rfl⟩ := h
    unfold plainCol at hp
    simp only at hp
    split at hp <;> simp at hp
    obtain ⟨rfl, rfl⟩ := hp
    exact ⟨rfl, rfl, fun _ => ⟨rfl, rfl, rfl, rfl⟩, fun o h' => by rw [ho] at h'; cases h'⟩
  · rename_i o ho
    split at h <;> simp at h
    rename_i l hl
    obtain ⟨rfl, rfl, rfl⟩ := h
    obtain ⟨h1, h2⟩ := cipherCols_spec hl
    have hf := foldl_set_aux l [] (by simpa [h1] using wanted_nodup _ _)
    refine ⟨rfl, rfl, (fun h' => by rw [ho] at h'; cases h'), fun o' h' => ?_⟩
    rw [ho] at h'; cases h'
    have e1 : (l.map fun e => (e.1, e.2.name)).map Prod.fst = l.map Prod.fst := by simp
    have e2 : (l.map fun e => (e.1, e.2.name)).map Prod.snd = l.map fun e => e.2.name := by simp
    refine ⟨rfl, rfl, ?_, ?_, by simp, ?_⟩
    · simp only [hf, List.nil_append, Dict.keys, e1, h1]
    · simp only [hf, List.nil_append, e2, List.map_map]; rfl
    · simpa [List.map_map, Function.comp_def] using h2

/-- The loop as a relation: each column with its counter, backend columns and metadata. -/
inductive Run (env : Env) (opts : Dict String EncOpt) : Nat → List ColDef → List (ColDef × List BCol × ColMeta × Nat) → Prop where
  | nil (i) : Run env opts i [] []
  | cons {i c r b m j l} : ColSpec env opts i c b m j → Run env opts j r l → Run env opts i (c :: r) ((c, b, m, i) :: l)

theorem rewriteCols_run {env : Env} {opts : Dict String EncOpt} {i : Nat} {cs : List ColDef} {bs : List BCol} {kv : Dict String ColMeta}
    {bs' : List BCol} {kv' : Dict String ColMeta} (h : rewriteCols env opts i cs bs kv = .ok (bs', kv')) :
    ∃ l, Run env opts i cs l ∧ l.map Prod.fst = cs ∧ bs' = bs ++ l.flatMap (fun e => e.2.1) ∧
      kv' = l.foldl (fun d e => Dict.set d e.1.name e.2.2.1) kv := by
  induction cs generalizing i bs kv with
  | nil => simp [rewriteCols] at h; exact ⟨[], .nil _, rfl, by simp [h.1], by simp [h.2]⟩
  | cons c r ih =>
    simp only [rewriteCols] at h
    split at h <;> try simp at h
    rename_i b m j hc
    obtain ⟨l, h1, h2, h3, h4⟩ := ih h
    exact ⟨(c, b, m, i) :: l, .cons (rewriteCol_spec hc) h1, by simp [h2], by simp [h3], by simp [h4]⟩

theorem foldl_kv (l : List (ColDef × List BCol × ColMeta × Nat)) (d : Dict String ColMeta)
    (h : (d.map Prod.fst ++ l.map fun e => e.1.name).Nodup) :
    l.foldl (fun d e => Dict.set d e.1.name e.2.2.1) d = d ++ l.map fun e => (e.1.name, e.2.2.1) := by
  induction l generalizing d with
  | nil => simp
  | cons e r ih =>
    simp only [List.foldl_cons, List.map_cons]
    have hn : Dict.get? d e.1.name = none := by
      rw [Dict.get?_eq_none_iff]
      intro hm
      simp only [List.map_cons] at h
      rw [List.nodup_append] at h
      exact h.2.2 e.1.name hm e.1.name (by simp) rfl
    rw [Dict.set_of_none _ _ _ hn, ih]
    · simp
    · simpa [List.append_assoc] using h

theorem Run.mem {env : Env} {opts : Dict String EncOpt} {i : Nat} {cs : List ColDef} {l : List (ColDef × List BCol × ColMeta × Nat)}
    (h : Run env opts i cs l) : ∀ e ∈ l, ∃ j, ColSpec env opts e.2.2.2 e.1 e.2.1 e.2.2.1 j := by
  induction h with
  | nil => simp
  | cons hc _ ih =>
    intro e he
    rcases List.mem_cons.1 he with rfl | he
    · exact ⟨_, hc⟩
    · exact ih e he

/-- The whole rewriting as a run. -/
theorem rewriteTable_run {env : Env} {m : Meta ColMeta} {db : String} {opts : Dict String EncOpt} {ct : CreateTable} {r : Rewritten}
    (h : rewriteTable env m db opts ct = .ok r) (hn : (ct.columns.map ColDef.name).Nodup) :
    ∃ l, Run env opts 0 ct.columns l ∧ l.map Prod.fst = ct.columns ∧ r.bcols = l.flatMap (fun e => e.2.1) ∧
      r.meta_.columns = l.map fun e => (e.1.name, e.2.2.1) := by
  unfold rewriteTable at h
  split at h <;> try simp at h
  rename_i bs kv hr
  split at h <;> simp at h
  subst h
  obtain ⟨l, h1, h2, h3, h4⟩ := rewriteCols_run hr
  refine ⟨l, h1, h2, by simpa using h3, ?_⟩
  rw [h4, foldl_kv]
  · simp
  · have : (l.map fun e => e.1.name) = ct.columns.map ColDef.name := by rw [← h2, List.map_map]; rfl
    simpa [this] using hn

/-! ## C21 -/

/-- C21: the metadata lists exactly the declared columns in order. -/
theorem C21_metadata_columns {env : Env} {m : Meta ColMeta} {db : String} {opts : Dict String EncOpt} {ct : CreateTable} {r : Rewritten}
    (h : rewriteTable env m db opts ct = .ok r) (hn : (ct.columns.map ColDef.name).Nodup) :
    Dict.keys r.meta_.columns = ct.columns.map ColDef.name ∧ r.meta_.anonymous = env.anon ∧ r.meta_.comment = ct.comment := by
  obtain ⟨l, _, h2, _, h4⟩ := rewriteTable_run h hn
  refine ⟨?_, ?_⟩
  · rw [Dict.keys, h4, ← h2, List.map_map, List.map_map]; rfl
  · unfold rewriteTable at h
    split at h <;> try simp at h
    split at h <;> simp at h
    subst h; exact ⟨rfl, rfl⟩

/-- C21: each column's recorded type, comment, flag, key and ciphers are the declared ones. -/
theorem C21_metadata_is_declared {env : Env} {m : Meta ColMeta} {db : String} {opts : Dict String EncOpt} {ct : CreateTable} {r : Rewritten}
    (h : rewriteTable env m db opts ct = .ok r) (hn : (ct.columns.map ColDef.name).Nodup) {c : ColDef} (hc : c ∈ ct.columns) :
    ∃ cm, Dict.get? r.meta_.columns c.name = some cm ∧ cm.type = c.typeName ∧ cm.comment = c.comment ∧
      (Dict.get? opts c.name = none → cm.plaintext = true ∧ cm.key = "") ∧
      (∀ o, Dict.get? opts c.name = some o → cm.plaintext = false ∧ cm.key = o.key ∧ Dict.keys cm.encCols = wanted c.typeName o) := by
  obtain ⟨l, h1, h2, _, h4⟩ := rewriteTable_run h hn
  have hk := (C21_metadata_columns h hn).1
  rw [← h2] at hc
  obtain ⟨e, he, rfl⟩ := List.mem_map.1 hc
  obtain ⟨j, hs⟩ := h1.mem e he
  refine ⟨e.2.2.1, ?_, hs.type, hs.comment, fun ho => ⟨(hs.plain ho).1, (hs.plain ho).2.1⟩, fun o ho => ?_⟩
  · apply Dict.get?_of_mem_nodup
    · rw [hk]; exact hn
    · rw [h4]; exact List.mem_map.2 ⟨e, he, rfl⟩
  · obtain ⟨a, b, c, _⟩ := hs.cipher o ho
    exact ⟨a, b, c⟩

/-- C21: the backend table has, in order, the columns the metadata records for the declared columns. -/
theorem C21_backend_columns {env : Env} {m : Meta ColMeta} {db : String} {opts : Dict String EncOpt} {ct : CreateTable} {r : Rewritten}
    (h : rewriteTable env m db opts ct = .ok r) (hn : (ct.columns.map ColDef.name).Nodup) :
    r.bcols.map BCol.name = ct.columns.flatMap fun c => backendNames r.meta_.columns c.name := by
  obtain ⟨l, h1, h2, h3, h4⟩ := rewriteTable_run h hn
  have hk := (C21_metadata_columns h hn).1
  rw [h3, List.map_flatMap, ← h2, List.flatMap_map]
  rw [List.flatMap, List.flatMap]
  congr 1
  apply List.map_congr_left
  intro e he
  obtain ⟨j, hs⟩ := h1.mem e he
  have hg : Dict.get? r.meta_.columns e.1.name = some e.2.2.1 := by
    apply Dict.get?_of_mem_nodup
    · rw [hk]; exact hn
    · rw [h4]; exact List.mem_map.2 ⟨e, he, rfl⟩
  unfold backendNames
  rw [hg]
  cases ho : Dict.get? opts e.1.name with
  | none =>
    obtain ⟨a, _, b, _⟩ := hs.plain ho
    simp [a, b]
  | some o =>
    obtain ⟨a, _, _, b, _⟩ := hs.cipher o ho
    simp [a, b]

/-- C21: the name of an encrypted column is a backend column only if it collides with a random name. -/
theorem C21_encrypted_name_hidden {env : Env} {m : Meta ColMeta} {db : String} {opts : Dict String EncOpt} {ct : CreateTable} {r : Rewritten}
    (h : rewriteTable env m db opts ct = .ok r) (hn : (ct.columns.map ColDef.name).Nodup) {n : String} {o : EncOpt}
    (ho : Dict.get? opts n = some o) (hb : n ∈ r.bcols.map BCol.name) : ∃ i, n = env.names i := by
  obtain ⟨l, h1, h2, h3, _⟩ := rewriteTable_run h hn
  rw [h3, List.map_flatMap, List.mem_flatMap] at hb
  obtain ⟨e, he, hb⟩ := hb
  obtain ⟨j, hs⟩ := h1.mem e he
  cases ho' : Dict.get? opts e.1.name with
  | none =>
    obtain ⟨_, _, b, _⟩ := hs.plain ho'
    rw [b, List.mem_singleton] at hb
    rw [← hb, ho] at ho'; cases ho'
  | some o' =>
    obtain ⟨_, _, _, _, _, b⟩ := hs.cipher o' ho'
    rw [b] at hb
    obtain ⟨k, _, rfl⟩ := List.mem_map.1 hb
    exact ⟨_, rfl⟩

theorem Run.names_ge {env : Env} {opts : Dict String EncOpt} {i : Nat} {cs : List ColDef} {l : List (ColDef × List BCol × ColMeta × Nat)}
    (h : Run env opts i cs l) : ∀ n ∈ l.flatMap (fun e => e.2.1.map BCol.name),
      (∃ k, i ≤ k ∧ n = env.names k) ∨ (n ∈ cs.map ColDef.name ∧ Dict.get? opts n = none) := by
  induction h with
  | nil => simp
  | @cons i c r b m j l hc _ ih =>
    intro n hmem
    simp only [List.flatMap_cons, List.mem_append] at hmem
    have hij : i ≤ j := by
      cases ho : Dict.get? opts c.name with
      | none => have := (hc.plain ho).2.2.2; omega
      | some o => obtain ⟨_, _, _, _, e, _⟩ := hc.cipher o ho; omega
    rcases hmem with hb | hb
    · cases ho : Dict.get? opts c.name with
      | none =>
        rw [(hc.plain ho).2.2.1, List.mem_singleton] at hb
        subst hb; exact .inr ⟨by simp, ho⟩
      | some o =>
        obtain ⟨_, _, _, _, _, e⟩ := hc.cipher o ho
        rw [e] at hb
        obtain ⟨k, _, rfl⟩ := List.mem_map.1 hb
        exact .inl ⟨i + k, by omega, rfl⟩
    · rcases ih n hb with ⟨k, hk, e⟩ | ⟨h1, h2⟩
      · exact .inl ⟨k, by omega, e⟩
      · exact .inr ⟨by simp only [List.map_cons]; exact List.mem_cons_of_mem _ h1, h2⟩

theorem Run.nodup {env : Env} {opts : Dict String EncOpt} {i : Nat} {cs : List ColDef} {l : List (ColDef × List BCol × ColMeta × Nat)}
    (h : Run env opts i cs l) (hn : (cs.map ColDef.name).Nodup) (hinj : ∀ a b, env.names a = env.names b → a = b)
    (hfresh : ∀ c ∈ cs, ∀ k, c.name ≠ env.names k) : (l.flatMap (fun e => e.2.1.map BCol.name)).Nodup := by
  induction h with
  | nil => simp
  | @cons i c r b m j l hc hr ih =>
    simp only [List.flatMap_cons]
    rw [List.nodup_append]
    simp only [List.map_cons, List.nodup_cons] at hn
    refine ⟨?_, ih hn.2 (fun c hc => hfresh c (List.mem_cons_of_mem _ hc)), ?_⟩
    · cases ho : Dict.get? opts c.name with
      | none => rw [(hc.plain ho).2.2.1]; simp
      | some o =>
        obtain ⟨_, _, _, _, _, e⟩ := hc.cipher o ho
        rw [e]
        apply List.Nodup.map_on _ List.nodup_range
        intro a _ b _ hab
        have := hinj _ _ hab; omega
    · intro x hx y hy hxy
      subst hxy
      rcases hr.names_ge x hy with ⟨k, hk, e⟩ | ⟨h1, h2⟩
      · cases ho : Dict.get? opts c.name with
        | none =>
          rw [(hc.plain ho).2.2.1, List.mem_singleton] at hx
          exact hfresh c (by simp) k (by rw [← hx, e])
        | some o =>
          obtain ⟨_, _, _, _, hj, e'⟩ := hc.cipher o ho
          rw [e'] at hx
          obtain ⟨k', hk', e''⟩ := List.mem_map.1 hx
          have := hinj _ _ (e''.trans e)
          have := List.mem_range.1 hk'
          omega
      · cases ho : Dict.get? opts c.name with
        | none =>
          rw [(hc.plain ho).2.2.1, List.mem_singleton] at hx
          exact hn.1 (hx ▸ h1)
        | some o =>
          obtain ⟨_, _, _, _, hj, e'⟩ := hc.cipher o ho
          rw [e'] at hx
          obtain ⟨k', hk', e''⟩ := List.mem_map.1 hx
          obtain ⟨c', hc', rfl⟩ := List.mem_map.1 h1
          exact hfresh c' (List.mem_cons_of_mem _ hc') _ e''.symm

/-- C21: with distinct random names that are not declared names, no two backend columns share a name. -/
theorem C21_backend_names_distinct {env : Env} {m : Meta ColMeta} {db : String} {opts : Dict String EncOpt} {ct : CreateTable} {r : Rewritten}
    (h : rewriteTable env m db opts ct = .ok r) (hn : (ct.columns.map ColDef.name).Nodup)
    (hinj : ∀ a b, env.names a = env.names b → a = b) (hfresh : ∀ c ∈ ct.columns, ∀ k, c.name ≠ env.names k) :
    (r.bcols.map BCol.name).Nodup := by
  obtain ⟨l, h1, _, h3, _⟩ := rewriteTable_run h hn
  rw [h3, List.map_flatMap]
  exact h1.nodup hn hinj hfresh

/-- A table with a plaintext column, an encrypted int with all options and an encrypted string. -/
def demo : CreateTable :=
  { name := "emp", columns := [
      { name := "id", typeName := "int", typeArg := .none, nullable := some false, primaryKey := true },
      { name := "salary", typeName := "int", typeArg := .none },
      { name := "name", typeName := "varchar", typeArg := .num 20, default := none }],
    constraints := [⟨some "pk", some (["id", "name"], none)⟩] }

def demoOpts : Dict String EncOpt :=
  [("salary", ⟨"abcd1234", false, true, some (11, 13), false, ""⟩), ("name", ⟨"k", true, false, none, true, "k4"⟩)]

def demoEnv : Env := ⟨fun i => String.ofList ('r' :: Text.natStr i), "table_0", fun _ _ _ => .error .typeError⟩

example : (match rewriteTable demoEnv [] "db" demoOpts demo with | .ok r => some (r.bcols.map BCol.name) | .error _ => none) =
    some ["id", "r0", "r1", "r2", "r3", "r4", "r5"] := by decide

example : (match rewriteTable demoEnv [] "db" demoOpts demo with | .ok r => some (r.constraints, Dict.get? r.meta_.columns "name") | .error _ => none) =
    some (["CONSTRAINT pk PRIMARY KEY(id,r3)"], some ⟨false, "varchar", "k", [("symmetric", "r3"), ("fuzzy", "r4"), ("sm4", "r5")], none, some "k4", none⟩) := by
  decide

example : (demo.columns.map ColDef.name).Nodup ∧ ∃ r, rewriteTable demoEnv [] "db" demoOpts demo = .ok r := by
  refine ⟨by decide, ?_⟩
  cases h : rewriteTable demoEnv [] "db" demoOpts demo with
  | ok r => exact ⟨r, rfl⟩
  | error e =>
    have : (rewriteTable demoEnv [] "db" demoOpts demo).isOk = true := by decide
    rw [h] at this; cases this

example : ∀ a b, demoEnv.names a = demoEnv.names b → a = b := by
  intro a b h
  have h' := String.ofList_injective h
  exact Text.natStr_inj (List.cons.inj h').2

/-! ## C22 -/

theorem typeArg_natCast_truthy : (TypeArg.num 20).truthy = true := rfl

theorem encColType_fixed (s t : String) (a : TypeArg) : (encColType (.fixed s) t a).isOk = !a.truthy := by
  unfold encColType
  cases a.truthy <;> rfl

theorem encColType_func (t : String) (a : TypeArg) :
    (encColType .func t a).isOk = true ↔ a.truthy = true ∧ (t = "char" ∨ t = "varchar" → ∃ n, a = .num n) := by
  unfold encColType
  cases h : a.truthy with
  | false => simp [Except.isOk, Except.toBool]
  | true =>
    simp only [if_true, true_and]
    unfold getTypeAndLen
    by_cases hc : t = "char" ∨ t = "varchar"
    · rw [if_pos hc]
      cases a with
      | none => simp [TypeArg.truthy] at h
      | num n => simp [Except.isOk, Except.toBool]
      | many ns => simp [Except.isOk, Except.toBool, hc]
    · rw [if_neg hc]
      simp [Except.isOk, Except.toBool, hc]

/-- Without DEFAULT clause the loop over the ciphers of a type succeeds exactly when every column type can be computed. -/
theorem elemCols_isOk {env : Env} {o : EncOpt} {c : ColDef} (hd : c.default = none) (i : Nat) (et : Dict String ElemType) :
    (elemCols env o c i et).isOk = et.all fun e => (encColType e.2 c.typeName c.typeArg).isOk := by
  induction et generalizing i with
  | nil => rfl
  | cons e r ih =>
    obtain ⟨k, v⟩ := e
    simp only [elemCols, List.all_cons, ← ih (i + 1), cipherDefault, hd]
    cases encColType v c.typeName c.typeArg with
    | error e => rfl
    | ok t => cases elemCols env o c (i + 1) r <;> rfl

theorem optCol_noDefault {env : Env} {o : EncOpt} {c : ColDef} (hd : c.default = none) (i : Nat) (on : Bool) (k t : String) :
    ∃ l, optCol env o c i on k t = .ok l := by
  unfold optCol cipherDefault
  rw [hd]
  cases on
  · exact ⟨[], rfl⟩
  · exact ⟨_, rfl⟩

theorem cipherCols_isOk {env : Env} {o : EncOpt} {c : ColDef} (hd : c.default = none) (i : Nat) :
    (cipherCols env o c i).isOk = true ↔ Accepted c.typeName c.typeArg := by
  have key : (cipherCols env o c i).isOk =
      match elementType (upper c.typeName) with
      | none => false
      | some et => et.all fun e => (encColType e.2 c.typeName c.typeArg).isOk := by
    unfold cipherCols
    cases elementType (upper c.typeName) with
    | none => rfl
    | some et =>
      simp only
      rw [← elemCols_isOk (env := env) (o := o) hd i et]
      cases elemCols env o c i et with
      | error e => rfl
      | ok l1 =>
        simp only
        obtain ⟨l2, h2⟩ := optCol_noDefault (env := env) (o := o) hd (i + l1.length) o.fuzzy "fuzzy" "VARCHAR(2000)"
        simp only [h2]
        obtain ⟨l3, h3⟩ := optCol_noDefault (env := env) (o := o) hd (i + l1.length + l2.length) o.arithmetic "arithmetic" "Decimal(65,0)"
        simp only [h3]
        obtain ⟨l4, h4⟩ := optCol_noDefault (env := env) (o := o) hd (i + l1.length + l2.length + l3.length) o.sm4 "sm4" "VARCHAR(2000)"
        simp only [h4]
        rfl
  rw [key]
  unfold Accepted elementType
  have hne : ∀ {a b c : String}, a = b → b ≠ c → a ≠ c := fun h h' => h ▸ h'
  by_cases h1 : upper c.typeName = "INT"
  · simp [h1, encColType_fixed]
  by_cases h2 : upper c.typeName = "VARCHAR"
  · simp only [h2]
    simp [encColType_func]
  by_cases h3 : upper c.typeName = "CHAR"
  · simp only [h3]
    simp [encColType_func]
  by_cases h4 : upper c.typeName = "FLOAT"
  · simp [h4, encColType_fixed]
  by_cases h5 : upper c.typeName = "DOUBLE"
  · simp [h5, encColType_fixed]
  · simp [h1, h2, h3, h4, h5]

/-- A plaintext column is accepted unless its DEFAULT is neither a word nor NULL. -/
theorem plainCol_isOk (c : ColDef) : (plainCol c).isOk = true ↔ c.default ≠ some .otherwise := by
  unfold plainCol plainDefault
  cases c.default with
  | none => simp [Except.isOk, Except.toBool]
  | some d => cases d <;> simp [Except.isOk, Except.toBool]

/-- The condition for one column, no DEFAULT on encrypted columns. -/
def ColOk (opts : Dict String EncOpt) (c : ColDef) : Prop :=
  match Dict.get? opts c.name with
  | none => c.default ≠ some .otherwise
  | some _ => Accepted c.typeName c.typeArg

theorem rewriteCol_isOk {env : Env} {opts : Dict String EncOpt} {i : Nat} {c : ColDef}
    (hd : (Dict.get? opts c.name).isSome → c.default = none) : (rewriteCol env opts i c).isOk = true ↔ ColOk opts c := by
  unfold rewriteCol ColOk
  cases ho : Dict.get? opts c.name with
  | none =>
    simp only
    rw [← plainCol_isOk]
    cases plainCol c <;> rfl
  | some o =>
    simp only
    rw [← cipherCols_isOk (env := env) (o := o) (hd (by simp [ho])) i]
    cases cipherCols env o c i <;> rfl

theorem rewriteCols_isOk {env : Env} {opts : Dict String EncOpt} {i : Nat} {cs : List ColDef} {bs : List BCol} {kv : Dict String ColMeta}
    (hd : ∀ c ∈ cs, (Dict.get? opts c.name).isSome → c.default = none) :
    (rewriteCols env opts i cs bs kv).isOk = true ↔ ∀ c ∈ cs, ColOk opts c := by
  induction cs generalizing i bs kv with
  | nil => simp [rewriteCols, Except.isOk, Except.toBool]
  | cons c r ih =>
    simp only [rewriteCols, List.forall_mem_cons]
    have h1 := rewriteCol_isOk (env := env) (i := i) (hd c (by simp))
    cases hc : rewriteCol env opts i c with
    | error e =>
      rw [hc] at h1
      simp only [Except.isOk, Except.toBool] at h1 ⊢
      constructor
      · intro h; cases h
      · intro h; exact h1.2 h.1
    | ok x =>
      rw [hc] at h1
      have h1' : ColOk opts c := h1.1 rfl
      rw [ih fun c hc => hd c (List.mem_cons_of_mem _ hc)]
      exact ⟨fun h => ⟨h1', h⟩, fun h => h.2⟩

/-- C22: without table constraints and without DEFAULT on encrypted columns, CREATE TABLE is accepted exactly when every encrypted column
has an accepted type (and no plaintext column has a quoted or numeric DEFAULT). -/
theorem C22_accepts_exactly (env : Env) (m : Meta ColMeta) (db : String) (opts : Dict String EncOpt) (ct : CreateTable)
    (hc : ct.constraints = []) (hd : ∀ c ∈ ct.columns, (Dict.get? opts c.name).isSome → c.default = none) :
    (rewriteTable env m db opts ct).isOk = true ↔ ∀ c ∈ ct.columns, ColOk opts c := by
  rw [← rewriteCols_isOk (env := env) (i := 0) (bs := []) (kv := []) hd]
  unfold rewriteTable
  rw [hc]
  cases rewriteCols env opts 0 ct.columns [] [] <;> rfl

/-- The documented types are accepted ones. -/
theorem accepted_documented : Accepted "int" .none ∧ Accepted "float" .none ∧ Accepted "double" .none ∧
    (∀ n, n ≠ 0 → Accepted "char" (.num n)) ∧ (∀ n, n ≠ 0 → Accepted "varchar" (.num n)) := by
  refine ⟨.inl ⟨.inl (by decide), rfl⟩, .inl ⟨.inr (.inl (by decide)), rfl⟩, .inl ⟨.inr (.inr (by decide)), rfl⟩,
    fun n h => .inr ⟨.inl (by decide), by simpa [TypeArg.truthy] using h, fun _ => ⟨n, rfl⟩⟩,
    fun n h => .inr ⟨.inr (by decide), by simpa [TypeArg.truthy] using h, fun _ => ⟨n, rfl⟩⟩⟩

/-- C22: a table whose encrypted columns have documented types and no DEFAULT is created, with PRIMARY KEY constraints over declared columns. -/
theorem C22_documented_types_accepted (env : Env) (m : Meta ColMeta) (db : String) (opts : Dict String EncOpt) (ct : CreateTable)
    (hn : (ct.columns.map ColDef.name).Nodup)
    (hcols : ∀ c ∈ ct.columns, match Dict.get? opts c.name with
      | none => c.default ≠ some .otherwise
      | some _ => c.default = none ∧ ((c.typeName ∈ ["int", "float", "double"] ∧ c.typeArg = .none) ∨
          (c.typeName ∈ ["char", "varchar"] ∧ ∃ n, n ≠ 0 ∧ c.typeArg = .num n)))
    (hkeys : ∀ k ∈ ct.constraints, ∃ cols, k.key = some (cols, none) ∧ ∀ n ∈ cols, n ∈ ct.columns.map ColDef.name) :
    ∃ r, rewriteTable env m db opts ct = .ok r := by
  have hok : (rewriteCols env opts 0 ct.columns [] []).isOk = true := by
    rw [rewriteCols_isOk]
    · intro c hc
      have := hcols c hc
      unfold ColOk
      cases ho : Dict.get? opts c.name with
      | none => rw [ho] at this; exact this
      | some o =>
        rw [ho] at this
        obtain ⟨a1, a2, a3, a4, a5⟩ := accepted_documented
        rcases this with ⟨_, ⟨h1, h2⟩ | ⟨h1, n, h3, h2⟩⟩
        · simp only [List.mem_cons, List.not_mem_nil, or_false] at h1
          rcases h1 with h1 | h1 | h1 <;> rw [h1, h2] <;> assumption
        · simp only [List.mem_cons, List.not_mem_nil, or_false] at h1
          rcases h1 with h1 | h1 <;> rw [h1, h2]
          · exact a4 n h3
          · exact a5 n h3
    · intro c hc ho
      have := hcols c hc
      cases ho' : Dict.get? opts c.name with
      | none => simp [ho'] at ho
      | some o => rw [ho'] at this; exact this.1
  cases hr : rewriteCols env opts 0 ct.columns [] [] with
  | error e => rw [hr] at hok; cases hok
  | ok x =>
    obtain ⟨bs, kv⟩ := x
    -- the metadata built so far, as if there were no constraints
    obtain ⟨txt, hr0⟩ : ∃ txt, rewriteTable env m db opts { ct with constraints := [] } = .ok ⟨bs, [], txt, ⟨env.anon, kv, ct.comment⟩⟩ := by
      unfold rewriteTable
      simp only [hr, constraintKeys]
      exact ⟨_, rfl⟩
    have hdecl : ∀ n ∈ ct.columns.map ColDef.name, ∃ cm, Dict.get? kv n = some cm ∧ (cm.plaintext = true ∨ ∃ s, Dict.getItem cm.encCols "symmetric" = .ok s) := by
      intro n hmem
      obtain ⟨c, hc, rfl⟩ := List.mem_map.1 hmem
      obtain ⟨cm, h1, _, _, h2, h3⟩ := C21_metadata_is_declared hr0 hn hc
      refine ⟨cm, h1, ?_⟩
      cases ho : Dict.get? opts c.name with
      | none => exact .inl (h2 ho).1
      | some o =>
        refine .inr ?_
        have hk := (h3 o ho).2.2
        unfold Dict.getItem
        cases hg : Dict.get? cm.encCols "symmetric" with
        | some v => exact ⟨v, rfl⟩
        | none =>
          rw [Dict.get?_eq_none_iff] at hg
          exact absurd (by show "symmetric" ∈ Dict.keys cm.encCols; rw [hk]; unfold wanted; simp) hg
    have henc : ∀ cols : List String, (∀ n ∈ cols, n ∈ ct.columns.map ColDef.name) → ∃ l, getEncColumns kv "symmetric" cols = .ok l := by
      intro cols
      induction cols with
      | nil => intro _; exact ⟨[], rfl⟩
      | cons n r ih =>
        intro h
        obtain ⟨cm, h1, h2⟩ := hdecl n (h n (by simp))
        obtain ⟨l, hl⟩ := ih fun x hx => h x (List.mem_cons_of_mem _ hx)
        simp only [getEncColumns, h1, hl]
        cases hp : cm.plaintext with
        | true => exact ⟨_, rfl⟩
        | false =>
          rcases h2 with h2 | ⟨s, h2⟩
          · rw [hp] at h2; cases h2
          · simp only [h2]; exact ⟨_, rfl⟩
    have hcon : ∀ ks : List Constraint, (∀ k ∈ ks, ∃ cols, k.key = some (cols, none) ∧ ∀ n ∈ cols, n ∈ ct.columns.map ColDef.name) →
        ∃ l, constraintKeys m db kv ks = .ok l := by
      intro ks
      induction ks with
      | nil => intro _; exact ⟨[], rfl⟩
      | cons k r ih =>
        intro h
        obtain ⟨cols, h1, h2⟩ := h k (by simp)
        obtain ⟨l, hl⟩ := ih fun x hx => h x (List.mem_cons_of_mem _ hx)
        obtain ⟨l', hl'⟩ := henc cols h2
        simp only [constraintKeys, constraintKey, h1, hl, hl']
        exact ⟨_, rfl⟩
    obtain ⟨cs, hcs⟩ := hcon ct.constraints hkeys
    exact ⟨_, by unfold rewriteTable; simp only [hr, hcs]; rfl⟩

/-- C22: any other encrypted column makes CREATE TABLE raise, whatever the rest of the table, and the metadata stay as they were. -/
theorem C22_other_types_rejected (env : Env) (s : State ColMeta) (db : String) (opts : Dict String EncOpt) (ct : CreateTable)
    {c : ColDef} {o : EncOpt} (hc : c ∈ ct.columns) (ho : Dict.get? opts c.name = some o) (hna : ¬ Accepted c.typeName c.typeArg) :
    (createTable env s db opts ct).1 = s ∧ ∃ e, (createTable env s db opts ct).2 = .error e := by
  have hcol : ∀ i, ∃ e, rewriteCol env opts i c = .error e := by
    intro i
    have hb : ∀ d : ColDef, d.typeName = c.typeName → d.typeArg = c.typeArg → ∃ e, cipherCols env o d i = .error e := by
      intro d h1 h2
      cases hr : cipherCols env o d i with
      | error e => exact ⟨e, rfl⟩
      | ok l =>
        exfalso
        apply hna
        -- the same column without its DEFAULT succeeds too
        have hok : (cipherCols env o { d with default := none } i).isOk = true := by
          unfold cipherCols at hr ⊢
          cases het : elementType (upper d.typeName) with
          | none => rw [het] at hr; simp at hr
          | some et =>
            rw [het] at hr
            simp only at hr ⊢
            have hel : ∀ (et : Dict String ElemType) (i : Nat) (l1), elemCols env o d i et = .ok l1 →
                (elemCols env o { d with default := none } i et).isOk = true := by
              intro et
              induction et with
              | nil => intro _ _ _; rfl
              | cons e r ih =>
                obtain ⟨k, v⟩ := e
                intro i l1 h
                simp only [elemCols] at h ⊢
                cases ht : encColType v d.typeName d.typeArg with
                | error e => rw [ht] at h; cases h
                | ok t =>
                  rw [ht] at h
                  simp only at h ⊢
                  cases hdf : cipherDefault env "symmetric" o d with
                  | error e => rw [hdf] at h; cases h
                  | ok dd =>
                    rw [hdf] at h
                    simp only at h
                    cases hrr : elemCols env o d (i + 1) r with
                    | error e => rw [hrr] at h; cases h
                    | ok bs =>
                      have := ih (i + 1) bs hrr
                      simp only [cipherDefault]
                      cases hr2 : elemCols env o { d with default := none } (i + 1) r with
                      | error e => rw [hr2] at this; cases this
                      | ok _ => rfl
            cases h1 : elemCols env o d i et with
            | error e => rw [h1] at hr; cases hr
            | ok l1 =>
              have hx := hel et i l1 h1
              cases h1' : elemCols env o { d with default := none } i et with
              | error e => rw [h1'] at hx; cases hx
              | ok l1' =>
                simp only
                obtain ⟨l2, h2⟩ := optCol_noDefault (env := env) (o := o) (c := { d with default := none }) rfl (i + l1'.length) o.fuzzy "fuzzy" "VARCHAR(2000)"
                simp only [h2]
                obtain ⟨l3, h3⟩ := optCol_noDefault (env := env) (o := o) (c := { d with default := none }) rfl (i + l1'.length + l2.length) o.arithmetic "arithmetic" "Decimal(65,0)"
                simp only [h3]
                obtain ⟨l4, h4⟩ := optCol_noDefault (env := env) (o := o) (c := { d with default := none }) rfl (i + l1'.length + l2.length + l3.length) o.sm4 "sm4" "VARCHAR(2000)"
                simp only [h4]
                rfl
        have := (cipherCols_isOk (env := env) (o := o) (c := { d with default := none }) rfl i).1 hok
        simpa [h1, h2] using this
    obtain ⟨e, he⟩ := hb c rfl rfl
    exact ⟨e, by unfold rewriteCol; rw [ho]; simp only [he]⟩
  have hall : ∀ (cs : List ColDef) (i : Nat) (bs : List BCol) (kv : Dict String ColMeta), c ∈ cs →
      ∃ e, rewriteCols env opts i cs bs kv = .error e := by
    intro cs
    induction cs with
    | nil => intro _ _ _ h; cases h
    | cons d r ih =>
      intro i bs kv h
      simp only [rewriteCols]
      rcases List.mem_cons.1 h with rfl | h
      · obtain ⟨e, he⟩ := hcol i
        rw [he]; exact ⟨e, rfl⟩
      · cases rewriteCol env opts i d with
        | error e => exact ⟨e, rfl⟩
        | ok x => exact ih _ _ _ h
  obtain ⟨e, he⟩ := hall ct.columns 0 [] [] hc
  unfold createTable rewriteTable
  rw [he]
  exact ⟨rfl, e, rfl⟩

/-- C22: an encrypted column with a DEFAULT that the cipher cannot take is also refused without a trace: a table is recorded only when the
statement text was produced. -/
theorem C22_recorded_iff_rewritten (env : Env) (s : State ColMeta) (db : String) (opts : Dict String EncOpt) (ct : CreateTable) :
    (∃ e, (createTable env s db opts ct).2 = .error e ∧ (createTable env s db opts ct).1 = s) ∨
    (∃ r, rewriteTable env s.meta db opts ct = .ok r ∧ (createTable env s db opts ct).2 = .ok r.text ∧
      find (createTable env s db opts ct).1.meta db ct.name = some r.meta_) := by
  unfold createTable
  cases h : rewriteTable env s.meta db opts ct with
  | error e => exact .inl ⟨e, rfl, rfl⟩
  | ok r => exact .inr ⟨r, rfl, rfl, by simp only [find_updateDelta, and_self, if_true]⟩

/-- The hypotheses of `C22_documented_types_accepted` hold of the demo table. -/
example : (∀ c ∈ demo.columns, (Dict.get? demoOpts c.name).isSome → c.default = none) ∧
    (∀ k ∈ demo.constraints, ∃ cols, k.key = some (cols, none) ∧ ∀ n ∈ cols, n ∈ demo.columns.map ColDef.name) := by
  refine ⟨by decide, ?_⟩
  intro k hk
  simp only [demo, List.mem_singleton] at hk
  subst hk
  exact ⟨_, rfl, by decide⟩

/-- `salary int(11)` and `name text` cannot be encrypted. -/
example : ¬ Accepted "int" (.num 11) ∧ ¬ Accepted "text" .none ∧ ¬ Accepted "varchar" .none := by
  refine ⟨?_, ?_, ?_⟩ <;> rintro (⟨h, h'⟩ | ⟨h, h', _⟩) <;> revert h h' <;> decide

/-- A plaintext `price decimal(10,2)` is sent as the Python list: `decimal([10, 2])`. -/
example : (match plainCol { name := "price", typeName := "decimal", typeArg := .many [10, 2] } with | .ok (bs, _) => some (bs.map BCol.text) | .error _ => none) =
    some ["price decimal([10, 2])"] := by decide

/-! ## C31 in CREATE TABLE -/

/-- Each name in a key list is replaced by itself if plaintext and by its own symmetric column if encrypted. -/
theorem getEncColumns_spec {info : Dict String ColMeta} {cipher : String} {cols out : List String} (h : getEncColumns info cipher cols = .ok out) :
    List.Forall₂ (fun c x => ∃ m, Dict.get? info c = some m ∧
      ((m.plaintext = true ∧ x = c) ∨ (m.plaintext = false ∧ Dict.get? m.encCols cipher = some x))) cols out := by
  induction cols generalizing out with
  | nil => simp [getEncColumns] at h; subst h; exact .nil
  | cons c r ih =>
    simp only [getEncColumns] at h
    split at h <;> try simp at h
    rename_i x hx
    split at h <;> simp at h
    rename_i xs hxs
    subst h
    refine .cons ?_ (ih hxs)
    cases hg : Dict.get? info c with
    | none => rw [hg] at hx; simp at hx
    | some m =>
      rw [hg] at hx
      refine ⟨m, rfl, ?_⟩
      simp only at hx
      split at hx
      · rename_i hp; simp at hx; exact .inl ⟨hp, hx.symm⟩
      · rename_i hp
        refine .inr ⟨by simpa using hp, ?_⟩
        unfold Dict.getItem at hx
        split at hx <;> simp at hx
        rename_i v hv
        rw [hv, hx]

/-- C31: a PRIMARY/FOREIGN KEY constraint names the table's own columns and the referenced table's own backend table and columns. -/
theorem C31_key_constraint_own_names {m : Meta ColMeta} {db : String} {kv : Dict String ColMeta} {c : Constraint} {s : String}
    (h : constraintKey m db kv c = .ok s) : ∃ cols ref cs,
      c.key = some (cols, ref) ∧
      List.Forall₂ (fun n x => ∃ cm, Dict.get? kv n = some cm ∧
        ((cm.plaintext = true ∧ x = n) ∨ (cm.plaintext = false ∧ Dict.get? cm.encCols "symmetric" = some x))) cols cs ∧
      ((ref = none ∧ s = (match c.name with | some n => "CONSTRAINT " ++ n ++ " " | none => "") ++ "PRIMARY KEY" ++ "(" ++ String.intercalate "," cs ++ ")" ++ "") ∨
       (∃ r tm rs, ref = some r ∧ find m db r.table = some tm ∧
        List.Forall₂ (fun n x => ∃ cm, Dict.get? tm.columns n = some cm ∧
          ((cm.plaintext = true ∧ x = n) ∨ (cm.plaintext = false ∧ Dict.get? cm.encCols "symmetric" = some x))) r.columns rs ∧
        s = (match c.name with | some n => "CONSTRAINT " ++ n ++ " " | none => "") ++ "FOREIGN KEY" ++ "(" ++ String.intercalate "," cs ++ ")" ++
          (" REFERENCES " ++ tm.anonymous ++ "(" ++ String.intercalate "," rs ++ ")"))) := by
  unfold constraintKey at h
  simp only at h
  split at h <;> try simp at h
  rename_i cols ref hk
  split at h <;> try simp at h
  rename_i ph hph
  split at h <;> try simp at h
  rename_i cs hcs
  refine ⟨cols, ref, cs, hk, getEncColumns_spec hcs, ?_⟩
  cases ref with
  | none =>
    simp at hph; subst hph
    exact .inl ⟨rfl, by rw [← h]; cases c.name <;> rfl⟩
  | some r =>
    simp only at hph
    unfold referencePhrase at hph
    split at hph <;> try simp at hph
    rename_i tm htm
    split at hph <;> simp at hph
    rename_i rs hrs
    exact .inr ⟨r, tm, rs, rfl, htm, getEncColumns_spec hrs, by rw [← h, ← hph]; cases c.name <;> rfl⟩

/-- A foreign key to the demo table, whose `name` column is encrypted. -/
example : (match rewriteTable demoEnv [] "db" demoOpts demo with
    | .ok r => (match constraintKey [("db", [("emp", r.meta_)])] "db" [("boss", ⟨true, "int", "", [], none, none, none⟩)]
        ⟨none, some (["boss"], some ⟨"emp", ["name"]⟩)⟩ with | .ok s => some s | .error _ => none)
    | .error _ => none) = some "FOREIGN KEY(boss) REFERENCES table_0(r3)" := by decide

theorem elemCols_rest {env : Env} {o : EncOpt} {c : ColDef} {i : Nat} {et : Dict String ElemType} {l : List (String × BCol)}
    (h : elemCols env o c i et = .ok l) : ∀ e ∈ l, ∃ d, cipherDefault env "symmetric" o c = .ok d ∧
      e.2.rest = nullText c ++ (if e.1 = "symmetric" then pkText c else "") ++ d := by
  induction et generalizing i l with
  | nil => simp [elemCols] at h; subst h; simp
  | cons e r ih =>
    obtain ⟨k, v⟩ := e
    simp only [elemCols] at h
    split at h <;> try simp at h
    split at h <;> try simp at h
    rename_i d hd
    split at h <;> try simp at h
    rename_i bs hb
    subst h
    intro e he
    rcases List.mem_cons.1 he with rfl | he
    · exact ⟨d, hd, rfl⟩
    · exact ih hb e he

theorem optCol_rest {env : Env} {o : EncOpt} {c : ColDef} {i : Nat} {on : Bool} {k t : String} {l : List (String × BCol)}
    (h : optCol env o c i on k t = .ok l) : ∀ e ∈ l, e.1 = k ∧ ∃ d, cipherDefault env k o c = .ok d ∧ e.2.rest = nullText c ++ d := by
  unfold optCol at h
  split at h
  · split at h
    · cases h
    · rename_i d hd
      cases h
      intro e he
      simp only [List.mem_singleton] at he
      subst he
      exact ⟨rfl, d, hd, rfl⟩
  · cases h
    simp

/-- **C21: constraints of an encrypted column.** Each of its cipher columns keeps NULL / NOT NULL, and PRIMARY KEY goes to the symmetric column and to no
other. -/
theorem C21_primary_key_column {env : Env} {o : EncOpt} {c : ColDef} {i : Nat} {l : List (String × BCol)} (h : cipherCols env o c i = .ok l) :
    ∀ e ∈ l, ∃ d, e.2.rest = nullText c ++ (if e.1 = "symmetric" then pkText c else "") ++ d ∧
      ∃ k, cipherDefault env k o c = .ok d := by
  unfold cipherCols at h
  split at h
  · cases h
  split at h
  · cases h
  rename_i l1 h1
  split at h
  · cases h
  rename_i l2 h2
  split at h
  · cases h
  rename_i l3 h3
  split at h
  · cases h
  rename_i l4 h4
  cases h
  intro e he
  simp only [List.mem_append] at he
  rcases he with ((he | he) | he) | he
  · obtain ⟨d, hd, hr⟩ := elemCols_rest h1 e he
    exact ⟨d, hr, _, hd⟩
  · obtain ⟨hk, d, hd, hr⟩ := optCol_rest h2 e he
    exact ⟨d, by simp [hk, hr], _, hd⟩
  · obtain ⟨hk, d, hd, hr⟩ := optCol_rest h3 e he
    exact ⟨d, by simp [hk, hr], _, hd⟩
  · obtain ⟨hk, d, hd, hr⟩ := optCol_rest h4 e he
    exact ⟨d, by simp [hk, hr], _, hd⟩

end EulerDB.Table
