import Verif.Rotation.Model

/-!
# C48: what a rotation leaves behind
-/

namespace EulerDB.Rotation

open EulerDB

variable {τ : Type}

/-! ### Rotation never completes -/

/-- The entry of a table as the loop makes it: the name of the table on the server comes first. -/
def Headed (t : Dict Name Entry) : Prop := ∃ s r, t = (anonymous, .text s) :: r

theorem headed_set {t : Dict Name Entry} (h : Headed t) (v : Entry) : Headed (Dict.set t columns v) := by
  obtain ⟨s, r, rfl⟩ := h
  exact ⟨s, Dict.set r columns v, by rw [Dict.set, if_neg (by decide)]⟩

theorem headed_missing (t : Dict Name Entry) (a : Name) (h : t = [] ∨ Headed t) : Headed (setMissing t anonymous (.text a)) := by
  rcases h with rfl | ⟨s, r, rfl⟩
  · exact ⟨a, [], rfl⟩
  · refine ⟨s, r, ?_⟩
    simp [setMissing, Dict.get?_cons]

theorem headed_loadTable {t t' : Dict Name Entry} {row : MetaRow} (h : t = [] ∨ Headed t) (hl : loadTable t row = .ok t') : Headed t' := by
  have h1 := headed_missing t row.anon h
  have h2 : Headed (setMissing (setMissing t anonymous (.text row.anon)) columns (.cols [])) := by
    generalize setMissing t anonymous (.text row.anon) = t1 at h1
    unfold setMissing
    split
    · exact headed_set h1 _
    · exact h1
  simp only [loadTable] at hl
  split at hl
  · cases hl
  · split at hl
    · cases hl
      exact headed_set h2 _
    · cases hl

/-- Every table of the metadata is as the loop makes it. -/
def AllHeaded (m : Meta) : Prop := ∀ db d, Dict.get? m db = some d → ∀ tb t, Dict.get? d tb = some t → Headed t

theorem loadRow_headed {m m' : Meta} {row : MetaRow} (h : AllHeaded m) (hl : loadRow m row = .ok m') : AllHeaded m' := by
  simp only [loadRow] at hl
  split at hl
  · cases hl
  · rename_i t' ht
    cases hl
    have hd : ∀ tb t, Dict.get? ((Dict.get? m row.db).getD []) tb = some t → Headed t := by
      intro tb t hg
      cases hm : Dict.get? m row.db with
      | none => rw [hm] at hg; simp at hg
      | some d => rw [hm] at hg; exact h row.db d hm tb t hg
    have ht' : Headed t' := by
      refine headed_loadTable ?_ ht
      cases hg : Dict.get? ((Dict.get? m row.db).getD []) row.table with
      | none => exact Or.inl rfl
      | some t => exact Or.inr (hd row.table t hg)
    intro db d hg tb t hgt
    rw [Dict.get?_set] at hg
    split at hg
    · cases hg
      rw [Dict.get?_set] at hgt
      split at hgt
      · cases hgt; exact ht'
      · exact hd tb t hgt
    · exact h db d hg tb t hgt

theorem load_headed : ∀ {rows : List MetaRow} {m m' : Meta}, AllHeaded m → load m rows = .ok m' → AllHeaded m' := by
  intro rows
  induction rows with
  | nil => intro m m' h hl; cases hl; exact h
  | cons r rs ih =>
    intro m m' h hl
    simp only [load] at hl
    split at hl
    · cases hl
    · rename_i m1 h1
      exact ih (loadRow_headed h h1) hl

theorem getItem_some {α : Type} {d : Dict Name α} {k : Name} {v : α} (h : Dict.getItem d k = .ok v) : Dict.get? d k = some v := by
  unfold Dict.getItem at h
  split at h
  · cases h; assumption
  · cases h

/-- **C48: the last step always raises** when there is metadata: the loop looks up a name in a text. -/
theorem C48_fails_update (dumps : Name → Value → Except PyErr Name) (rows : List MetaRow) (db table feature : Name) (newKey : Value) (h : rows ≠ []) :
    ∃ er, updateProxy dumps rows db table feature newKey = .error er := by
  cases rows with
  | nil => exact absurd rfl h
  | cons r rs =>
    simp only [updateProxy]
    split
    · exact ⟨_, rfl⟩
    · rename_i m hm
      split
      · exact ⟨_, rfl⟩
      · rename_i t ht
        have hh : Headed t := by
          simp only [tableOf] at ht
          split at ht
          · cases ht
          · rename_i d hd
            exact load_headed (m := []) (by intro db d h; simp at h) hm db d (getItem_some hd) table t (getItem_some ht)
        split
        · exact ⟨_, rfl⟩
        · split
          · exact ⟨_, rfl⟩
          · rename_i d _ _ c _
            obtain ⟨s, r', hs⟩ := headed_set hh (.cols (Dict.set d feature (Dict.set c keyName newKey)))
            exact ⟨.typeError, by rw [hs]; rfl⟩

theorem leave_meta (e : Env τ) (w : World τ) (t : τ) : (leave e w t).metaRows = w.metaRows ∧ (leave e w t).added = w.added := ⟨rfl, rfl⟩

theorem getLastD_mem {α : Type} (l : List α) (d : α) : l.getLastD d = d ∨ l.getLastD d ∈ l := by
  cases l with
  | nil => exact Or.inl rfl
  | cons a r => exact Or.inr (by rw [List.getLastD_cons, List.getLastD_eq_getLast?]; cases h : r.getLast? with
      | none => simp
      | some b => simp [List.mem_of_getLast? h])

/-- Without metadata for the database nothing is touched: the run ends with the unpacking of an empty dict. -/
theorem C48_no_metadata (e : Env τ) (w : World τ) (db table feature : Name) (cipher) (hr : e.raw = .ok cipher) (hw : w.metaRows = []) :
    rotate e w db table feature = ([w], .error .valueError) := by
  simp [rotate, hr, hw, getKeyInfo]

/-- **C48 fails: no rotation ever completes**, whatever the data, the keys and the server. -/
theorem C48_fails_never_completes (e : Env τ) (w : World τ) (db table feature : Name) : ∃ er, (rotate e w db table feature).2 = .error er := by
  simp only [rotate]
  split
  · exact ⟨_, rfl⟩
  · split
    · exact ⟨_, rfl⟩
    · exact ⟨_, rfl⟩
    · rename_i key col anon hk
      have hne : w.metaRows ≠ [] := by
        intro h0
        rw [h0] at hk
        simp [getKeyInfo] at hk
      split
      · exact ⟨_, rfl⟩
      · rename_i t1 _
        split
        · exact ⟨_, rfl⟩
        · split
          · exact ⟨_, rfl⟩
          · rename_i enc _
            simp only [uploadAndFinish]
            split
            · exact ⟨_, rfl⟩
            · have hl : (((upload e (e.showTable anon) (e.showCol col) enc (leave e w t1).table).1.map (leave e (leave e w t1))).getLastD (leave e w t1)).metaRows ≠ [] := by
                rcases getLastD_mem ((upload e (e.showTable anon) (e.showCol col) enc (leave e w t1).table).1.map (leave e (leave e w t1))) (leave e w t1) with h | h
                · rw [h]; exact hne
                · obtain ⟨t, _, ht⟩ := List.mem_map.1 h
                  rw [← ht]; exact hne
              obtain ⟨er, he⟩ := C48_fails_update e.dumps _ db table feature e.newKey hl
              exact ⟨er, by simp only [finish, he]⟩

/-! ### What an interruption leaves -/

/-- Whatever holds of the start, and still holds after a change to the table, holds of all states of a run. -/
theorem states_ind (e : Env τ) (w : World τ) (db table feature : Name) (P : World τ → Prop) (h0 : P w) (hstep : ∀ w1 t, P w1 → P (leave e w1 t)) :
    ∀ w' ∈ (rotate e w db table feature).1, P w' := by
  have one : ∀ w' ∈ [w], P w' := by simpa using h0
  have two : ∀ t, ∀ w' ∈ [w, leave e w t], P w' := by
    intro t w' hw'
    simp only [List.mem_cons, List.not_mem_nil, or_false] at hw'
    rcases hw' with rfl | rfl
    · exact h0
    · exact hstep _ _ h0
  simp only [rotate]
  split
  · exact one
  · split
    · exact one
    · exact one
    · rename_i key col anon hk
      have hne : w.metaRows ≠ [] := by
        intro h0
        rw [h0] at hk
        simp [getKeyInfo] at hk
      split
      · exact one
      · rename_i t1 _
        split
        · exact two t1
        · split
          · exact two t1
          · rename_i enc _
            generalize upload e (e.showTable anon) (e.showCol col) enc (leave e w t1).table = u
            have hmap : ∀ w' ∈ u.1.map (leave e (leave e w t1)), P w' ∧ w'.metaRows = w.metaRows := by
              intro w' hw'
              obtain ⟨t, _, ht⟩ := List.mem_map.1 hw'
              rw [← ht]; exact ⟨hstep _ _ (hstep _ _ h0), rfl⟩
            have hlast : P ((u.1.map (leave e (leave e w t1))).getLastD (leave e w t1)) ∧
                ((u.1.map (leave e (leave e w t1))).getLastD (leave e w t1)).metaRows = w.metaRows := by
              rcases getLastD_mem (u.1.map (leave e (leave e w t1))) (leave e w t1) with h | h
              · rw [h]; exact ⟨hstep _ _ h0, rfl⟩
              · exact hmap _ h
            simp only [uploadAndFinish]
            split
            · intro w' hw'
              simp only [List.mem_cons] at hw'
              rcases hw' with rfl | rfl | h
              · exact h0
              · exact hstep _ _ h0
              · exact (hmap _ h).1
            · have hne' : ((u.1.map (leave e (leave e w t1))).getLastD (leave e w t1)).metaRows ≠ [] := by rw [hlast.2]; exact hne
              obtain ⟨er, he⟩ := C48_fails_update e.dumps _ db table feature e.newKey hne'
              have hf : (finish e ((u.1.map (leave e (leave e w t1))).getLastD (leave e w t1)) db table feature).1 =
                  [(u.1.map (leave e (leave e w t1))).getLastD (leave e w t1)] := by
                unfold finish; rw [he]
              intro w' hw'
              rw [hf] at hw'
              simp only [List.mem_append, List.mem_cons, List.cons_append, List.not_mem_nil, or_false] at hw'
              rcases hw' with rfl | rfl | h | rfl
              · exact h0
              · exact hstep _ _ h0
              · exact (hmap _ h).1
              · exact hlast.1

/-- **C48: all states of a run have the metadata of the start**, and nothing is ever added to it: the recorded key is always the old one. -/
theorem C48_metadata_kept (e : Env τ) (w : World τ) (db table feature : Name) :
    ∀ w' ∈ (rotate e w db table feature).1, w'.metaRows = w.metaRows ∧ w'.added = w.added :=
  states_ind e w db table feature (fun w' => w'.metaRows = w.metaRows ∧ w'.added = w.added) ⟨rfl, rfl⟩ fun _ _ h => h

/-- **C48: an interruption loses nothing** where changes need a commit: no step of the rotation commits any. -/
theorem C48_no_loss_partial (e : Env τ) (w : World τ) (db table feature : Name) (hd : e.durable = false) :
    ∀ w' ∈ (rotate e w db table feature).1, w' = w :=
  states_ind e w db table feature (fun w' => w' = w) rfl fun w1 t h => by
    subst h
    simp [leave, hd]

/-- The statement that is to blank the column has no value: it ends in `= ;`. -/
theorem C48_drop_text (table feature : List Char) : ∃ a, dropSql table feature = a ++ ['=', ' ', ';'] :=
  ⟨"UPDATE ".toList ++ table ++ " SET ".toList ++ feature ++ [' '], by
    have h1 : " = ".toList = [' ', '=', ' '] := rfl
    have h2 : ";".toList = [';'] := rfl
    unfold dropSql
    rw [h1, h2, List.append_assoc, List.append_assoc _ [' ']]
    rfl⟩

/-- **C48: an interruption loses nothing** on a server that rejects a statement that ends in `= ;`, be changes durable or not. -/
theorem C48_rejected_partial (e : Env τ) (w : World τ) (db table feature : Name) (hrej : ∀ a t, ∃ er, e.exec (a ++ ['=', ' ', ';']) t = .error er) :
    (rotate e w db table feature).1 = [w] := by
  simp only [rotate]
  split
  · rfl
  · split
    · rfl
    · rfl
    · rename_i key col anon _
      obtain ⟨a, ha⟩ := C48_drop_text (e.showTable anon) (e.showCol col)
      obtain ⟨er, her⟩ := hrej a w.table
      rw [ha, her]

/-- **C48 fails on a table without transactions**, if the server takes the statement: an interruption leaves the blanked column. -/
theorem C48_fails_durable (e : Env τ) (w : World τ) (db table feature : Name) (cipher : Option (List Name)) (key : Name) (col : Column) (anon : Entry) (blank : τ)
    (hd : e.durable = true) (hraw : e.raw = .ok cipher) (hk : getKeyInfo w.metaRows db table feature = .ok (some (key, col, anon)))
    (hx : e.exec (dropSql (e.showTable anon) (e.showCol col)) w.table = .ok blank) :
    ∃ w' ∈ (rotate e w db table feature).1, w'.table = blank := by
  refine ⟨leave e w blank, ?_, by simp [leave, hd]⟩
  simp only [rotate, hraw, hk, hx]
  split
  · simp
  · split
    · simp
    · simp only [uploadAndFinish]
      split <;> simp

/-- **C48 fails: the column cannot be decrypted** unless there is nothing to decrypt, since the function for it is local and is not sent to the workers. -/
theorem C48_fails_decrypt (e : Env τ) (key c : Name) (l : List Name) (hs : e.sendable = false) : decryptData e key (some (c :: l)) = .error .attributeError := by
  simp [decryptData, hs]

/-- Without a file there is nothing to decrypt either: the run fails after the column has been blanked. -/
theorem C48_fails_no_file (e : Env τ) (key : Name) : decryptData e key none = .error .typeError := rfl

/-! ### What the steps do to the values -/

theorem mapE_spec {α β : Type} {f : α → Except PyErr β} : ∀ {l : List α} {out : List β}, mapE f l = .ok out → List.Forall₂ (fun a b => f a = .ok b) l out := by
  intro l
  induction l with
  | nil => intro out h; cases h; exact .nil
  | cons a r ih =>
    intro out h
    simp only [mapE] at h
    split at h
    · cases h
    · rename_i b hb
      split at h
      · cases h
      · rename_i l' hl
        cases h
        exact .cons hb (ih hl)

/-- **C48: the steps 15 and 16 keep the values**: what they make decrypts under the new key to what the old key gives. -/
theorem C48_values_partial (e : Env τ) (key : Name) (newDec : Name → Except PyErr Name) (f : Name → Except PyErr Name) (hf : e.newEnc = some f)
    (hround : ∀ m c, f m = .ok c → newDec c = .ok m) (cipher raw out : List Name) (h1 : decryptData e key (some cipher) = .ok raw)
    (h2 : encryptData e raw = .ok out) : List.Forall₂ (fun c c' => ∃ m, e.dec key c = .ok m ∧ newDec c' = .ok m) cipher out := by
  have h1' : mapE (e.dec key) cipher = .ok raw := by
    simp only [decryptData] at h1
    split at h1
    · exact h1
    · cases h1
  have a := mapE_spec h1'
  have b := mapE_spec h2
  rw [hf] at b
  clear h1 h1' h2
  induction a generalizing out with
  | nil => cases b; exact .nil
  | cons hx _ ih =>
    cases b with
    | cons hy hr => exact .cons ⟨_, hx, hround _ _ hy⟩ (ih _ hr)

/-! ### A case that meets the hypotheses -/

def demoCols : Dict Name Column := [(['f'], [(keyName, .text ['k'])])]

def demoRows : List MetaRow := [⟨['d'], ['t'], ['T'], some demoCols⟩]

/-- A server that takes every statement; the table is the list of the statements it has run. -/
def demoEnv : Env (List (List Char)) where
  exec := fun s t => .ok (t ++ [s])
  durable := true
  showCol := fun _ => ['f']
  showTable := fun _ => ['T']
  dumps := fun _ _ => .ok []
  dec := fun _ c => .ok c
  sendable := true
  raw := .ok (some [['x']])
  newEnc := some fun m => .ok ('n' :: m)
  newKey := .other

/-- The old column is gone, the new one is in the table, the metadata still names the old key, and the run has failed. -/
example : rotate demoEnv ⟨[], demoRows, []⟩ ['d'] ['t'] ['f'] =
    ([⟨[], demoRows, []⟩, ⟨[dropSql ['T'] ['f']], demoRows, []⟩, ⟨[dropSql ['T'] ['f'], insertSql ['T'] ['f'] ['n', 'x']], demoRows, []⟩,
      ⟨[dropSql ['T'] ['f'], insertSql ['T'] ['f'] ['n', 'x']], demoRows, []⟩], .error .typeError) := rfl

example : ∃ w' ∈ (rotate demoEnv ⟨[], demoRows, []⟩ ['d'] ['t'] ['f']).1, w'.table = [dropSql ['T'] ['f']] :=
  C48_fails_durable demoEnv _ ['d'] ['t'] ['f'] (some [['x']]) ['k'] [(keyName, .text ['k'])] (.text ['T']) _ rfl rfl rfl rfl

end EulerDB.Rotation
