/-
Spelled CREATE TABLE statements, and how the proxy reads them (C84).
-/
import Verif.Create.Model

namespace EulerDB.Create

open EulerDB EulerDB.Sql EulerDB.Table

/-! ### Spelling -/

/-- What follows a column: a gap and a comma or the closing parenthesis. -/
def Stops (u : List Char) : Prop := ∃ g c r, Gap g ∧ (c = ',' ∨ c = ')') ∧ u = g ++ c :: r

/-- The options of a column, in any order, none twice. -/
inductive SpOpts : Opts → Opts → List Char → List Char → Prop
  | done {o : Opts} {s : List Char} : Stops s → SpOpts o o s s
  | notNull {o o' : Opts} {s s1 s2 u : List Char} : o.nullable = none → Kw "not" s s1 → Kw "null" s1 s2 →
      SpOpts { o with nullable := some false } o' s2 u → SpOpts o o' s u
  | null {o o' : Opts} {s s1 u : List Char} : o.nullable = none → Kw "null" s s1 → SpOpts { o with nullable := some true } o' s1 u → SpOpts o o' s u
  | unique {o o' : Opts} {s s1 u : List Char} : o.unique = false → Kw "unique" s s1 → SpOpts { o with unique := true } o' s1 u → SpOpts o o' s u
  | auto {o o' : Opts} {s s1 u : List Char} : o.auto = false → Kw "auto_increment" s s1 → SpOpts { o with auto := true } o' s1 u → SpOpts o o' s u
  | pk {o o' : Opts} {s s1 s2 u : List Char} : o.pk = false → Kw "primary" s s1 → Kw "key" s1 s2 → SpOpts { o with pk := true } o' s2 u → SpOpts o o' s u

/-- A type with or without a size.  Without one, no parenthesis follows the word; neither UNSIGNED nor (after DOUBLE) PRECISION follows. -/
inductive SpType : String → TypeArg → List Char → List Char → Prop
  | bare {w : String} {sized uns : Bool} {s u : List Char} : (w, sized, uns) ∈ types → Kw w s u → (skipWhite u).head? ≠ some '(' →
      kwsTail ["unsigned"] u = none → (w = "double" → kwsTail ["precision"] u = none) → SpType w .none s u
  | sized {w : String} {uns : Bool} {s h1 h2 h3 ds u : List Char} : (w, true, uns) ∈ types → Kw w s (h1 ++ '(' :: (h2 ++ (ds ++ (h3 ++ ')' :: u)))) →
      (∀ c ∈ h1 ++ h2 ++ h3, white c = true) → ds ≠ [] → (∀ c ∈ ds, c.isDigit = true) → kwsTail ["unsigned"] u = none →
      SpType w (.num (natOf 0 ds)) s u

/-- `name type options`. -/
inductive SpColumn : Col → List Char → List Char → Prop
  | mk {n s s1 s2 u : List Char} {w : String} {a : TypeArg} {o : Opts} : Nm reservedWords n s s1 → SpType w a s1 s2 → SpOpts {} o s2 u →
      SpColumn ⟨strOf n, w, a, false, o⟩ s u

/-- The columns up to the closing parenthesis. -/
inductive SpColumns : List Col → List Char → List Char → Prop
  | one {c : Col} {s g u : List Char} : SpColumn c s (g ++ ')' :: u) → Gap g → SpColumns [c] s u
  | cons {c : Col} {cs : List Col} {s g u v : List Char} : SpColumn c s (g ++ ',' :: u) → Gap g → SpColumns cs u v → SpColumns (c :: cs) s v

/-- `IF NOT EXISTS`, or nothing. -/
inductive SpIf : List Char → List Char → Prop
  | given {s s1 s2 s3 : List Char} : Kw "if" s s1 → Kw "not" s1 s2 → Kw "exists" s2 s3 → SpIf s s3
  | absent {s : List Char} : SpIf s s

/-- `CREATE TABLE [IF NOT EXISTS] name (columns)`. -/
inductive SpCreate : List Char → List Char → List Col → Prop
  | mk {s s1 s2 s3 s4 g e n : List Char} {cols : List Col} : Kw "create" s s1 → Kw "table" s1 s2 → SpIf s2 s3 → Nm ("if" :: reservedWords) n s3 (g ++ '(' :: s4) →
      Gap g → SpColumns cols s4 e → Ending e → SpCreate s n cols

/-! ### Reading -/

theorem Kw.lt {w : String} {t u : List Char} (h : Kw w t u) (hne : w.toList ≠ []) : u.length < t.length := by
  obtain ⟨g, k, _, hk, _, rfl⟩ := h
  have := List.length_pos_iff.2 (ne_nil_of hk hne)
  simp; omega

theorem Kw.none_of {w v : String} {t u : List Char} (h : Kw w t u) (hw : Wordy w.toList) (hne : w.toList ≠ []) (hv : Wordy v.toList)
    (hd : w.toList ≠ v.toList) : kw v t = none := by
  obtain ⟨g, k, hg, hk, hb, rfl⟩ := h
  rw [((first_word (wordy_of hk hw) (ne_nil_of hk hne) hb).gap hg).kw hv, if_neg]
  intro hx
  exact hd (hk.symm.trans hx)

theorem Stops.first {u : List Char} (h : Stops u) : ∃ r, First u [] r := by
  obtain ⟨g, c, r, hg, hc, rfl⟩ := h
  refine ⟨c :: r, (first_char ?_ ?_ r).gap hg⟩ <;> rcases hc with rfl | rfl <;> decide

theorem Stops.kw {u : List Char} (h : Stops u) {w : String} (hw : Wordy w.toList) (hne : w.toList ≠ []) : kw w u = none := by
  obtain ⟨r, hf⟩ := h.first
  rw [hf.kw hw, if_neg]
  exact fun hx => hne hx.symm

theorem options_read {o o' : Opts} {s u : List Char} (h : SpOpts o o' s u) : ∀ n, s.length ≤ n → options n o s = .ok o' u := by
  induction h with
  | @done o s hs =>
    intro n _
    cases n with
    | zero => rfl
    | succ n =>
      rw [options, hs.kw (w := "not") (by decide) (by decide), hs.kw (w := "null") (by decide) (by decide), hs.kw (w := "unique") (by decide) (by decide),
        hs.kw (w := "auto_increment") (by decide) (by decide), hs.kw (w := "primary") (by decide) (by decide)]
      have : anyKw otherOptions s = false := by
        obtain ⟨r, hf⟩ := hs.first
        rw [hf.anyKw (by decide)]
        decide
      simp [this]
  | @notNull o o' s s1 s2 u ho h1 h2 _ ih =>
    intro n hn
    have := Kw.lt h1 (by decide)
    have := Kw.lt h2 (by decide)
    obtain ⟨n, rfl⟩ : ∃ k, n = k + 1 := ⟨n - 1, by omega⟩
    rw [options, h1.read (by decide) (by decide), Option.bind_some, h2.read (by decide) (by decide)]
    simp [ho, ih n (by omega)]
  | @null o o' s s1 u ho h1 _ ih =>
    intro n hn
    have := Kw.lt h1 (by decide)
    obtain ⟨n, rfl⟩ : ∃ k, n = k + 1 := ⟨n - 1, by omega⟩
    rw [options, Kw.none_of h1 (by decide) (by decide) (v := "not") (by decide) (by decide), h1.read (by decide) (by decide)]
    simp [ho, ih n (by omega)]
  | @unique o o' s s1 u ho h1 _ ih =>
    intro n hn
    have := Kw.lt h1 (by decide)
    obtain ⟨n, rfl⟩ : ∃ k, n = k + 1 := ⟨n - 1, by omega⟩
    rw [options, Kw.none_of h1 (by decide) (by decide) (v := "not") (by decide) (by decide),
      Kw.none_of h1 (by decide) (by decide) (v := "null") (by decide) (by decide), h1.read (by decide) (by decide)]
    simp [ho, ih n (by omega)]
  | @auto o o' s s1 u ho h1 _ ih =>
    intro n hn
    have := Kw.lt h1 (by decide)
    obtain ⟨n, rfl⟩ : ∃ k, n = k + 1 := ⟨n - 1, by omega⟩
    rw [options, Kw.none_of h1 (by decide) (by decide) (v := "not") (by decide) (by decide),
      Kw.none_of h1 (by decide) (by decide) (v := "null") (by decide) (by decide),
      Kw.none_of h1 (by decide) (by decide) (v := "unique") (by decide) (by decide), h1.read (by decide) (by decide)]
    simp [ho, ih n (by omega)]
  | @pk o o' s s1 s2 u ho h1 h2 _ ih =>
    intro n hn
    have := Kw.lt h1 (by decide)
    have := Kw.lt h2 (by decide)
    obtain ⟨n, rfl⟩ : ∃ k, n = k + 1 := ⟨n - 1, by omega⟩
    rw [options, Kw.none_of h1 (by decide) (by decide) (v := "not") (by decide) (by decide),
      Kw.none_of h1 (by decide) (by decide) (v := "null") (by decide) (by decide),
      Kw.none_of h1 (by decide) (by decide) (v := "unique") (by decide) (by decide),
      Kw.none_of h1 (by decide) (by decide) (v := "auto_increment") (by decide) (by decide), h1.read (by decide) (by decide), Option.bind_some,
      h2.read (by decide) (by decide)]
    simp [ho, ih n (by omega)]

theorem types_wordy : ∀ t ∈ types, Wordy t.1.toList ∧ t.1.toList ≠ [] := by decide

theorem types_inj : ∀ t ∈ types, ∀ t' ∈ types, t.1.toList = t'.1.toList → t = t' := by decide

/-- The type is found by its word. -/
theorem find_type {t : String × Bool × Bool} (ht : t ∈ types) {s u : List Char} (h : Kw t.1 s u) : types.find? (fun t => (kw t.1 s).isSome) = some t := by
  have hne : types.find? (fun t => (kw t.1 s).isSome) ≠ none := by
    intro hn
    have := List.find?_eq_none.1 hn t ht
    rw [h.read (types_wordy t ht).1 (types_wordy t ht).2] at this
    simp at this
  obtain ⟨t', ht'⟩ := Option.ne_none_iff_exists'.1 hne
  rw [ht']
  congr 1
  have h1 := List.find?_some ht'
  have h2 := List.mem_of_find?_eq_some ht'
  by_contra hx
  rw [Kw.none_of h (types_wordy t ht).1 (types_wordy t ht).2 (types_wordy t' h2).1 fun he => hx (types_inj _ h2 _ ht he.symm)] at h1
  simp at h1

theorem skipWhite_app {h : List Char} (hh : ∀ c ∈ h, white c = true) (r : List Char) : skipWhite (h ++ r) = skipWhite r := by
  induction h with
  | nil => rfl
  | cons c h ih =>
    rw [List.cons_append, skipWhite, List.dropWhile_cons, if_pos (hh c (by simp))]
    exact ih fun x hx => hh x (by simp [hx])

theorem size_none {u : List Char} (h : (skipWhite u).head? ≠ some '(') : size u = .ok .none u := by
  unfold size
  cases hs : skipWhite u with
  | nil => rfl
  | cons c r =>
    have : c ≠ '(' := by rintro rfl; simp [hs] at h
    simp [litAt, this]

theorem size_read {h1 h2 h3 ds u : List Char} (hh : ∀ c ∈ h1 ++ h2 ++ h3, white c = true) (hne : ds ≠ []) (hd : ∀ c ∈ ds, c.isDigit = true) :
    size (h1 ++ '(' :: (h2 ++ (ds ++ (h3 ++ ')' :: u)))) = .ok (.num (natOf 0 ds)) u := by
  have e1 : skipWhite (h1 ++ '(' :: (h2 ++ (ds ++ (h3 ++ ')' :: u)))) = '(' :: (h2 ++ (ds ++ (h3 ++ ')' :: u))) := by
    rw [skipWhite_app fun c hc => hh c (by simp [hc])]; rfl
  have e2 : skipWhite (h2 ++ (ds ++ (h3 ++ ')' :: u))) = ds ++ (h3 ++ ')' :: u) := by
    rw [skipWhite_app fun c hc => hh c (by simp [hc])]
    cases ds with
    | nil => exact absurd rfl hne
    | cons c ds =>
      have : white c = false := by
        cases hw : white c with
        | false => rfl
        | true =>
          exfalso
          have hc := hd c (by simp)
          simp only [white, Bool.or_eq_true, beq_iff_eq] at hw
          rcases hw with ((rfl | rfl) | rfl) | rfl <;> revert hc <;> decide
      simp [skipWhite, this]
  have e3 : digits (ds ++ (h3 ++ ')' :: u)) = (ds, h3 ++ ')' :: u) := by
    refine digits_read _ _ hd fun c hc => ?_
    cases h3 with
    | nil => simp at hc; subst hc; decide
    | cons x h3 =>
      have : c = x := by simpa [eq_comm] using hc
      subst this
      have hw := hh c (by simp)
      simp only [white, Bool.or_eq_true, beq_iff_eq] at hw
      rcases hw with ((rfl | rfl) | rfl) | rfl <;> decide
  have e4 : (intExp (h3 ++ ')' :: u)).1 = none := by
    cases h3 with
    | nil => rfl
    | cons x h3 =>
      have hw := hh x (by simp)
      simp only [white, Bool.or_eq_true, beq_iff_eq] at hw
      rcases hw with ((rfl | rfl) | rfl) | rfl <;> simp [intExp]
  have e5 : skipWhite (h3 ++ ')' :: u) = ')' :: u := by
    rw [skipWhite_app fun c hc => hh c (by simp [hc])]; rfl
  obtain ⟨d, ds', rfl⟩ := List.exists_cons_of_ne_nil hne
  simp only [size, e1, e2, e3, e4, e5, litAt, if_true]

theorem typeAt_read {w : String} {a : TypeArg} {s u : List Char} (h : SpType w a s u) : typeAt s = .ok (w, a, false) u := by
  cases h with
  | @bare sized uns _ _ hm hk h1 h2 h3 =>
    have hf := find_type hm hk
    have hr := hk.read (types_wordy _ hm).1 (types_wordy _ hm).2
    have hp : ¬ (w = "double" ∧ (kwsTail ["precision"] u).isSome = true) := fun ⟨a, b⟩ => by rw [h3 a] at b; cases b
    have e : (if sized = true then size u else R.ok TypeArg.none u) = .ok .none u := by
      cases sized
      · rfl
      · exact size_none h1
    simp only [typeAt, hf, hr, if_neg hp, e, h2, ite_self]
  | @sized uns _ h1 h2 h3 ds _ hm hk hh hne hd hu =>
    have hf := find_type hm hk
    have hr := hk.read (types_wordy _ hm).1 (types_wordy _ hm).2
    have hp : w ≠ "double" := by
      rintro rfl
      revert hm
      cases uns <;> decide
    simp only [typeAt, hf, hr, hp, false_and, if_false, if_true, size_read hh hne hd, hu, ite_self]

theorem column_read {c : Col} {s u : List Char} (h : SpColumn c s u) : column s = .ok c u := by
  cases h with
  | mk h1 h2 h3 =>
    rw [column, h1.read fun _ h => h]
    simp only [typeAt_read h2, options_read h3 _ (Nat.le_refl _)]

theorem SpOpts.length {o o' : Opts} {s u : List Char} (h : SpOpts o o' s u) : u.length ≤ s.length := by
  induction h with
  | done => exact Nat.le_refl _
  | notNull _ h1 h2 _ ih => exact Nat.le_trans ih (Nat.le_trans h2.length h1.length)
  | null _ h1 _ ih => exact Nat.le_trans ih h1.length
  | unique _ h1 _ ih => exact Nat.le_trans ih h1.length
  | auto _ h1 _ ih => exact Nat.le_trans ih h1.length
  | pk _ h1 h2 _ ih => exact Nat.le_trans ih (Nat.le_trans h2.length h1.length)

theorem SpType.length {w : String} {a : TypeArg} {s u : List Char} (h : SpType w a s u) : u.length ≤ s.length := by
  cases h with
  | bare hm h => exact h.length
  | sized _ h => have := h.length; simp at this; omega

theorem SpColumn.length {c : Col} {s u : List Char} (h : SpColumn c s u) : u.length ≤ s.length := by
  cases h with
  | mk h1 h2 h3 => exact Nat.le_trans h3.length (Nat.le_trans h2.length h1.length)

theorem SpColumns.ne {cs : List Col} {s u : List Char} (h : SpColumns cs s u) : cs ≠ [] := by cases h <;> simp

/-- The columns are read one after the other. -/
theorem columns_read {cs : List Col} {s u : List Char} (h : SpColumns cs s u) : ∃ c l r r', cs = c :: l ∧ column s = .ok c r ∧
    (∀ n, r.length ≤ n → moreOf column n r = .ok l r') ∧ lit ")" r' = some u := by
  induction h with
  | @one c s g u h hg =>
    refine ⟨c, [], _, _, rfl, column_read h, fun n _ => ?_, lit_close hg⟩
    cases n with
    | zero => rfl
    | succ n => rw [moreOf, comma_close hg]
  | @cons c cs s g u v h hg _ ih =>
    obtain ⟨c', l, r, r', rfl, h1, h2, h3⟩ := ih
    refine ⟨c, c' :: l, _, r', rfl, column_read h, fun n hn => ?_, h3⟩
    obtain ⟨n, rfl⟩ : ∃ k, n = k + 1 := ⟨n - 1, by simp at hn; omega⟩
    have hl : lit "," (g ++ ',' :: u) = some u := lit_char "," rfl (by decide) hg
    rw [moreOf, hl]
    simp only [h1]
    have hlen : r.length ≤ n := by
      have : r.length ≤ u.length := by
        rename_i hsp
        cases hsp with
        | one h' _ =>
          have h'' := column_read h'
          rw [h1] at h''
          injection h'' with _ h''
          rw [h'']
          exact h'.length
        | cons h' _ _ =>
          have h'' := column_read h'
          rw [h1] at h''
          injection h'' with _ h''
          rw [h'']
          exact h'.length
      simp at hn
      omega
    rw [h2 n hlen]

theorem SpIf.read {s u n v : List Char} (h : SpIf s u) (hn : Nm ("if" :: reservedWords) n u v) : ifNotExists s = u := by
  cases h with
  | given h1 h2 h3 =>
    rw [ifNotExists, h1.read (by decide) (by decide), Option.bind_some, h2.read (by decide) (by decide), Option.bind_some, h3.read (by decide) (by decide)]
  | absent =>
    obtain ⟨g, k, hg, hk, hp, hd, rfl⟩ := hn
    have : kw "if" (g ++ (k ++ v)) = none := by
      exact ((begins_name hk (ws := ["if"]) (by decide) hp).gap hg).kw (by decide) (by decide)
    rw [ifNotExists, this]
    rfl

/-- **C84, partial: a CREATE TABLE is read as the table and the columns that it spells.** -/
theorem C84_read_partial (space : Char → Bool) {sql s n : List Char} {cols : List Col} (ht : Trimmed space sql s) (h : SpCreate s n cols) :
    parseCreate space sql = some (strOf n, cols) := by
  cases h with
  | @mk s1 s2 s3 s4 g e n cols h1 h2 h3 h4 hg h5 he =>
    obtain ⟨c, l, r, r', hcs, hc, hm, hr⟩ := columns_read h5
    have hb : anyKw ["or", "temporary"] s1 = false := h2.other (by decide) (by decide) (by decide)
    have htail : anyKw tailWords e = false := by
      rw [(first_nil he.skip).anyKw (by decide)]
      decide
    rw [parseCreate, ht.strip, createStmt, h1.read (by decide) (by decide)]
    simp only [hb, Bool.false_eq_true, if_false]
    rw [h2.read (by decide) (by decide)]
    simp only
    rw [h3.read h4, h4.read fun w hw => by simp [hw]]
    simp only [elements]
    rw [lit_char "(" (c := '(') rfl (by decide) hg]
    simp only [listOf, hc, hm r.length (Nat.le_refl _), hr, htail, Bool.false_eq_true, if_false, atEnd, he.skip, decide_true, if_true, hcs]

end EulerDB.Create
