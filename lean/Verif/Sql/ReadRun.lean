/-
What the parser makes of spelled operators, runs and expressions.
-/
import Verif.Sql.ReadExpr

namespace EulerDB.Sql

open EulerDB EulerDB.Parse

/-! ### Operands with prefixes -/

section
variable {env : Env} {ex : List Char → R V} {Ex : Edge → List Char → V → Prop}

theorem SpAtom.prefixes {d : Edge} {t : List Char} {v : V} (h : SpAtom env Ex d t v) {g r : List Char} (hg : Gap g) (hr : Stop d r) (n : Nat) :
    prefixes n (g ++ (t ++ r)) = ([], g ++ (t ++ r)) := by
  cases n with
  | zero => rfl
  | succ n =>
    have hb := (h.begins hr).gap hg
    obtain ⟨c, t', rfl, hc⟩ := h.head
    have hs : skip (g ++ (c :: t' ++ r)) = c :: (t' ++ r) := by rw [hg.skip]; exact skip_solid (startChar_solid hc) _
    rw [Sql.prefixes, lit_ne "-" (d := '-') (l := []) rfl hs (startChar_ne hc (by decide)),
      lit_ne "~" (d := '~') (l := []) rfl hs (startChar_ne hc (by decide)), hb.kw (by decide) (by decide)]

/-- The characters that would make a longer operator of the one before. -/
def joiners : List Char := ['=', '>', '|', '*']

theorem gap_head_ne {g : List Char} (h : Gap g) {c : Char} (hc : g.head? = some c) : c ∉ joiners := by
  have := (h.head hc).2
  rcases this with rfl | ⟨_, h⟩
  · decide
  · simp only [List.mem_cons, List.not_mem_nil, or_false] at h
    rcases h with rfl | rfl | rfl | rfl | rfl | rfl <;> decide

theorem key_notJoin {c : Char} (h : keyChar c = true) : c ∉ joiners := by
  simp only [joiners, List.mem_cons, List.not_mem_nil, or_false]
  rintro (rfl | rfl | rfl | rfl) <;> exact absurd h (by decide)

theorem gap_cons_head {g t : List Char} (hg : Gap g) {c : Char} {t' : List Char} (ht : t = c :: t') (hc : c ∉ joiners) :
    ∃ x u, g ++ t = x :: u ∧ x ∉ joiners := by
  cases g with
  | nil => exact ⟨c, t', by simp [ht], hc⟩
  | cons x g => exact ⟨x, g ++ t, rfl, gap_head_ne hg rfl⟩

theorem start_notJoin {c : Char} (h : startChar c = true) : c ∉ joiners := by
  simp only [joiners, List.mem_cons, List.not_mem_nil, or_false]
  rintro (rfl | rfl | rfl | rfl) <;> exact absurd h (by decide)

theorem SpOperand.head {d : Edge} {t : List Char} {m : List F} (h : SpOperand env Ex d t m) : ∃ x u, t = x :: u ∧ x ∉ joiners := by
  cases h with
  | atom hg ht =>
    obtain ⟨c, t', rfl, hc⟩ := ht.head
    exact gap_cons_head hg rfl (start_notJoin hc)
  | neg hg => exact gap_cons_head hg rfl (by decide)
  | bnot hg => exact gap_cons_head hg rfl (by decide)
  | @knot g w u m hg hw =>
    obtain ⟨c, w', rfl⟩ := List.exists_cons_of_ne_nil (ne_nil_of hw (by decide))
    rw [List.append_assoc]
    exact gap_cons_head hg rfl (key_notJoin (wordy_of hw (by decide) c (by simp)))

theorem SpOperand.modified (hG : Good ex Ex) {d : Edge} {t : List Char} {m : List F} (h : SpOperand env Ex d t m) {r : List Char} (hr : Stop d r) :
    ∀ n, t.length ≤ n → ∃ ps s' v, Sql.prefixes n (t ++ r) = (ps, s') ∧ Sql.atom env ex s' = .ok v r ∧ m = ps.map F.pre ++ [.val v] := by
  induction h with
  | @atom g t v hg ht =>
    intro n _
    refine ⟨[], g ++ (t ++ r), v, ?_, ht.read hG hg hr, rfl⟩
    rw [List.append_assoc]; exact ht.prefixes hg hr n
  | @neg g u m hg hu hop ih =>
    intro n hn
    simp only [List.length_append, List.length_cons] at hn
    obtain ⟨n, rfl⟩ : ∃ j, n = j + 1 := ⟨n - 1, by omega⟩
    obtain ⟨ps, s', v, h1, h2, h3⟩ := ih n (by omega)
    have e : g ++ '-' :: u ++ r = g ++ '-' :: (u ++ r) := by simp
    refine ⟨.neg :: ps, s', v, ?_, h2, by rw [h3]; rfl⟩
    have hne : (u ++ r).head? ≠ some '-' := by
      obtain ⟨x, u', rfl, _⟩ := hop.head
      simpa using hu
    have hl : lit "-" (g ++ '-' :: (u ++ r)) = some (u ++ r) := by
      rw [lit_one "-" rfl (c := '-') (r := u ++ r) (by rw [hg.skip]; exact skip_dash hne)]; rfl
    rw [e, Sql.prefixes, hl]
    simp only [h1]
  | @bnot g u m hg _ ih =>
    intro n hn
    simp only [List.length_append, List.length_cons] at hn
    obtain ⟨n, rfl⟩ : ∃ j, n = j + 1 := ⟨n - 1, by omega⟩
    obtain ⟨ps, s', v, h1, h2, h3⟩ := ih n (by omega)
    have e : g ++ '~' :: u ++ r = g ++ '~' :: (u ++ r) := by simp
    refine ⟨.bnot :: ps, s', v, ?_, h2, by rw [h3]; rfl⟩
    have hs : skip (g ++ '~' :: (u ++ r)) = '~' :: (u ++ r) := by rw [hg.skip]; exact skip_solid (by decide) _
    have hl : lit "~" (g ++ '~' :: (u ++ r)) = some (u ++ r) := lit_char "~" rfl (by decide) hg
    rw [e, Sql.prefixes, lit_ne "-" (d := '-') (l := []) rfl hs (by decide), hl]
    simp only [h1]
  | @knot g w u m hg hw hb hu ih =>
    intro n hn
    simp only [List.length_append] at hn
    have hwn := ne_nil_of hw (by decide)
    have hwl : 0 < w.length := List.length_pos_iff.mpr hwn
    obtain ⟨n, rfl⟩ : ∃ j, n = j + 1 := ⟨n - 1, by omega⟩
    obtain ⟨ps, s', v, h1, h2, h3⟩ := ih n (by omega)
    have e : g ++ w ++ u ++ r = g ++ (w ++ (u ++ r)) := by simp
    refine ⟨.knot :: ps, s', v, ?_, h2, by rw [h3]; rfl⟩
    have hb2 : boundary (u ++ r) = true := by
      obtain ⟨x, u', rfl, _⟩ := hu.head
      exact hb
    have hwy : Wordy w := wordy_of hw (by decide)
    have hf := (first_word hwy hwn hb2).gap hg
    obtain ⟨c, w', rfl⟩ := List.exists_cons_of_ne_nil hwn
    have hs : skip (g ++ (c :: w' ++ (u ++ r))) = c :: (w' ++ (u ++ r)) := by rw [hf.skip]; rfl
    have hc : ∀ x : Char, keyChar x = false → c ≠ x := by
      rintro x hx rfl; have := hwy c (by simp); rw [this] at hx; cases hx
    have hk : kw "not" (g ++ (c :: w' ++ (u ++ r))) = some (u ++ r) := by rw [hf.kw (by decide)]; exact if_pos hw
    rw [e, Sql.prefixes, lit_ne "-" (d := '-') (l := []) rfl hs (hc _ (by decide)),
      lit_ne "~" (d := '~') (l := []) rfl hs (hc _ (by decide)), hk]
    simp only [h1]

theorem modified_read (hG : Good ex Ex) {d : Edge} {t : List Char} {m : List F} (h : SpOperand env Ex d t m) {r : List Char} (hr : Stop d r) :
    modified env ex (t ++ r) = .ok m r := by
  obtain ⟨ps, s', v, h1, h2, h3⟩ := h.modified hG hr (t ++ r).length (by simp)
  rw [Sql.modified, h1]
  simp only [h2, hr.suf, h3]
  rfl

theorem SpRun.head {d : Edge} {t : List Char} {l : List F} (h : SpRun env Ex d t l) : ∃ x u, t = x :: u ∧ x ∉ joiners := by
  cases h with
  | one h => exact h.head
  | cons h =>
    obtain ⟨x, u, rfl, hx⟩ := h.head
    exact ⟨x, _, rfl, hx⟩

/-- What an operand begins with. -/
theorem SpOperand.begins (hG : Good ex Ex) {d : Edge} {t : List Char} {m : List F} (h : SpOperand env Ex d t m) {r : List Char} (hr : Stop d r) :
    (∀ n, opensQuery n (t ++ r) = false) ∧ (skip (t ++ r)).head? ≠ some '*' ∧ (skip (t ++ r)).head? ≠ some ')' := by
  cases h with
  | @atom g t v hg ht =>
    have hq := ht.query hG hr
    have hb := ht.begins hr
    obtain ⟨c, t', rfl, hc⟩ := ht.head
    have hs : skip (c :: t' ++ r) = c :: (t' ++ r) := skip_solid (startChar_solid hc) _
    have hs2 : skip (g ++ (c :: t' ++ r)) = c :: (t' ++ r) := by rw [hg.skip, hs]
    rw [List.append_assoc, hs2]
    refine ⟨?_, by simpa using startChar_ne hc (by decide), by simpa using startChar_ne hc (by decide)⟩
    intro n
    cases n with
    | zero => rfl
    | succ n =>
      have h2 := hq (n + 1)
      rw [opensQuery] at h2 ⊢
      have e1 : lit "(" (g ++ (c :: t' ++ r)) = lit "(" (c :: t' ++ r) := by rw [lit, lit, hg.skip]
      rw [e1, (hb.gap hg).anyKw (by decide)]
      rw [hb.anyKw (by decide)] at h2
      exact h2
  | @neg g u m hg hu h =>
    obtain ⟨x, u', rfl, _⟩ := h.head
    have hne : (x :: u' ++ r).head? ≠ some '-' := by simpa using hu
    have e : g ++ '-' :: (x :: u') ++ r = g ++ '-' :: (x :: u' ++ r) := by simp
    have hs : skip (g ++ '-' :: (x :: u' ++ r)) = '-' :: (x :: u' ++ r) := by rw [hg.skip]; exact skip_dash hne
    rw [e, hs]
    refine ⟨opensQuery_word ⟨[], _, ⟨hs, (by intro _ h; cases h), rfl⟩, by decide⟩ (by rw [hs]; simp), by simp, by simp⟩
  | @bnot g u m hg h =>
    have e : g ++ '~' :: u ++ r = g ++ '~' :: (u ++ r) := by simp
    have hs : skip (g ++ '~' :: (u ++ r)) = '~' :: (u ++ r) := by rw [hg.skip]; exact skip_solid (by decide) _
    rw [e, hs]
    exact ⟨opensQuery_word ((begins_char (by decide) (by decide) (by decide) _).gap hg) (by rw [hs]; simp), by simp, by simp⟩
  | @knot g w u m hg hw hb h =>
    obtain ⟨x, u', rfl, _⟩ := h.head
    have e : g ++ w ++ (x :: u') ++ r = g ++ (w ++ (x :: u' ++ r)) := by simp
    have hwy : Wordy w := wordy_of hw (by decide)
    have hwn := ne_nil_of hw (by decide)
    have hf := (first_word (r := x :: u' ++ r) hwy hwn hb).gap hg
    obtain ⟨c, w', rfl⟩ := List.exists_cons_of_ne_nil hwn
    have hc : ∀ x : Char, keyChar x = false → c ≠ x := by
      rintro x hx rfl; have := hwy c (by simp); rw [this] at hx; cases hx
    rw [e, hf.skip]
    refine ⟨opensQuery_word ⟨_, _, hf, fun w hx => not_word hw (by revert hx; revert w; decide)⟩ ?_, ?_, ?_⟩
    · rw [hf.skip]; simpa using hc '(' (by decide)
    · simpa using hc '*' (by decide)
    · simpa using hc ')' (by decide)

end

/-! ### Operators -/

/-- The token of an operator. -/
def F.tok : F → Option OpTok
  | .bin o => some (.bin o)
  | .btw n => some (.btw n)
  | _ => none

theorem sym_skip {w : String} {o : OpTok} (h : (w, o) ∈ symbolOps) {g u : List Char} (hg : Gap g) (hu : ∀ c, u.head? = some c → c ∉ joiners)
    (hd : w = "-" → u.head? ≠ some '-') : skip (g ++ (w.toList ++ u)) = w.toList ++ u := by
  rw [hg.skip]
  have hs : u.head? ≠ some '*' := fun h => hu _ h (by decide)
  simp only [symbolOps, List.mem_cons, List.not_mem_nil, or_false, Prod.mk.injEq] at h
  rcases h with h | h | h | h | h | h | h | h | h | h | h | h | h | h | h | h | h | h <;> obtain ⟨rfl, -⟩ := h
  all_goals first
    | exact skip_solid (by decide) _
    | exact skip_dash (hd rfl)
    | exact skip_slash hs
    | exact skip_dash (r := '>' :: u) (by simp)

theorem sym_next {w : String} {o : Bop} (h : (w, OpTok.bin o) ∈ symbolOps) {g u : List Char} (hg : Gap g) (hu : ∀ c, u.head? = some c → c ∉ joiners)
    (hd : w = "-" → u.head? ≠ some '-') : opNext (g ++ (w.toList ++ u)) = some (.bin o, u) := by
  have hs := sym_skip h hg hu hd
  have hj : ∀ x ∈ joiners, u.head? ≠ some x := fun x hx h => hu x h hx
  have h1 := hj '=' (by decide)
  have h2 := hj '>' (by decide)
  have h3 := hj '|' (by decide)
  have l1 : ∀ (w' : List Char) (x : Char), u.head? ≠ some x → litAt (x :: w') u = none := by
    intro w' x hx
    cases u with
    | nil => rfl
    | cons c u => rw [litAt, if_neg]; rintro rfl; exact hx rfl
  rw [opNext]
  simp only [lit, hs]
  clear hs
  simp only [symbolOps, List.mem_cons, List.not_mem_nil, or_false, Prod.mk.injEq] at h
  rcases h with h | h | h | h | h | h | h | h | h | h | h | h | h | h | h | h | h | h <;> obtain ⟨rfl, h⟩ := h
  all_goals first
    | (injection h with h; subst h; simp [symbolOps, litAt, l1 _ _ h1, l1 _ _ h2, l1 _ _ h3])
    | cases h

/-- After a gap and a first word. -/
theorem word_syms {s n r : List Char} (h : First s n r) (hn : n ≠ []) : (symbolOps.findSome? fun p => (lit p.1 s).map fun r => (p.2, r)) = none := by
  obtain ⟨c, n', rfl⟩ := List.exists_cons_of_ne_nil hn
  apply sym_none
  intro p hp
  obtain ⟨x, hx, hx2⟩ : ∃ x, p.1.toList.head? = some x ∧ keyChar x = false := by
    revert hp; revert p; decide
  rw [hx, h.skip]
  simp only [List.cons_append, List.head?_cons, ne_eq, Option.some.injEq]
  rintro rfl
  rw [h.word c (by simp)] at hx2
  cases hx2

theorem boundary_white {g u : List Char} (hg : g ≠ []) (hw : ∀ c ∈ g, white c = true) : boundary (g ++ u) = true := by
  cases g with
  | nil => exact absurd rfl hg
  | cons c g =>
    have := hw c (by simp)
    simp only [white, Bool.or_eq_true, beq_iff_eq] at this
    rcases this with ((rfl | rfl) | rfl) | rfl <;> rfl

theorem skipWhite_white {g u : List Char} (hw : ∀ c ∈ g, white c = true) : skipWhite (g ++ u) = skipWhite u := by
  induction g with
  | nil => rfl
  | cons c g ih =>
    have := ih fun x hx => hw x (by simp [hx])
    simpa [skipWhite, hw c (by simp)] using this

theorem skipWhite_wordy {t u : List Char} (ht : Wordy t) (hne : t ≠ []) : skipWhite (t ++ u) = t ++ u := by
  obtain ⟨c, n', rfl⟩ := List.exists_cons_of_ne_nil hne
  exact skipWhite_solid (white_of_solid (solidChar_of_key (ht c (by simp)))) _

/-- What the first of several words is, and what follows it. -/
theorem Words.first {w : String} {ws : List String} {t : List Char} (h : Words (w :: ws) t) (hw : Wordy w.toList) (hne : w.toList ≠ []) {u : List Char}
    (hu : boundary u = true) : ∃ n r, Word w n ∧ n ≠ [] ∧ Wordy n ∧ boundary r = true ∧ t ++ u = n ++ r ∧
      (ws = [] → r = u) ∧ ∀ w' ws', ws = w' :: ws' → ∃ t', Words ws t' ∧ skipWhite r = skipWhite (t' ++ u) := by
  cases h with
  | one h => exact ⟨t, u, h, ne_nil_of h hne, wordy_of h hw, hu, rfl, fun _ => rfl, fun _ _ h => by cases h⟩
  | @cons _ _ n g t' hn hg hgw ht =>
    refine ⟨n, g ++ (t' ++ u), hn, ne_nil_of hn hne, wordy_of hn hw, boundary_white hg hgw, by simp, ?_, ?_⟩
    · rintro rfl; cases ht
    · rintro w' ws' rfl
      exact ⟨t', ht, skipWhite_white hgw⟩

/-- `kwsTail` depends only on what follows the whitespace. -/
theorem kwsTail_skip {w : String} {ws : List String} {a b : List Char} (h : skipWhite a = skipWhite b) : kwsTail (w :: ws) a = kwsTail (w :: ws) b := by
  rw [kwsTail, kwsTail, h]

/-- The words read after the first. -/
theorem Words.tail : ∀ (ws : List String) {t : List Char}, Words ws t → (∀ w ∈ ws, Wordy w.toList ∧ w.toList ≠ []) → ∀ {u : List Char}, boundary u = true →
    ∀ vs : List String, (∀ w ∈ vs, Wordy w.toList) → vs ≠ [] →
      (ws <+: vs → kwsTail vs (t ++ u) = kwsTail (vs.drop ws.length) u) ∧ (¬ ws <+: vs → ¬ vs <+: ws → kwsTail vs (t ++ u) = none)
  | [], _, h, _, _, _, _, _, _ => by cases h
  | w :: ws, t, h, hw, u, hu, vs, hv, hvn => by
    obtain ⟨v, vs, rfl⟩ := List.exists_cons_of_ne_nil hvn
    obtain ⟨n, r, h1, h2, h3, h4, h5, h6, h7⟩ := h.first (hw w (by simp)).1 (hw w (by simp)).2 hu
    have hk : kwsTail (v :: vs) (t ++ u) = if w.toList = v.toList then kwsTail vs r else none := by
      rw [h5, kwsTail_word (skipWhite_wordy h3 h2) h3 h4 (hv v (by simp)), h1]
    by_cases hwv : w = v
    · subst hwv
      rw [if_pos rfl] at hk
      rw [hk]
      have e1 : (w :: ws <+: w :: vs) ↔ (ws <+: vs) := by simp
      have e2 : (w :: vs <+: w :: ws) ↔ (vs <+: ws) := by simp
      rw [e1, e2]
      cases ws with
      | nil => rw [h6 rfl]; simp
      | cons w' ws' =>
        obtain ⟨t', ht', hs⟩ := h7 w' ws' rfl
        cases vs with
        | nil => simp
        | cons v' vs' =>
          have ih := Words.tail (w' :: ws') ht' (fun x hx => hw x (by simp [hx])) hu (v' :: vs') (fun x hx => hv x (by simp [hx])) (by simp)
          rw [kwsTail_skip hs]
          exact ih
    · have hne : ¬ (w.toList = v.toList) := fun h => hwv (String.toList_injective h)
      rw [if_neg hne] at hk
      have e1 : ¬ (w :: ws <+: v :: vs) := by simp [hwv]
      exact ⟨fun h => absurd h e1, fun _ _ => hk⟩

theorem kwsTail_none {w : String} (hw : Wordy w.toList) (hne : w.toList ≠ []) {u : List Char} (h : kw w u = none) (ws : List String) :
    kwsTail (w :: ws) u = none := by
  cases hk : kwAt w.toList (skipWhite u) with
  | none => rw [kwsTail, hk]
  | some r =>
    exfalso
    have : ∃ c x, skipWhite u = c :: x ∧ keyChar c = true := by
      cases hs : skipWhite u with
      | nil =>
        rw [hs] at hk
        cases hl : w.toList with
        | nil => exact absurd hl hne
        | cons d l => rw [hl] at hk; simp [kwAt] at hk
      | cons c x =>
        refine ⟨c, x, rfl, ?_⟩
        rw [hs] at hk
        cases hl : w.toList with
        | nil => exact absurd hl hne
        | cons d l =>
          rw [hl, kwAt] at hk
          by_cases hd : c.toLower = d
          · rcases toLower_cases c with h1 | h1
            · rw [h1] at hd; subst hd; exact hw c (by rw [hl]; simp)
            · exact keyChar_upper h1
          · rw [if_neg hd] at hk; cases hk
    obtain ⟨c, x, hs, hc⟩ := this
    rw [kw, skip_skipWhite, hs, skip_solid (solidChar_of_key hc), ← hs, hk] at h
    cases h

theorem kws_tail {v : String} {vs : List String} {s n r : List Char} (h : First s n r) (hn : n ≠ []) : kws (v :: vs) s = kwsTail (v :: vs) (n ++ r) := by
  rw [kws, kwsTail, kw, h.skip, skipWhite_wordy h.word hn]

/-- An operator of words is found. -/
theorem word_next {ws : List String} {o : OpTok} (hm : (ws, o) ∈ wordOps) {t : List Char} (h : Words ws t) {g u : List Char} (hg : Gap g)
    (hu : boundary u = true) (his : ws = ["is"] → kw "not" u = none) (hdi : kw "distinct" u = none) :
    opNext (g ++ (t ++ u)) = some (o, u) := by
  obtain ⟨w, ws', rfl⟩ : ∃ w ws', ws = w :: ws' := by
    cases ws with
    | nil => cases h
    | cons w ws => exact ⟨_, _, rfl⟩
  have hall : ∀ p ∈ wordOps, ∀ w ∈ p.1, Wordy w.toList ∧ w.toList ≠ [] := by decide
  have hws := hall _ hm
  obtain ⟨n, r, h1, h2, h3, h4, h5, _, _⟩ := h.first (hws w (by simp)).1 (hws w (by simp)).2 hu
  have hf : First (g ++ (t ++ u)) n r := by rw [h5]; exact (first_word h3 h2 h4).gap hg
  rw [opNext, word_syms hf h2]
  have hkt : ∀ p ∈ wordOps, kws p.1 (g ++ (t ++ u)) = kwsTail p.1 (t ++ u) := by
    intro p hp
    obtain ⟨v, vs, hv⟩ : ∃ v vs, p.1 = v :: vs := by
      have : p.1 ≠ [] := by revert hp; revert p; decide
      exact List.exists_cons_of_ne_nil this
    rw [hv, kws_tail hf h2, h5]
  have htl : ∀ p ∈ wordOps, _ := fun p hp => Words.tail (w :: ws') h hws hu p.1 (fun x hx => (hall p hp x hx).1) (by revert hp; revert p; decide)
  obtain ⟨l1, l2, hl, hpre⟩ : ∃ l1 l2, wordOps = l1 ++ (w :: ws', o) :: l2 ∧
      ∀ p ∈ l1, ¬ p.1 <+: w :: ws' ∧ (w :: ws' <+: p.1 → (w :: ws' = ["is"] ∧ (p.1.drop (w :: ws').length).head? = some "not") ∨
        (p.1.drop (w :: ws').length).head? = some "distinct") := by
    simp only [wordOps, List.mem_cons, List.not_mem_nil, or_false, Prod.mk.injEq] at hm
    rcases hm with h | h | h | h | h | h | h | h | h | h | h | h | h | h | h | h | h | h <;> obtain ⟨he, rfl⟩ := h <;> rw [he]
    · exact ⟨wordOps.take 0, wordOps.drop 1, rfl, by decide⟩
    · exact ⟨wordOps.take 1, wordOps.drop 2, rfl, by decide⟩
    · exact ⟨wordOps.take 2, wordOps.drop 3, rfl, by decide⟩
    · exact ⟨wordOps.take 3, wordOps.drop 4, rfl, by decide⟩
    · exact ⟨wordOps.take 4, wordOps.drop 5, rfl, by decide⟩
    · exact ⟨wordOps.take 5, wordOps.drop 6, rfl, by decide⟩
    · exact ⟨wordOps.take 6, wordOps.drop 7, rfl, by decide⟩
    · exact ⟨wordOps.take 7, wordOps.drop 8, rfl, by decide⟩
    · exact ⟨wordOps.take 8, wordOps.drop 9, rfl, by decide⟩
    · exact ⟨wordOps.take 9, wordOps.drop 10, rfl, by decide⟩
    · exact ⟨wordOps.take 10, wordOps.drop 11, rfl, by decide⟩
    · exact ⟨wordOps.take 11, wordOps.drop 12, rfl, by decide⟩
    · exact ⟨wordOps.take 12, wordOps.drop 13, rfl, by decide⟩
    · exact ⟨wordOps.take 13, wordOps.drop 14, rfl, by decide⟩
    · exact ⟨wordOps.take 14, wordOps.drop 15, rfl, by decide⟩
    · exact ⟨wordOps.take 15, wordOps.drop 16, rfl, by decide⟩
    · exact ⟨wordOps.take 16, wordOps.drop 17, rfl, by decide⟩
    · exact ⟨wordOps.take 17, wordOps.drop 18, rfl, by decide⟩
  have hmem : ∀ p ∈ l1, p ∈ wordOps := fun p hp => by rw [hl]; simp [hp]
  have hnone : (l1.findSome? fun p => (kws p.1 (g ++ (t ++ u))).map fun r => (p.2, r)) = none := by
    rw [List.findSome?_eq_none_iff]
    intro p hp
    rw [hkt p (hmem p hp)]
    obtain ⟨k1, k2⟩ := htl p (hmem p hp)
    obtain ⟨q1, q2⟩ := hpre p hp
    by_cases hpx : w :: ws' <+: p.1
    · have q4 := q2 hpx
      rw [k1 hpx]
      cases hd : p.1.drop (w :: ws').length with
      | nil => rw [hd] at q4; simp at q4
      | cons x xs =>
        rw [hd] at q4
        simp only [List.head?_cons, Option.some.injEq] at q4
        rcases q4 with ⟨q3, rfl⟩ | rfl
        · rw [kwsTail_none (by decide) (by decide) (his q3)]; rfl
        · rw [kwsTail_none (by decide) (by decide) hdi]; rfl
    · rw [k2 hpx q1]; rfl
  have hthis : kws (w :: ws') (g ++ (t ++ u)) = some u := by
    have := hkt _ hm
    simp only at this
    rw [this, (htl _ hm).1 (List.prefix_refl _)]
    simp [kwsTail]
  simp only
  rw [hl, List.findSome?_append, hnone, List.findSome?_cons, hthis]
  rfl

theorem sym_stop {d : Edge} {w : String} {o : OpTok} (h : (w, o) ∈ symbolOps) {g u : List Char} (hg : Gap g) (hs : Sep d (g ++ w.toList))
    (hu : ∀ c, u.head? = some c → c ∉ joiners) (hd : w = "-" → u.head? ≠ some '-') : Stop d (g ++ (w.toList ++ u)) := by
  have hk := sym_skip h hg hu hd
  obtain ⟨c, w', hw, hc1, hc2⟩ : ∃ c w', w.toList = c :: w' ∧ keyChar c = false ∧ ∀ x ∈ ['[', '.', ':', '('], c ≠ x := by
    have hh : ∀ p ∈ symbolOps, (p.1.toList.head?.map fun c => !keyChar c && c != '[' && c != '.' && c != ':' && c != '(') = some true := by decide
    have := hh _ h
    cases hl : w.toList with
    | nil => simp [hl] at this
    | cons c w' =>
      simp [hl] at this
      refine ⟨c, w', rfl, this.1.1.1.1, ?_⟩
      intro x hx
      simp only [List.mem_cons, List.not_mem_nil, or_false] at hx
      rcases hx with rfl | rfl | rfl | rfl
      · exact this.1.1.1.2
      · exact this.1.1.2
      · exact this.1.2
      · exact this.2
  have hk2 : skip (g ++ (w.toList ++ u)) = [] ++ c :: (w' ++ u) := by rw [hk, hw]; rfl
  have hf : First (g ++ (w.toList ++ u)) [] (c :: (w' ++ u)) := ⟨hk2, (by intro _ h; cases h), by simp [boundary, hc1]⟩
  refine ⟨?_, suffix_none hf (by decide) ?_, ?_⟩
  · rw [← List.append_assoc]; exact sep_append hs (by rw [hw]; simp)
  · intro x hx
    rw [hk2]
    simpa using hc2 x (by simp only [List.mem_cons, List.not_mem_nil, or_false] at hx ⊢; rcases hx with h | h | h <;> simp [h])
  · exact lit_head "(" (d := '(') (l := []) rfl (by rw [hk2]; simpa using hc2 '(' (by simp))

theorem Words.ne_nil {w : String} {ws : List String} {t : List Char} (h : Words (w :: ws) t) (hw : w.toList ≠ []) : t ≠ [] := by
  cases h with
  | one h => exact ne_nil_of h hw
  | cons h _ _ _ => simp [ne_nil_of h hw]

theorem word_stop {d : Edge} {ws : List String} {o : OpTok} (hm : (ws, o) ∈ wordOps) {t : List Char} (h : Words ws t) {g u : List Char} (hg : Gap g)
    (hs : Sep d (g ++ t)) (hu : boundary u = true) : Stop d (g ++ (t ++ u)) := by
  obtain ⟨w, ws', rfl⟩ : ∃ w ws', ws = w :: ws' := by
    cases ws with
    | nil => cases h
    | cons w ws => exact ⟨_, _, rfl⟩
  have hall : ∀ p ∈ wordOps, ∀ w ∈ p.1, Wordy w.toList ∧ w.toList ≠ [] ∧ ∀ x ∈ ["over", "within", "filter"], w.toList ≠ x.toList := by decide
  obtain ⟨hw1, hw2, hw3⟩ := hall _ hm w (by simp)
  obtain ⟨n, r, h1, h2, h3, h4, h5, _, _⟩ := h.first hw1 hw2 hu
  have hf : First (g ++ (t ++ u)) n r := by rw [h5]; exact (first_word h3 h2 h4).gap hg
  obtain ⟨c, n', rfl⟩ := List.exists_cons_of_ne_nil h2
  have hc : ∀ x : Char, keyChar x = false → (skip (g ++ (t ++ u))).head? ≠ some x := by
    intro x hx
    rw [hf.skip]
    simp only [List.cons_append, List.head?_cons, ne_eq, Option.some.injEq]
    rintro rfl; have := h3 c (by simp); rw [this] at hx; cases hx
  have hne : t ≠ [] := h.ne_nil hw2
  refine ⟨?_, suffix_none hf ?_ ?_, lit_head "(" (d := '(') (l := []) rfl (hc _ (by decide))⟩
  · rw [← List.append_assoc]
    exact sep_append hs (by simp [hne])
  · intro x hx
    exact not_word h1 (hw3 x hx)
  · intro x hx
    exact hc x (by revert hx; revert x; decide)

theorem SpOp.stop {d : Edge} {o : F} {w u g : List Char} (h : SpOp o w u) (hg : Gap g) (hs : Sep d (g ++ w)) (hu : ∀ c, u.head? = some c → c ∉ joiners) :
    Stop d (g ++ (w ++ u)) := by
  cases h with
  | sym hm hd => exact sym_stop hm hg hs hu hd
  | word hm hw hb _ => exact word_stop hm hw hg hs hb
  | btw hm hw hb => exact word_stop hm hw hg hs hb

theorem SpOp.next {o : F} {w u r g : List Char} (h : SpOp o w u) (hg : Gap g) (hu : ∀ c, (u ++ r).head? = some c → c ∉ joiners) (hne : u ≠ [])
    (hn : ¬ Opens "not" u → kw "not" (u ++ r) = none) (hd : kw "distinct" (u ++ r) = none) :
    ∃ k, opNext (g ++ (w ++ (u ++ r))) = some (k, u ++ r) ∧ o.tok = some k := by
  have hh : (u ++ r).head? = u.head? := by cases u <;> simp_all
  have hb : boundary (u ++ r) = boundary u := by cases u <;> simp_all [boundary]
  cases h with
  | sym hm hd => exact ⟨_, sym_next hm hg hu (by rw [hh]; exact hd), rfl⟩
  | word hm hw hbu his => exact ⟨_, word_next hm hw hg (by rw [hb]; exact hbu) (fun h => hn (his h)) hd, rfl⟩
  | @btw ws n _ _ hm hw hbu =>
    refine ⟨_, word_next hm hw hg (by rw [hb]; exact hbu) ?_ hd, rfl⟩
    rintro rfl
    exfalso
    revert hm; cases n <;> decide

section
variable {env : Env} {ex : List Char → R V} {Ex : Edge → List Char → V → Prop}

/-- What an operand after IS begins with. -/
theorem SpOperand.words {d : Edge} {t : List Char} {m : List F} (h : SpOperand env Ex d t m) {r : List Char} (hr : Stop d r) :
    kw "distinct" (t ++ r) = none ∧ (kw "not" (t ++ r) = none ∨ ∀ x, Opens "not" (t ++ x)) := by
  cases h with
  | @atom g t v hg ht =>
    have hb := (ht.begins hr).gap hg
    rw [List.append_assoc]
    exact ⟨hb.kw (by decide) (by decide), .inl (hb.kw (by decide) (by decide))⟩
  | @neg g u m hg hu h =>
    obtain ⟨x, u', rfl, _⟩ := h.head
    have hne : (x :: u' ++ r).head? ≠ some '-' := by simpa using hu
    have e : g ++ '-' :: (x :: u') ++ r = g ++ '-' :: (x :: u' ++ r) := by simp
    have hs : skip (g ++ '-' :: (x :: u' ++ r)) = [] ++ '-' :: (x :: u' ++ r) := by rw [hg.skip]; exact skip_dash hne
    have hf : First (g ++ '-' :: (x :: u' ++ r)) [] ('-' :: (x :: u' ++ r)) := ⟨hs, (by intro _ h; cases h), rfl⟩
    rw [e]
    exact ⟨by rw [hf.kw (by decide)]; rfl, .inl (by rw [hf.kw (by decide)]; rfl)⟩
  | @bnot g u m hg h =>
    have e : g ++ '~' :: u ++ r = g ++ '~' :: (u ++ r) := by simp
    have hf := (first_char (c := '~') (by decide) (by decide) (u ++ r)).gap hg
    rw [e]
    exact ⟨by rw [hf.kw (by decide)]; rfl, .inl (by rw [hf.kw (by decide)]; rfl)⟩
  | @knot g w u m hg hw hb h =>
    obtain ⟨x, u', rfl, _⟩ := h.head
    have e : g ++ w ++ (x :: u') ++ r = g ++ (w ++ (x :: u' ++ r)) := by simp
    have hf := (first_word (r := x :: u' ++ r) (wordy_of hw (by decide)) (ne_nil_of hw (by decide)) hb).gap hg
    refine ⟨?_, .inr fun y => ⟨g, w, x :: u' ++ y, hg, hw, hb, by simp⟩⟩
    rw [e, hf.kw (by decide), if_neg]
    exact not_word hw (by decide)

/-- How a run goes on after its first operand. -/
theorem SpRun.split {d : Edge} {t : List Char} {l : List F} (h : SpRun env Ex d t l) {r : List Char} (hr : Fin d r) :
    ∃ e t1 m r1 x, SpOperand env Ex e t1 m ∧ Stop e r1 ∧ t ++ r = t1 ++ r1 ∧ t = t1 ++ x := by
  cases h with
  | one h => exact ⟨_, t, _, r, [], h, hr.toStop, rfl, by simp⟩
  | @cons d' _ t g w u m l o h hg hs ho hl =>
    obtain ⟨c, u', hu, hc⟩ := hl.head
    refine ⟨d', t, m, g ++ (w ++ (u ++ r)), g ++ w ++ u, h, ?_, by simp, by simp⟩
    have hj : ∀ x, u.head? = some x → x ∉ joiners := by
      intro x hx
      rw [hu] at hx
      simp at hx
      subst hx
      exact hc
    have := ho.stop hg hs hj
    have hu2 : (u ++ r).head? = u.head? := by rw [hu]; rfl
    have hb2 : boundary (u ++ r) = boundary u := by rw [hu]; rfl
    cases ho with
    | sym hm hd => exact sym_stop hm hg hs (by rw [hu2]; exact hj) (by rw [hu2]; exact hd)
    | word hm hw hb _ => exact word_stop hm hw hg hs (by rw [hb2]; exact hb)
    | btw hm hw hb => exact word_stop hm hw hg hs (by rw [hb2]; exact hb)

/-- What a run begins with. -/
theorem SpRun.words {d : Edge} {t : List Char} {l : List F} (h : SpRun env Ex d t l) {r : List Char} (hr : Fin d r) :
    kw "distinct" (t ++ r) = none ∧ (¬ Opens "not" t → kw "not" (t ++ r) = none) := by
  obtain ⟨e, t1, m, r1, x, h1, h2, h3, h4⟩ := h.split hr
  obtain ⟨k1, k2⟩ := h1.words h2
  rw [h3]
  refine ⟨k1, fun hn => ?_⟩
  rcases k2 with k2 | k2
  · exact k2
  · exact absurd (k2 x) (by rw [← h4]; exact hn)

theorem SpRun.begins (hG : Good ex Ex) {d : Edge} {t : List Char} {l : List F} (h : SpRun env Ex d t l) {r : List Char} (hr : Fin d r) :
    (∀ n, opensQuery n (t ++ r) = false) ∧ (skip (t ++ r)).head? ≠ some '*' ∧ (skip (t ++ r)).head? ≠ some ')' := by
  obtain ⟨e, t1, m, r1, x, h1, h2, h3, h4⟩ := h.split hr
  rw [h3]
  exact h1.begins hG h2

/-- A spelled run is read token by token. -/
theorem SpRun.read (hG : Good ex Ex) {d : Edge} {t : List Char} {l : List F} (h : SpRun env Ex d t l) {r : List Char} (hr : Fin d r) :
    ∃ m l' r', l = m ++ l' ∧ modified env ex (t ++ r) = .ok m r' ∧ r'.length ≤ (t ++ r).length ∧ ∀ n, r'.length ≤ n → runTail env ex n r' = .ok l' r := by
  induction h with
  | @one d t m h =>
    refine ⟨m, [], r, by simp, modified_read hG h hr.toStop, by simp, ?_⟩
    intro n _
    cases n with
    | zero => rfl
    | succ n => rw [runTail, hr.op]
  | @cons d e t g w u m l o h hg hs ho hl ih =>
    obtain ⟨m2, l2, r2, rfl, h2, h3, h4⟩ := ih hr
    obtain ⟨c, u', hu, hc⟩ := hl.head
    have hj : ∀ x, (u ++ r).head? = some x → x ∉ joiners := by
      intro x hx
      rw [hu] at hx
      simp at hx
      subst hx
      exact hc
    have hune : u ≠ [] := by rw [hu]; simp
    obtain ⟨hdis, hnot⟩ := hl.words hr
    obtain ⟨k, hk1, hk2⟩ := ho.next (r := r) hg hj hune hnot hdis
    have hst : Stop d (g ++ (w ++ (u ++ r))) := by
      obtain ⟨e', t1, m', r1, x, q1, q2, q3, q4⟩ := (SpRun.cons h hg hs ho hl).split hr
      have hu2 : (u ++ r).head? = u.head? := by rw [hu]; rfl
      have hb2 : boundary (u ++ r) = boundary u := by rw [hu]; rfl
      cases ho with
      | sym hm hd => exact sym_stop hm hg hs hj (by rw [hu2]; exact hd)
      | word hm hw hb _ => exact word_stop hm hw hg hs (by rw [hb2]; exact hb)
      | btw hm hw hb => exact word_stop hm hw hg hs (by rw [hb2]; exact hb)
    have e1 : t ++ g ++ w ++ u ++ r = t ++ (g ++ (w ++ (u ++ r))) := by simp
    have hwl : 0 < w.length := by
      have : w ≠ [] := by
        cases ho with
        | sym hm _ =>
          have hh : ∀ p ∈ symbolOps, p.1.toList ≠ [] := by decide
          exact hh _ hm
        | @word ws _ _ _ hm hw _ _ =>
          cases ws with
          | nil => cases hw
          | cons x ws => exact hw.ne_nil ((by decide : ∀ p ∈ wordOps, ∀ w ∈ p.1, w.toList ≠ []) _ hm x (by simp))
        | @btw ws _ _ _ hm hw _ =>
          cases ws with
          | nil => cases hw
          | cons x ws => exact hw.ne_nil ((by decide : ∀ p ∈ wordOps, ∀ w ∈ p.1, w.toList ≠ []) _ hm x (by simp))
      exact List.length_pos_iff.mpr this
    refine ⟨m, o :: (m2 ++ l2), g ++ (w ++ (u ++ r)), rfl, ?_, by simp, ?_⟩
    · rw [e1]; exact modified_read hG h hst
    · intro n hn
      simp only [List.length_append] at hn h3
      obtain ⟨n, rfl⟩ : ∃ j, n = j + 1 := ⟨n - 1, by omega⟩
      rw [runTail, hk1]
      simp only
      rw [h2]
      simp only
      rw [h4 n (by omega)]
      cases o with
      | pre p => cases hk2
      | val v => cases hk2
      | bin b => simp only [F.tok, Option.some.injEq] at hk2; subst hk2; rfl
      | btw b => simp only [F.tok, Option.some.injEq] at hk2; subst hk2; rfl

theorem run_read (hG : Good ex Ex) {d : Edge} {t : List Char} {l : List F} (h : SpRun env Ex d t l) {r : List Char} (hr : Fin d r) :
    run env ex (t ++ r) = .ok l r := by
  obtain ⟨m, l', r', rfl, h1, _, h3⟩ := h.read hG hr
  rw [run, h1]
  simp only
  rw [h3 _ (Nat.le_refl _)]

end

/-- A spelled expression is read as what it spells, at every nesting depth. -/
theorem good (env : Env) : ∀ n, Good (expr env n) (SpExpr env n)
  | 0 => ⟨fun _ _ _ _ h => h.elim, fun _ _ _ _ _ h => h.elim, fun _ _ _ _ h => h.elim⟩
  | n + 1 => by
    have ih := good env n
    have hstar : ∀ {g : List Char} (r : List Char), Gap g → skip (g ++ ['*'] ++ r) = '*' :: r := by
      intro g r hg
      rw [List.append_assoc, hg.skip]; exact skip_solid (by decide) r
    refine ⟨?_, ?_, ?_⟩
    · rintro d t v r h hr
      rcases h with ⟨l, hl, hv⟩ | ⟨rfl, rfl, g, hg, rfl⟩
      · rw [expr, lit_head "*" (d := '*') (l := []) rfl (hl.begins ih hr).2.1]
        simp only
        rw [run_read ih hl hr]
        simp only [hv]
      · rw [expr, lit_one "*" rfl (hstar r hg)]
        rfl
    · rintro d t v r m h hr
      rcases h with ⟨l, hl, hv⟩ | ⟨rfl, rfl, g, hg, rfl⟩
      · exact (hl.begins ih hr).1 m
      · refine opensQuery_word ?_ (by rw [hstar r hg]; simp) m
        rw [List.append_assoc]
        exact (begins_char (c := '*') (by decide) (by decide) (by decide) r).gap hg
    · rintro d t v r h hr
      rcases h with ⟨l, hl, hv⟩ | ⟨rfl, rfl, g, hg, rfl⟩
      · exact lit_head ")" (d := ')') (l := []) rfl (hl.begins ih hr).2.2
      · exact lit_ne ")" (d := ')') (l := []) rfl (hstar r hg) (by decide)

end EulerDB.Sql
