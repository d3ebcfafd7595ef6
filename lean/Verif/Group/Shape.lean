/-
A group in brackets begins and ends with them up to `group_where`; the functions that look for tokens
in a loop end and raise no error.
-/
import Verif.Group.PassKinds

namespace EulerDB.Group

open EulerDB.Lex

/-! ### Brackets -/

/-- The leaf of a bracket. -/
def IsLeaf (v : String) (t : Tok) : Prop := isMatch t Punctuation [v] = true ∧ t.isGroup = false

/-- The list begins with the one bracket and ends with the other. -/
def EndsWith (o c : String) (l : List Tok) : Prop :=
  ∃ a mid b, l = a :: (mid ++ [b]) ∧ IsLeaf o a ∧ IsLeaf c b

/-- The tokens of a group in brackets. -/
def Ends (c : Cls) (l : List Tok) : Prop :=
  match c with
  | .parenthesis => EndsWith "(" ")" l
  | .squareBrackets => EndsWith "[" "]" l
  | _ => True

/-- No group has a type or is without tokens, groups in brackets begin and end with them, and comments have
comments and blanks only. -/
def Early (c : Cls) (ty : Option TType) (l : List Tok) : Prop :=
  ty = none ∧ (l ≠ [] ∨ c = .statement) ∧ Ends c l ∧ Remark c l

theorem Early.sound {c : Cls} {ty : Option TType} {l : List Tok} (h : Early c ty l) : Sound c ty l :=
  ⟨.inl h.1, h.2.1, h.2.2.2⟩

theorem IsLeaf.ttype {v : String} {t : Tok} (h : IsLeaf v t) : t.ttype? = some Punctuation := by
  have := h.1
  unfold isMatch at this
  rw [Bool.and_eq_true] at this
  exact eq_of_beq this.1

theorem IsLeaf.norm {v : String} {t : Tok} (h : IsLeaf v t) : v.toList = norm t := by
  have := h.1
  unfold isMatch at this
  rw [Bool.and_eq_true] at this
  simpa using this.2

theorem isMatch_ttype {t : Tok} {ty : TType} {vs : List String} (h : isMatch t ty vs = true) : t.ttype? = some ty := by
  unfold isMatch at h
  rw [Bool.and_eq_true] at h
  exact eq_of_beq h.1

theorem IsLeaf.notMatch {v : String} {t : Tok} (h : IsLeaf v t) {ty : TType} {vs : List String}
    (hne : ty ≠ Punctuation ∨ ∀ w ∈ vs, w ≠ v) : isMatch t ty vs = false := by
  rw [Bool.eq_false_iff]
  intro hm
  rcases hne with hne | hne
  · exact hne (Option.some.inj ((isMatch_ttype hm).symm.trans h.ttype))
  · unfold isMatch at hm
    rw [Bool.and_eq_true, List.any_eq_true] at hm
    obtain ⟨w, hw, e⟩ := hm.2
    have : w.toList = v.toList := (eq_of_beq e).trans h.norm.symm
    exact hne w hw (String.toList_inj.1 this)

theorem IsLeaf.notBelow {v : String} {t : Tok} (h : IsLeaf v t) {ty : TType} (hne : isIn Punctuation ty = false) :
    below t ty = false := by
  unfold below
  rw [h.ttype]
  exact hne

theorem IsLeaf.notAmong {v : String} {t : Tok} (h : IsLeaf v t) {tys : List TType} (hne : tys.contains Punctuation = false) :
    among t tys = false := by
  unfold among
  rw [h.ttype]
  exact hne

theorem IsLeaf.notInst {v : String} {t : Tok} (h : IsLeaf v t) (c : Cls) : t.isInst c = false := by
  have := h.2
  cases t with
  | leaf => rfl
  | grp => simp [Tok.isGroup] at this

/-- Joining tokens in the middle leaves the ends. -/
theorem EndsWith.made {o c : String} {l : List Tok} (h : EndsWith o c l) {a b : Nat} (g : Tok) (ha : 0 < a)
    (hb : max a b < l.length) : EndsWith o c (l.take a ++ g :: l.drop (max a b)) := by
  obtain ⟨x, mid, y, rfl, hx, hy⟩ := h
  obtain ⟨a', rfl⟩ : ∃ a', a = a' + 1 := ⟨a - 1, by omega⟩
  obtain ⟨m, hm⟩ : ∃ m, max (a' + 1) b = m + 1 := ⟨max (a' + 1) b - 1, by omega⟩
  rw [hm] at hb ⊢
  simp only [List.length_cons, List.length_append, List.length_nil] at hb
  refine ⟨x, (mid ++ [y]).take a' ++ g :: mid.drop m, y, ?_, hx, hy⟩
  rw [List.take_succ_cons, List.drop_succ_cons, List.drop_append_of_le_length (by omega)]
  simp

theorem Ends.made {d : Cls} {l : List Tok} (h : Ends d l) {a b : Nat} (g : Tok)
    (hab : ∀ o c, EndsWith o c l → 0 < a ∧ max a b < l.length) : Ends d (l.take a ++ g :: l.drop (max a b)) := by
  cases d <;> first | trivial | exact EndsWith.made h g (hab _ _ h).1 (hab _ _ h).2

theorem EndsWith.first {o c : String} {l : List Tok} (h : EndsWith o c l) {i : Nat} {t : Tok} (ht : l[i]? = some t)
    (hn : ¬ IsLeaf o t) : 0 < i := by
  obtain ⟨x, mid, y, rfl, hx, hy⟩ := h
  rcases Nat.eq_zero_or_pos i with rfl | hi
  · simp only [List.getElem?_cons_zero, Option.some.injEq] at ht
    exact absurd (ht ▸ hx) hn
  · exact hi

theorem EndsWith.last {o c : String} {l : List Tok} (h : EndsWith o c l) {i : Nat} {t : Tok} (ht : l[i]? = some t)
    (hn : ¬ IsLeaf c t) : i + 1 < l.length := by
  obtain ⟨x, mid, y, rfl, hx, hy⟩ := h
  have hl : (x :: (mid ++ [y])).length = mid.length + 2 := by simp
  have hi := (List.getElem?_eq_some_iff.1 ht).1
  by_contra hc
  have : i = mid.length + 1 := by omega
  subst this
  rw [List.getElem?_cons_succ, List.getElem?_append_right (Nat.le_refl _), Nat.sub_self] at ht
  simp only [List.getElem?_cons_zero, Option.some.injEq] at ht
  exact hn (ht ▸ hy)

/-! ### Loops -/

/-- A step that ends and leaves less to look at, keeping `P`. -/
def StepOk (p : Tok → Bool) (P : List Tok → Prop) (step : List Tok → Nat → Nat → Except PyErr (List Tok × Nat × Nat)) : Prop :=
  ∀ l i n t, P l → l[i]? = some t → p t = true →
    ∃ l' i' n', step l i n = .ok (l', i', n') ∧ P l' ∧ l'.length - i' ≤ l.length - i

theorem loop_ok {p : Tok → Bool} {P : List Tok → Prop}
    {step : List Tok → Nat → Nat → Except PyErr (List Tok × Nat × Nat)} (hs : StepOk p P step) :
    ∀ (fuel : Nat) (l : List Tok) (start n : Nat), P l → l.length - start < fuel →
    ∃ l' n', loop p step fuel l start n = .ok (l', n') ∧ P l'
  | 0, l, start, n, _, h => by omega
  | fuel + 1, l, start, n, hp, h => by
    rw [loop]
    cases hf : findFrom p l start with
    | none => exact ⟨l, n, rfl, hp⟩
    | some i =>
      obtain ⟨hsi, t, ht, hpt, _⟩ := findFrom_spec hf
      obtain ⟨l', i', n', hst, hp', hl⟩ := hs l i n t hp ht hpt
      have hi := (List.getElem?_eq_some_iff.1 ht).1
      simp only [hst]
      exact loop_ok hs fuel l' (i' + 1) n' hp' (by omega)

theorem put_ok {c : Cls} {extend : Bool} {l : List Tok} {a e k n : Nat} (ha : a ≤ e) (he : e < l.length) :
    ∃ l' n', put c extend l a e k n = .ok (l', k, n') ∧ l'.length = l.length - e + a := by
  obtain ⟨l', g, n', hg⟩ := groupTokens_ok (l := l) (a := a) (by omega) c (e + 1) extend n
  refine ⟨l', n', by rw [put, hg], ?_⟩
  rcases groupTokens_cases hg with ⟨_, _, _, _, e2⟩ | ⟨_, _, _, _, _, _, _, _, _, _, _, e2⟩
  · rw [e2]
    simp only [List.length_append, List.length_take, List.length_cons, List.length_drop]
    omega
  · rw [e2]
    simp only [List.length_append, List.length_take, List.length_cons, List.length_drop]
    omega

theorem put_made {c : Cls} {l : List Tok} {a e : Nat} (k n : Nat) (ha : a ≤ e) (he : e < l.length) :
    put c false l a e k n =
      .ok (l.take a ++ .grp n c none (slice l a (e + 1)) :: l.drop (max a (e + 1)), k, n + 1) ∧
    (l.take a ++ Tok.grp n c none (slice l a (e + 1)) :: l.drop (max a (e + 1))).length = l.length - e + a := by
  constructor
  · rw [put, groupTokens_made (by omega)]
  · simp only [List.length_append, List.length_take, List.length_cons, List.length_drop]
    omega

/-- The tokens of a group of class `d` in the early part. -/
def EarlyList (d : Cls) (l : List Tok) : Prop := Ends d l ∧ EveryAll Early l

theorem EarlyList.made {d : Cls} {l : List Tok} (h : EarlyList d l) {a b n : Nat} {c : Cls}
    (hc : Ends c (slice l a b)) (hr : Remark c (slice l a b)) (ha : a < l.length) (hlt : a < b) (hab : ∀ o c, EndsWith o c l → 0 < a ∧ max a b < l.length) :
    EarlyList d (l.take a ++ .grp n c none (slice l a b) :: l.drop (max a b)) :=
  ⟨h.1.made _ hab, every_made h.2 ⟨rfl, .inl (slice_ne ha hlt), hc, hr⟩⟩

theorem not_isLeaf {v : String} {t : Tok} (h : ∀ u, IsLeaf v u → u ≠ t) : ¬ IsLeaf v t := fun hl => h t hl rfl

theorem slice_remark {l : List Tok} (hl : EveryAll Early l) {i e : Nat} {t : Tok} (ht : l[i]? = some t)
    (hp : below t Comment = true) (hie : i < e)
    (hmid : ∀ k u, i ≤ k → k < e → l[k]? = some u → (!(below u Comment || u.isWhitespace)) = false) :
    ∃ x r, leavesAll (slice l i e) = x :: r ∧ below x Comment = true ∧
      ∀ y ∈ r, below y Comment = true ∨ y.isWhitespace = true := by
  obtain ⟨hi, hit⟩ := List.getElem?_eq_some_iff.1 ht
  have hs : slice l i e = t :: slice l (i + 1) e := by
    unfold slice
    rw [List.drop_eq_getElem_cons (by rw [List.length_take]; omega), List.getElem_take, hit]
  have hleaf : ∀ u ∈ l, (below u Comment = true ∨ u.isWhitespace = true) → leaves u = [u] := by
    intro u hu hq
    cases u with
    | leaf => rfl
    | grp j c ty k =>
      have h1 := ((everyAll_iff l).1 hl _ hu).1.1
      subst h1
      simp [below, Tok.ttype?, Tok.isWhitespace] at hq
  have hall : ∀ u ∈ slice l (i + 1) e, below u Comment = true ∨ u.isWhitespace = true := by
    intro u hu
    obtain ⟨k, hk⟩ := List.mem_iff_getElem?.1 hu
    unfold slice at hk
    rw [List.getElem?_drop, List.getElem?_take] at hk
    split at hk
    · have := hmid _ u (by omega) (by assumption) hk
      rwa [Bool.not_eq_false', Bool.or_eq_true] at this
    · cases hk
  rw [hs, leavesAll, hleaf t (List.mem_of_getElem? ht) (.inl hp)]
  refine ⟨t, leavesAll (slice l (i + 1) e), rfl, hp, ?_⟩
  have hsub : ∀ u ∈ slice l (i + 1) e, u ∈ l := fun u hu => mem_slice hu
  generalize slice l (i + 1) e = m at hall hsub
  induction m with
  | nil => intro y hy; cases hy
  | cons u m ih =>
    intro y hy
    rw [leavesAll, hleaf u (hsub u (List.mem_cons_self ..)) (hall u (List.mem_cons_self ..))] at hy
    rcases List.mem_append.1 hy with hy | hy
    · rw [List.mem_singleton.1 hy]; exact hall u (List.mem_cons_self ..)
    · exact ih (fun v hv => hall v (List.mem_cons_of_mem _ hv)) (fun v hv => hsub v (List.mem_cons_of_mem _ hv)) y hy

theorem commentStep_ok (d : Cls) : StepOk (below · Comment) (EarlyList d) commentStep := by
  intro l i n t hl ht hp
  have hi := (List.getElem?_eq_some_iff.1 ht).1
  unfold commentStep
  cases hf : findFrom (fun t => !(below t Comment || t.isWhitespace)) l i with
  | none => exact ⟨l, i, n, rfl, hl, Nat.le_refl _⟩
  | some e =>
    obtain ⟨hie, u, hu, hpu, hmid⟩ := findFrom_spec hf
    have hel := (List.getElem?_eq_some_iff.1 hu).1
    have hne : i ≠ e := by
      rintro rfl
      rw [ht] at hu
      cases hu
      simp only [hp, Bool.true_or, Bool.not_true] at hpu
      cases hpu
    obtain ⟨h1, h2⟩ := put_made (c := .comment) (l := l) (a := i) (e := e - 1) i n (by omega) (by omega)
    refine ⟨_, _, _, h1, hl.made trivial (fun _ => ?_) (by omega) (by omega) ?_, by rw [h2]; omega⟩
    · rw [show e - 1 + 1 = e by omega]
      exact slice_remark hl.2 ht hp (by omega) hmid
    intro o c ho
    refine ⟨ho.first ht ?_, by omega⟩
    intro hlf
    have := hlf.notBelow (ty := Comment) (by decide)
    exact absurd hp (by simp [this])

theorem tokenNext_spec {l : List Tok} {i j : Nat} (h : tokenNext l i = some j) :
    i < j ∧ j < l.length ∧ ∃ t, l[j]? = some t := by
  obtain ⟨h1, t, h2, _⟩ := findFrom_spec h
  exact ⟨h1, (List.getElem?_eq_some_iff.1 h2).1, t, h2⟩

theorem tokenPrev_spec {l : List Tok} {i j : Nat} (h : tokenPrev l i = some j) :
    j < i ∧ ∃ t, l[j]? = some t := by
  unfold tokenPrev at h
  split at h
  · cases h
  · rename_i k hk
    cases h
    rw [List.findIdx?_eq_some_iff_getElem] at hk
    obtain ⟨hk, _⟩ := hk
    rw [List.length_reverse] at hk
    have := hk
    rw [List.length_take] at this ⊢
    exact ⟨by omega, l[min i l.length - 1 - k]'(by omega), List.getElem?_eq_getElem (by omega)⟩

/-- Between there are blanks only. -/
theorem tokenPrev_between {l : List Tok} {i j : Nat} (h : tokenPrev l i = some j) {k : Nat} {u : Tok} (hj : j < k) (hi : k < i)
    (hu : l[k]? = some u) : u.isWhitespace = true := by
  have hkl := (List.getElem?_eq_some_iff.1 hu).1
  unfold tokenPrev at h
  split at h
  · cases h
  · rename_i q hq
    cases h
    rw [List.findIdx?_eq_some_iff_getElem] at hq
    obtain ⟨hq1, _, hq2⟩ := hq
    rw [List.length_reverse] at hq1
    have hlt := hq1
    rw [List.length_take] at hlt hj
    have hb := hq2 (min i l.length - 1 - k) (by omega)
    rw [List.getElem_reverse, List.getElem_take] at hb
    have e : (l.take i).length - 1 - (min i l.length - 1 - k) = k := by rw [List.length_take]; omega
    simp only [e, (List.getElem?_eq_some_iff.1 hu).2] at hb
    simpa using hb

theorem functionStep_ok (d : Cls) : StepOk (below · Name) (EarlyList d) functionStep := by
  intro l i n t hl ht hp
  unfold functionStep
  cases hf : tokenNext l i with
  | none => exact ⟨l, i, n, rfl, hl, Nat.le_refl _⟩
  | some j =>
    obtain ⟨hij, hj, u, hu⟩ := tokenNext_spec hf
    simp only [hu]
    split
    swap
    · exact ⟨l, i, n, rfl, hl, Nat.le_refl _⟩
    rename_i hin
    obtain ⟨h1, h2⟩ := put_made (c := .function) (l := l) (a := i) (e := j) i n (by omega) (by omega)
    refine ⟨_, _, _, h1, hl.made trivial (.other (by decide)) (by omega) (by omega) ?_, by rw [h2]; omega⟩
    intro o c ho
    refine ⟨ho.first ht ?_, ?_⟩
    · intro hlf
      have := hlf.notBelow (ty := Name) (by decide)
      exact absurd hp (by simp [this])
    · have := ho.last hu (by intro hlf; rw [hlf.notInst] at hin; cases hin)
      omega

theorem whereStep_ok (d : Cls) : StepOk isWhere (EarlyList d) (whereStep d) := by
  intro l i n t hl ht hp
  have hi := (List.getElem?_eq_some_iff.1 ht).1
  have hnl : ∀ v, ¬ IsLeaf v t := by
    intro v hv
    rw [isWhere, hv.notMatch (.inl (by decide))] at hp
    cases hp
  unfold whereStep
  cases hf : findFrom (isMatch · Keyword whereEnds) l (i + 1) with
  | some e =>
    obtain ⟨hie, u, hu, hpu, _⟩ := findFrom_spec hf
    have hel := (List.getElem?_eq_some_iff.1 hu).1
    obtain ⟨h1, h2⟩ := put_made (c := .wheres) (l := l) (a := i) (e := e - 1) i n (by omega) (by omega)
    refine ⟨_, _, _, h1, hl.made trivial (.other (by decide)) (by omega) (by omega) ?_, by rw [h2]; omega⟩
    intro o c ho
    exact ⟨ho.first ht (hnl o), by omega⟩
  | none =>
    simp only
    have key : ∃ e, lastGroupable d l = .ok e ∧ i ≤ e ∧ e < l.length ∧
        ((d = .parenthesis ∨ d = .squareBrackets) → 0 < i ∧ e + 1 < l.length) := by
      unfold lastGroupable
      by_cases hd : d = .parenthesis ∨ d = .squareBrackets
      · have hends : ∃ o c, EndsWith o c l := by
          rcases hd with rfl | rfl
          · exact ⟨_, _, hl.1⟩
          · exact ⟨_, _, hl.1⟩
        obtain ⟨o, c, ho⟩ := hends
        have h1 := ho.first ht (hnl o)
        have h2 := ho.last ht (hnl c)
        rw [if_pos hd, if_neg (by omega)]
        exact ⟨_, rfl, by omega, by omega, fun _ => ⟨h1, by omega⟩⟩
      · rw [if_neg hd, if_neg (by omega)]
        exact ⟨_, rfl, by omega, by omega, fun h => absurd h hd⟩
    obtain ⟨e, hle, h1, h2, h3⟩ := key
    rw [hle]
    simp only
    obtain ⟨h4, h5⟩ := put_made (c := .wheres) (l := l) (a := i) (e := e) i n (by omega) (by omega)
    refine ⟨_, _, _, h4, ⟨?_, every_made hl.2 ⟨rfl, .inl (slice_ne (by omega) (by omega)), trivial, .other (by decide)⟩⟩, by rw [h5]; omega⟩
    by_cases hd : d = .parenthesis ∨ d = .squareBrackets
    · refine hl.1.made _ ?_
      intro _ _ _
      have := h3 hd
      omega
    · revert hd
      cases d <;> simp [Ends]

theorem identifierStep_ok : StepOk (among · [Symbol, Name]) (EveryAll Sound) identifierStep := by
  intro l i n t hl ht _
  have hi := (List.getElem?_eq_some_iff.1 ht).1
  obtain ⟨l', n', h1, h2⟩ := put_ok (c := .identifier) (extend := false) (k := i) (n := n) (Nat.le_refl i) hi
  exact ⟨l', i, n', h1, put_sound h1 hl (by omega) ⟨by decide, by decide⟩, by omega⟩

theorem aliasedStep_ok (p : Tok → Bool) : StepOk p (EveryAll Sound) aliasedStep := by
  intro l i n t hl ht _
  unfold aliasedStep
  cases hf : tokenNext l i with
  | none => exact ⟨l, i, n, rfl, hl, Nat.le_refl _⟩
  | some j =>
    obtain ⟨hij, hj, u, hu⟩ := tokenNext_spec hf
    simp only [hu]
    split
    · obtain ⟨l', n', h1, h2⟩ := put_ok (c := .identifier) (extend := true) (k := i) (n := n) (Nat.le_of_lt hij) hj
      exact ⟨l', i, n', h1, put_sound h1 hl (by omega) ⟨by decide, by decide⟩, by omega⟩
    · exact ⟨l, i, n, rfl, hl, Nat.le_refl _⟩

/-- The leaves of tokens that are blanks or comments. -/
theorem leaves_remark : ∀ {m : List Tok}, EveryAll Sound m → (∀ u ∈ m, u.isWhitespace = true ∨ u.isInst .comment = true) →
    ∀ y ∈ leavesAll m, below y Comment = true ∨ y.isWhitespace = true
  | [], _, _, y, hy => by cases hy
  | u :: m, hs, h, y, hy => by
    rw [leavesAll] at hy
    rcases List.mem_append.1 hy with hy | hy
    · cases u with
      | leaf i k ty v =>
        rw [leaves] at hy
        rcases List.mem_singleton.1 hy with rfl
        exact .inr ((h _ (List.mem_cons_self ..)).resolve_right (by simp [Tok.isInst]))
      | grp i c ty k =>
        have hc : c = .comment := by
          have := (h _ (List.mem_cons_self ..)).resolve_left (by simp [Tok.isWhitespace])
          simpa [Tok.isInst] using this
        obtain ⟨x, r, e, hx, hr⟩ := hs.1.1.2.2 hc
        rw [leaves, e] at hy
        rcases List.mem_cons.1 hy with rfl | hy
        · exact .inl hx
        · exact hr y hy
    · exact leaves_remark hs.2 (fun v hv => h v (List.mem_cons_of_mem _ hv)) y hy

theorem alignStep_sound {l : List Tok} {i j n : Nat} {t u : Tok} {l' : List Tok} {k n' : Nat} (hl : EveryAll Sound l)
    (ht : l[i]? = some t) (hp : t.isInst .comment = true) (hf : tokenPrev l i = some j) (hu : l[j]? = some u)
    (hg : u.isGroup = true) (h : put .tokenList true l j i j n = .ok (l', k, n')) : EveryAll Sound l' := by
  obtain ⟨hij, _⟩ := tokenPrev_spec hf
  have hi := (List.getElem?_eq_some_iff.1 ht).1
  have hus := (everyAll_iff l).1 hl u (List.mem_of_getElem? hu)
  cases u with
  | leaf => simp [Tok.isGroup] at hg
  | grp q d ty ks =>
    unfold put groupTokens at h
    simp only [hu] at h
    rw [if_pos ⟨trivial, by simp [Tok.isInst]⟩] at h
    simp only [Except.ok.injEq, Prod.mk.injEq] at h
    obtain ⟨rfl, _, _⟩ := h
    rw [everyAll_append]
    refine ⟨every_take hl j, ⟨⟨hus.1.1, hus.1.2.1.imp (fun h => by simp [h]) id, ?_⟩, ?_⟩, every_drop hl _⟩
    · intro e
      obtain ⟨x, r, e1, hx, hr⟩ := hus.1.2.2 e
      refine ⟨x, r ++ leavesAll (slice l (j + 1) (i + 1)), by rw [leavesAll_append, e1]; rfl, hx, ?_⟩
      intro y hy
      rcases List.mem_append.1 hy with hy | hy
      · exact hr y hy
      · refine leaves_remark (every_slice hl _ _) ?_ y hy
        intro v hv
        obtain ⟨k, hk⟩ := List.mem_iff_getElem?.1 hv
        unfold slice at hk
        rw [List.getElem?_drop, List.getElem?_take] at hk
        split at hk
        · rcases Nat.lt_or_ge (j + 1 + k) i with hlt | hge
          · exact .inl (tokenPrev_between hf (by omega) hlt hk)
          · have : j + 1 + k = i := by omega
            rw [this, ht] at hk
            cases hk
            exact .inr hp
        · cases hk
    · rw [everyAll_append]
      exact ⟨hus.2, every_slice hl _ _⟩

theorem alignStep_ok : StepOk (·.isInst .comment) (EveryAll Sound) alignStep := by
  intro l i n t hl ht hpt
  have hi := (List.getElem?_eq_some_iff.1 ht).1
  unfold alignStep
  cases hf : tokenPrev l i with
  | none => exact ⟨l, i, n, rfl, hl, Nat.le_refl _⟩
  | some j =>
    obtain ⟨hij, u, hu⟩ := tokenPrev_spec hf
    simp only [hu]
    split
    · rename_i hgr
      obtain ⟨l', n', h1, h2⟩ := put_ok (c := .tokenList) (extend := true) (k := j) (n := n) (Nat.le_of_lt hij) hi
      exact ⟨l', j, n', h1, alignStep_sound hl ht hpt hf hu hgr h1, by omega⟩
    · exact ⟨l, i, n, rfl, hl, Nat.le_refl _⟩

theorem orderStep_ok (p : Tok → Bool) : StepOk p (EveryAll Sound) orderStep := by
  intro l i n t hl ht _
  have hi := (List.getElem?_eq_some_iff.1 ht).1
  unfold orderStep
  cases hf : tokenPrev l i with
  | none => exact ⟨l, i, n, rfl, hl, Nat.le_refl _⟩
  | some j =>
    obtain ⟨hij, u, hu⟩ := tokenPrev_spec hf
    simp only [hu]
    split
    · obtain ⟨l', n', h1, h2⟩ := put_ok (c := .identifier) (extend := false) (k := j) (n := n) (Nat.le_of_lt hij) hi
      exact ⟨l', j, n', h1, put_sound h1 hl (by omega) ⟨by decide, by decide⟩, by omega⟩
    · exact ⟨l, i, n, rfl, hl, Nat.le_refl _⟩

/-! ### The functions -/

/-- A function over the tokens of a group that ends and keeps `P`. -/
def FunOk (P : Cls → List Tok → Prop) (f : Cls → List Tok → Nat → Except PyErr (List Tok × Nat)) : Prop :=
  ∀ c l n, P c l → ∃ l' n', f c l n = .ok (l', n') ∧ P c l'

theorem groupComments_ok : FunOk EarlyList groupComments :=
  fun c l n h => loop_ok (commentStep_ok c) _ l 0 n h (by omega)

theorem groupFunctions_ok : FunOk EarlyList groupFunctions := by
  intro c l n h
  unfold groupFunctions
  split
  · exact ⟨l, n, rfl, h⟩
  · exact loop_ok (functionStep_ok c) _ l 0 n h (by omega)

theorem groupWhere_ok : FunOk EarlyList groupWhere :=
  fun c l n h => loop_ok (whereStep_ok c) _ l 0 n h (by omega)

theorem groupIdentifier_ok : FunOk (fun _ l => EveryAll Sound l) groupIdentifier :=
  fun _ l n h => loop_ok identifierStep_ok _ l 0 n h (by omega)

theorem groupAliased_ok : FunOk (fun _ l => EveryAll Sound l) groupAliased :=
  fun _ l n h => loop_ok (aliasedStep_ok _) _ l 0 n h (by omega)

theorem alignComments_ok : FunOk (fun _ l => EveryAll Sound l) alignComments :=
  fun _ l n h => loop_ok alignStep_ok _ l 0 n h (by omega)

theorem groupOrder_ok (l : List Tok) (n : Nat) (h : EveryAll Sound l) :
    ∃ l' n', groupOrder l n = .ok (l', n') ∧ EveryAll Sound l' :=
  loop_ok (orderStep_ok (below · Order)) (l.length + 1) l 0 n h (by omega)

theorem lastParen_spec : ∀ {l : List Tok} {i j : Nat}, lastParen l i = some j → i ≤ j ∧ j < i + l.length
  | [], i, j, h => by simp [lastParen] at h
  | t :: r, i, j, h => by
    rw [lastParen] at h
    split at h
    · rename_i k hk
      cases h
      have := lastParen_spec hk
      simp only [List.length_cons]
      omega
    · split at h
      · cases h
        simp only [List.length_cons]
        omega
      · cases h

theorem groupValues_ok (l : List Tok) (n : Nat) (h : EveryAll Sound l) :
    ∃ l' n', groupValues l n = .ok (l', n') ∧ EveryAll Sound l' := by
  unfold groupValues
  cases hf : findFrom (isMatch · Keyword ["VALUES"]) l 0 with
  | none => exact ⟨l, n, rfl, h⟩
  | some s =>
    simp only
    cases hl : lastParen (l.drop s) s with
    | none => exact ⟨l, n, rfl, h⟩
    | some e =>
      simp only
      have := lastParen_spec hl
      rw [List.length_drop] at this
      obtain ⟨l', n', h1, _⟩ := put_ok (c := .values) (extend := true) (l := l) (k := s) (n := n) this.1 (by omega)
      rw [h1]
      exact ⟨l', n', rfl, put_sound h1 h this.1 ⟨by decide, by decide⟩⟩

/-- A bracket stays the same leaf. -/
def KeepsLeaf (t t' : Tok) : Prop := ∀ v, IsLeaf v t → t' = t

theorem forall₂_split {R : Tok → Tok → Prop} : ∀ {a b l : List Tok}, List.Forall₂ R (a ++ b) l →
    ∃ a' b', List.Forall₂ R a a' ∧ List.Forall₂ R b b' ∧ l = a' ++ b'
  | [], b, l, h => ⟨[], l, .nil, h, rfl⟩
  | x :: a, b, l, h => by
    obtain ⟨x', r, hx, hr, rfl⟩ := List.forall₂_cons_left_iff.1 h
    obtain ⟨a', b', ha, hb, rfl⟩ := forall₂_split hr
    exact ⟨x' :: a', b', .cons hx ha, hb, rfl⟩

theorem EndsWith.keep {o c : String} {l l' : List Tok} (h : EndsWith o c l) (hk : List.Forall₂ KeepsLeaf l l') :
    EndsWith o c l' := by
  obtain ⟨a, mid, b, rfl, ha, hb⟩ := h
  obtain ⟨a', r, hka, hkr, rfl⟩ := List.forall₂_cons_left_iff.1 hk
  obtain ⟨mid', b2, hkm, hkb, rfl⟩ := forall₂_split hkr
  obtain ⟨b', r', hkb', hkn, rfl⟩ := List.forall₂_cons_left_iff.1 hkb
  cases hkn
  rw [hka o ha, hkb' c hb]
  exact ⟨a, mid', b, rfl, ha, hb⟩

theorem Ends.keep {d : Cls} {l l' : List Tok} (h : Ends d l) (hk : List.Forall₂ KeepsLeaf l l') : Ends d l' := by
  cases d <;> first | trivial | exact EndsWith.keep h hk

mutual
theorem recursed_early {cs : List Cls} {f : Cls → List Tok → Nat → Except PyErr (List Tok × Nat)}
    (hf : FunOk EarlyList f) (hg : ∀ c, FunGrows (f c)) : ∀ (t : Tok) (n : Nat), Every Early t →
    ∃ t' n', recursed cs f t n = .ok (t', n') ∧ Every Early t' ∧ KeepsLeaf t t'
  | .leaf i m ty v, n, h => ⟨_, _, rfl, trivial, fun _ _ => rfl⟩
  | .grp i c ty l, n, h => by
    obtain ⟨l1, n1, h1, h2, h3⟩ := recursedAll_early (cs := cs) hf hg l n h.2
    obtain ⟨l2, n2, h4, h5⟩ := hf c l1 n1 ⟨h.1.2.2.1.keep h3, h2⟩
    have hne := (recursedAll_grown hg l n l1 n1 h1).trans (hg c _ _ _ _ h4)
    refine ⟨.grp i c ty l2, n2, ?_, ⟨⟨h.1.1, h.1.2.1.imp hne.ne id, h5.1, hne.remark h.1.2.2.2⟩, h5.2⟩, ?_⟩
    · rw [recursed, h1]
      simp only [h4]
    · intro v hv
      have := hv.2
      simp [Tok.isGroup] at this
theorem recursedAll_early {cs : List Cls} {f : Cls → List Tok → Nat → Except PyErr (List Tok × Nat)}
    (hf : FunOk EarlyList f) (hg : ∀ c, FunGrows (f c)) : ∀ (l : List Tok) (n : Nat), EveryAll Early l →
    ∃ l' n', recursedAll cs f l n = .ok (l', n') ∧ EveryAll Early l' ∧ List.Forall₂ KeepsLeaf l l'
  | [], n, _ => ⟨_, _, rfl, trivial, .nil⟩
  | t :: r, n, h => by
    have h1 : ∃ t' n', (if t.isAny cs then .ok (t, n) else recursed cs f t n) = Except.ok (ε := PyErr) (t', n') ∧
        Every Early t' ∧ KeepsLeaf t t' := by
      split
      · exact ⟨t, n, rfl, h.1, fun _ _ => rfl⟩
      · exact recursed_early hf hg t n h.1
    obtain ⟨t', n', h2, h3, h4⟩ := h1
    obtain ⟨r', n2, h5, h6, h7⟩ := recursedAll_early (cs := cs) hf hg r n' h.2
    refine ⟨t' :: r', n2, ?_, ⟨h3, h6⟩, .cons h4 h7⟩
    rw [recursedAll, h2]
    simp only [h5]
end

mutual
theorem recursed_ok {cs : List Cls} {f : Cls → List Tok → Nat → Except PyErr (List Tok × Nat)}
    (hf : FunOk (fun _ l => EveryAll Sound l) f) (hg : ∀ c, FunGrows (f c)) : ∀ (t : Tok) (n : Nat), Every Sound t →
    ∃ t' n', recursed cs f t n = .ok (t', n') ∧ Every Sound t'
  | .leaf i m ty v, n, _ => ⟨_, _, rfl, trivial⟩
  | .grp i c ty l, n, h => by
    obtain ⟨l1, n1, h1, h2⟩ := recursedAll_ok (cs := cs) hf hg l n h.2
    obtain ⟨l2, n2, h4, h5⟩ := hf c l1 n1 h2
    have hne := (recursedAll_grown hg l n l1 n1 h1).trans (hg c _ _ _ _ h4)
    refine ⟨.grp i c ty l2, n2, ?_, ⟨h.1.1, h.1.2.1.imp hne.ne id, hne.remark h.1.2.2⟩, h5⟩
    rw [recursed, h1]
    simp only [h4]
theorem recursedAll_ok {cs : List Cls} {f : Cls → List Tok → Nat → Except PyErr (List Tok × Nat)}
    (hf : FunOk (fun _ l => EveryAll Sound l) f) (hg : ∀ c, FunGrows (f c)) : ∀ (l : List Tok) (n : Nat),
    EveryAll Sound l → ∃ l' n', recursedAll cs f l n = .ok (l', n') ∧ EveryAll Sound l'
  | [], n, _ => ⟨_, _, rfl, trivial⟩
  | t :: r, n, h => by
    have h1 : ∃ t' n', (if t.isAny cs then .ok (t, n) else recursed cs f t n) = Except.ok (ε := PyErr) (t', n') ∧
        Every Sound t' := by
      split
      · exact ⟨t, n, rfl, h.1⟩
      · exact recursed_ok hf hg t n h.1
    obtain ⟨t', n', h2, h3⟩ := h1
    obtain ⟨r', n2, h5, h6⟩ := recursedAll_ok (cs := cs) hf hg r n' h.2
    refine ⟨t' :: r', n2, ?_, h3, h6⟩
    rw [recursedAll, h2]
    simp only [h5]
end

/-! ### `_group_matching` -/

/-- The brackets of the other kind neither begin nor end a group; those of the own kind do. -/
structure Fair (p : Pair) : Prop where
  cls : p.cls ≠ .comment
  other : ∀ v ∈ ["(", ")", "[", "]"], p.ty ≠ Punctuation ∨ ((∀ w ∈ p.opens, w ≠ v) ∧ p.close ≠ v) ∨
    (p.cls = .parenthesis ∧ (v = "(" ∨ v = ")")) ∨ (p.cls = .squareBrackets ∧ (v = "[" ∨ v = "]"))
  made : ∀ l, (∃ a mid b, l = a :: (mid ++ [b]) ∧ (isMatch a p.ty p.opens = true ∧ a.isGroup = false) ∧
    isMatch b p.ty [p.close] = true ∧ b.isGroup = false) → Ends p.cls l

/-- The places of the opening tokens: falling, and each holds one. -/
def OpensOk (p : Pair) (opens : List Nat) (l : List Tok) : Prop :=
  opens.Pairwise (· > ·) ∧ ∀ o ∈ opens, ∃ a, l[o]? = some a ∧ isMatch a p.ty p.opens = true ∧ a.isGroup = false

theorem OpensOk.more {p : Pair} {opens : List Nat} {l : List Tok} (h : OpensOk p opens l) (t : Tok) :
    OpensOk p opens (l ++ [t]) := by
  refine ⟨h.1, fun o ho => ?_⟩
  obtain ⟨a, h1, h2⟩ := h.2 o ho
  exact ⟨a, by rw [List.getElem?_append_left (List.getElem?_eq_some_iff.1 h1).1]; exact h1, h2⟩

theorem OpensOk.lt {p : Pair} {opens : List Nat} {l : List Tok} (h : OpensOk p opens l) {o : Nat} (ho : o ∈ opens) :
    o < l.length := by
  obtain ⟨a, h1, _⟩ := h.2 o ho
  exact (List.getElem?_eq_some_iff.1 h1).1

theorem OpensOk.open {p : Pair} {opens : List Nat} {l : List Tok} (h : OpensOk p opens l) {t : Tok}
    (ht : isMatch t p.ty p.opens = true ∧ t.isGroup = false) : OpensOk p (l.length :: opens) (l ++ [t]) := by
  refine ⟨List.pairwise_cons.2 ⟨fun o ho => h.lt ho, h.1⟩, ?_⟩
  intro o ho
  rcases List.mem_cons.1 ho with rfl | ho'
  · exact ⟨t, by simp, ht⟩
  · exact (h.more t).2 o ho'

theorem OpensOk.close {p : Pair} {o : Nat} {os : List Nat} {l : List Tok} (h : OpensOk p (o :: os) l) (g : Tok) :
    OpensOk p os (l.take o ++ [g]) := by
  have hp := List.pairwise_cons.1 h.1
  refine ⟨hp.2, fun o' ho' => ?_⟩
  obtain ⟨a, h1, h2⟩ := h.2 o' (List.mem_cons_of_mem _ ho')
  have hlt := hp.1 o' ho'
  have hl := (List.getElem?_eq_some_iff.1 h1).1
  refine ⟨a, ?_, h2⟩
  rw [List.getElem?_append_left (by rw [List.length_take]; omega), List.getElem?_take, if_pos hlt]
  exact h1

theorem slice_ends {l : List Tok} {o : Nat} {a t : Tok} (ha : l[o]? = some a) :
    ∃ mid, slice (l ++ [t]) o (l ++ [t]).length = a :: (mid ++ [t]) := by
  refine ⟨l.drop (o + 1), ?_⟩
  obtain ⟨hl, e⟩ := List.getElem?_eq_some_iff.1 ha
  unfold slice
  rw [List.take_length, List.drop_append_of_le_length (by omega), List.drop_eq_getElem_cons hl, e]
  rfl

theorem closeAt_ok {p : Pair} (hp : Fair p) {opens : List Nat} {done : List Tok} {t : Tok} (n : Nat)
    (ho : OpensOk p opens done) (hd : EveryAll Early done) (ht : isMatch t p.ty [p.close] = true ∧ t.isGroup = false)
    (het : Every Early t) :
    ∃ os d' n', closeAt p opens (done ++ [t]) n = .ok (os, d', n') ∧ OpensOk p os d' ∧ EveryAll Early d' ∧
      (∀ o ∈ os, o ∈ opens) := by
  unfold closeAt
  have hall : EveryAll Early (done ++ [t]) := by
    rw [everyAll_append]; exact ⟨hd, het, trivial⟩
  cases opens with
  | nil =>
    exact ⟨[], _, n, rfl, ⟨List.Pairwise.nil, by simp⟩, hall, by simp⟩
  | cons o os =>
    obtain ⟨a, h1, h2⟩ := ho.2 o (List.mem_cons_self ..)
    have hol := ho.lt (List.mem_cons_self ..)
    have hlen : o < (done ++ [t]).length := by simp; omega
    simp only
    rw [groupTokens_made hlen]
    simp only
    have hmax : max o (done ++ [t]).length = (done ++ [t]).length := by omega
    refine ⟨os, _, n + 1, rfl, ?_, ?_, fun o' h' => List.mem_cons_of_mem _ h'⟩
    · rw [hmax, List.drop_length]
      have := ho.close (.grp n p.cls none (slice (done ++ [t]) o (done ++ [t]).length))
      rw [List.take_append_of_le_length (Nat.le_of_lt hol)]
      exact this
    · obtain ⟨mid, hs⟩ := slice_ends (t := t) h1
      exact every_made hall ⟨rfl, .inl (by rw [hs]; simp), hp.made _ ⟨a, mid, t, hs, h2, ht⟩, .other hp.cls⟩

/-- A token that `_group_matching` leaves where it is. -/
def Passive (p : Pair) (t : Tok) : Prop :=
  t.isGroup = false ∧ isMatch t p.ty p.opens = false ∧ isMatch t p.ty [p.close] = false

theorem matchLoop_last {p : Pair} {b : Tok} (hb : Passive p b) : ∀ (r : List Tok) (opens : List Nat) (done : List Tok)
    (n : Nat), matchLoop p (r ++ [b]) opens done n =
      (match matchLoop p r opens done n with
       | .error e => .error e
       | .ok (l', n') => .ok (l' ++ [b], n'))
  | [], opens, done, n => by
    obtain ⟨h1, h2, h3⟩ := hb
    rw [List.nil_append, matchLoop]
    simp [matchLoop, h1, h2, h3]
  | t :: r, opens, done, n => by
    rw [List.cons_append, matchLoop, matchLoop]
    split
    · exact matchLoop_last hb r _ _ _
    · split
      · split
        · rfl
        · exact matchLoop_last hb r _ _ _
      · split
        · exact matchLoop_last hb r _ _ _
        · split
          · split
            · rfl
            · exact matchLoop_last hb r _ _ _
          · exact matchLoop_last hb r _ _ _

theorem matchLoop_first {p : Pair} : ∀ (r : List Tok) (opens : List Nat) (x : Tok) (d : List Tok) (n : Nat)
    (l' : List Tok) (n' : Nat), matchLoop p r opens (x :: d) n = .ok (l', n') → (∀ o ∈ opens, 0 < o) →
    ∃ r', l' = x :: r'
  | [], opens, x, d, n, l', n', h, _ => by
    simp only [matchLoop, Except.ok.injEq, Prod.mk.injEq] at h
    exact ⟨d, h.1.symm⟩
  | t :: r, opens, x, d, n, l', n', h, hpos => by
    rw [matchLoop] at h
    split at h
    · exact matchLoop_first r _ _ _ _ _ _ h hpos
    · split at h
      · split at h
        · cases h
        · exact matchLoop_first r _ _ _ _ _ _ h hpos
      · split at h
        · refine matchLoop_first r _ _ _ _ _ _ h ?_
          intro o ho
          rcases List.mem_cons.1 ho with rfl | ho'
          · simp
          · exact hpos o ho'
        · split at h
          · cases opens with
            | nil => exact matchLoop_first r _ _ _ _ _ _ h hpos
            | cons o os =>
              rw [closeAt] at h
              split at h
              · cases h
              · rename_i os1 d1 n1 h1
                split at h1
                · cases h1
                · rename_i l2 g2 n2 h2
                  simp only [Except.ok.injEq, Prod.mk.injEq] at h1
                  obtain ⟨rfl, rfl, rfl⟩ := h1
                  have ho := hpos o (List.mem_cons_self ..)
                  obtain ⟨o', rfl⟩ : ∃ o', o = o' + 1 := ⟨o - 1, by omega⟩
                  have hx : ∃ d2, l2 = x :: d2 := by
                    rcases groupTokens_cases h2 with ⟨_, _, _, _, e⟩ | ⟨_, _, _, _, _, _, _, _, _, _, _, e⟩
                    · exact ⟨_, e⟩
                    · exact ⟨_, e⟩
                  obtain ⟨d2, rfl⟩ := hx
                  exact matchLoop_first r _ _ _ _ _ _ h fun o ho => hpos o (List.mem_cons_of_mem _ ho)
          · exact matchLoop_first r _ _ _ _ _ _ h hpos

theorem early_leaf {t : Tok} {ty : TType} {vs : List String} (h : Every Early t) (hm : isMatch t ty vs = true) :
    t.isGroup = false := by
  cases t with
  | leaf => rfl
  | grp i c ty' l =>
    have := isMatch_ttype hm
    rw [Tok.ttype?, h.1.1] at this
    cases this

theorem passive_of_leaf {p : Pair} (hp : Fair p) {v : String} (hv : v ∈ ["(", ")", "[", "]"]) {t : Tok} (h : IsLeaf v t)
    (h1 : p.cls = .parenthesis → ¬ (v = "(" ∨ v = ")")) (h2 : p.cls = .squareBrackets → ¬ (v = "[" ∨ v = "]")) :
    Passive p t := by
  have := hp.other v hv
  rcases this with h3 | ⟨h3, h4⟩ | ⟨h3, h4⟩ | ⟨h3, h4⟩
  · exact ⟨h.2, h.notMatch (.inl h3), h.notMatch (.inl h3)⟩
  · exact ⟨h.2, h.notMatch (.inr h3), h.notMatch (.inr (by simpa using h4))⟩
  · exact absurd h4 (h1 h3)
  · exact absurd h4 (h2 h3)

mutual
theorem matching_early {p : Pair} (hp : Fair p) : ∀ (t : Tok) (n : Nat), Every Early t → t.isInst p.cls = false →
    ∃ t' n', matching p t n = .ok (t', n') ∧ Every Early t'
  | .leaf i m ty v, n, h, _ => ⟨_, _, rfl, trivial⟩
  | .grp i c ty l, n, h, hi => by
    obtain ⟨l', n', h1, h2⟩ := matchLoop_early hp l [] [] n h.2 trivial ⟨List.Pairwise.nil, by simp⟩
    have hne := matchLoop_grown p l [] [] n l' n' h1
    rw [List.nil_append] at hne
    refine ⟨.grp i c ty l', n', by rw [matching, h1], ⟨h.1.1, h.1.2.1.imp hne.ne id, ?_, hne.remark h.1.2.2.2⟩, h2⟩
    have hc : c ≠ p.cls := by
      intro e
      simp [Tok.isInst, e] at hi
    have key : ∀ o e, o ∈ ["(", ")", "[", "]"] → e ∈ ["(", ")", "[", "]"] →
        (p.cls = .parenthesis → ¬ (o = "(" ∨ o = ")")) → (p.cls = .squareBrackets → ¬ (o = "[" ∨ o = "]")) →
        (p.cls = .parenthesis → ¬ (e = "(" ∨ e = ")")) → (p.cls = .squareBrackets → ¬ (e = "[" ∨ e = "]")) →
        EndsWith o e l → EndsWith o e l' := by
      intro o e ho he a1 a2 a3 a4 hends
      obtain ⟨x, mid, y, rfl, hx, hy⟩ := hends
      have px := passive_of_leaf hp ho hx a1 a2
      have py := passive_of_leaf hp he hy a3 a4
      have h1' := h1
      rw [← List.cons_append, matchLoop_last py] at h1'
      split at h1'
      · cases h1'
      · rename_i l2 n2 h5
        simp only [Except.ok.injEq, Prod.mk.injEq] at h1'
        obtain ⟨rfl, rfl⟩ := h1'
        have hh : ∃ r, l2 = x :: r := by
          have hxr : matchLoop p (x :: mid) [] [] n = matchLoop p mid [] [x] n := by
            rw [matchLoop]
            simp [px.1, px.2.1, px.2.2]
          rw [hxr] at h5
          exact matchLoop_first mid [] x [] n l2 n2 h5 (by simp)
        obtain ⟨r, rfl⟩ := hh
        exact ⟨x, r, y, rfl, hx, hy⟩
    have he := h.1.2.2.1
    cases c with
    | parenthesis =>
      exact key "(" ")" (by simp) (by simp) (fun e => absurd e.symm hc) (fun _ => by decide)
        (fun e => absurd e.symm hc) (fun _ => by decide) he
    | squareBrackets =>
      exact key "[" "]" (by simp) (by simp) (fun _ => by decide) (fun e => absurd e.symm hc)
        (fun _ => by decide) (fun e => absurd e.symm hc) he
    | _ => trivial
theorem matchLoop_early {p : Pair} (hp : Fair p) : ∀ (r : List Tok) (opens : List Nat) (done : List Tok) (n : Nat),
    EveryAll Early r → EveryAll Early done → OpensOk p opens done →
    ∃ l' n', matchLoop p r opens done n = .ok (l', n') ∧ EveryAll Early l'
  | [], opens, done, n, _, hd, _ => ⟨done, n, rfl, hd⟩
  | t :: r, opens, done, n, hr, hd, ho => by
    have happ : ∀ t', Every Early t' → EveryAll Early (done ++ [t']) := by
      intro t' h'
      rw [everyAll_append]; exact ⟨hd, h', trivial⟩
    rw [matchLoop]
    split
    · exact matchLoop_early hp r opens (done ++ [t]) n hr.2 (happ t hr.1) (ho.more t)
    · split
      · rename_i hg
        rw [Bool.and_eq_true, Bool.not_eq_true'] at hg
        obtain ⟨t', n1, h4, h5⟩ := matching_early hp t n hr.1 hg.2
        simp only [h4]
        exact matchLoop_early hp r opens (done ++ [t']) n1 hr.2 (happ t' h5) (ho.more t')
      · split
        · rename_i hm
          exact matchLoop_early hp r (done.length :: opens) (done ++ [t]) n hr.2 (happ t hr.1)
            (ho.open ⟨hm, early_leaf hr.1 hm⟩)
        · split
          · rename_i hm
            obtain ⟨os, d', n1, h4, h5, h6, h7⟩ := closeAt_ok hp n ho hd ⟨hm, early_leaf hr.1 hm⟩ hr.1
            simp only [h4]
            exact matchLoop_early hp r os d' n1 hr.2 h6 h5
          · exact matchLoop_early hp r opens (done ++ [t]) n hr.2 (happ t hr.1) (ho.more t)
end

theorem fair_squares : Fair squares where
  cls := by decide
  other := by decide
  made := by
    rintro l ⟨a, mid, b, rfl, ha, hb⟩
    exact ⟨a, mid, b, rfl, ha, hb⟩

theorem fair_parens : Fair parens where
  cls := by decide
  other := by decide
  made := by
    rintro l ⟨a, mid, b, rfl, ha, hb⟩
    exact ⟨a, mid, b, rfl, ha, hb⟩

theorem fair_cases : Fair caseEnd := ⟨by decide, fun _ _ => .inl (by decide), fun _ _ => trivial⟩
theorem fair_ifs : Fair ifEnd := ⟨by decide, fun _ _ => .inl (by decide), fun _ _ => trivial⟩
theorem fair_fors : Fair forEnd := ⟨by decide, fun _ _ => .inl (by decide), fun _ _ => trivial⟩
theorem fair_begins : Fair beginEnd := ⟨by decide, fun _ _ => .inl (by decide), fun _ _ => trivial⟩

end EulerDB.Group
