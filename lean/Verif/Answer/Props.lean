/-
C81: a query through the proxy has the answers that it would have without encryption.
-/
import Verif.Answer.Rewrite
import Verif.Join.Props
import Mathlib.Data.List.Perm.Basic

namespace EulerDB.Answer

open EulerDB EulerDB.Clause EulerDB.Delta EulerDB.Whole EulerDB.Join

/-! ### Lists side by side -/

theorem f2_firsts {α β κ κ' : Type} [DecidableEq κ] [DecidableEq κ'] {R : α → β → Prop} {f : α → κ} {g : β → κ'}
    (h : ∀ a a' b b', R a a' → R b b' → (f a = f b ↔ g a' = g b')) : ∀ {l : List α} {l' : List β}, List.Forall₂ R l l' → List.Forall₂ R (firsts f l) (firsts g l')
  | _, _, .nil => .nil
  | _, _, @List.Forall₂.cons _ _ _ a a' _ _ h1 h2 => by
    rw [firsts, firsts]
    refine .cons h1 (f2_filter (fun b b' hb => ?_) (f2_firsts h h2))
    rw [decide_eq_decide, not_iff_not]
    exact h b b' a a' hb h1

theorem f2_groups {α β κ κ' : Type} [DecidableEq κ] [DecidableEq κ'] {R : α → β → Prop} {f : α → κ} {g : β → κ'}
    (h : ∀ a a' b b', R a a' → R b b' → (f a = f b ↔ g a' = g b')) {l : List α} {l' : List β} (hl : List.Forall₂ R l l') :
    List.Forall₂ (List.Forall₂ R) (groups f l) (groups g l') := by
  unfold groups
  refine f2_map (R := R) (fun a a' ha => f2_filter (fun b b' hb => ?_) hl) (f2_firsts h hl)
  rw [decide_eq_decide]
  exact h b b' a a' hb ha

theorem f2_units {α β κ κ' : Type} [DecidableEq κ] [DecidableEq κ'] {R : α → β → Prop} {f : α → κ} {g : β → κ'}
    (h : ∀ a a' b b', R a a' → R b b' → (f a = f b ↔ g a' = g b')) (x y : Bool) {l : List α} {l' : List β} (hl : List.Forall₂ R l l') :
    List.Forall₂ (List.Forall₂ R) (units x y f l) (units x y g l') := by
  unfold units
  split
  · exact f2_groups h hl
  · split
    · exact .cons hl .nil
    · exact f2_map (fun a a' ha => .cons ha .nil) hl

theorem best_rel {α β : Type} {R : α → β → Prop} {le : α → α → Bool} {le' : β → β → Bool} (h : ∀ a a' b b', R a a' → R b b' → le a b = le' a' b') :
    ∀ {l : List α} {l' : List β}, List.Forall₂ R l l' → (best le l = none ∧ best le' l' = none) ∨ ∃ a a', best le l = some a ∧ best le' l' = some a' ∧ R a a'
  | _, _, .nil => .inl ⟨rfl, rfl⟩
  | _, _, @List.Forall₂.cons _ _ _ a a' _ _ h1 h2 => by
    right
    rw [best, best]
    rcases best_rel h h2 with ⟨e, e'⟩ | ⟨b, b', e, e', hb⟩
    · exact ⟨a, a', by rw [e], by rw [e'], h1⟩
    · rw [e, e']
      simp only [h b b' a a' hb h1]
      by_cases hc : le' b' a' = true
      · exact ⟨a, a', by rw [if_pos hc], by rw [if_pos hc], h1⟩
      · exact ⟨b, b', by rw [if_neg hc], by rw [if_neg hc], hb⟩

theorem f2_pick {α β : Type} {R : α → β → Prop} {p : α → Bool} {p' : β → Option Bool} (h : ∀ a b, R a b → p' b = some (p a)) :
    ∀ {l : List α} {l' : List β}, List.Forall₂ R l l' → ∃ m, pickBy p' l' = some m ∧ List.Forall₂ R (l.filter p) m
  | _, _, .nil => ⟨[], rfl, .nil⟩
  | _, _, @List.Forall₂.cons _ _ _ a b _ _ h1 h2 => by
    obtain ⟨m, h3, h4⟩ := f2_pick h h2
    rw [pickBy, h a b h1, h3, List.filter_cons]
    by_cases hp : p a = true
    · exact ⟨b :: m, by simp [hp], by rw [if_pos hp]; exact .cons h1 h4⟩
    · exact ⟨m, by simp [hp], by rw [if_neg hp]; exact h4⟩

theorem f2_mapM {α β γ δ : Type} {R : α → β → Prop} {S : γ → δ → Prop} {f : α → γ} {g : β → Option δ} (h : ∀ a b, R a b → ∃ y, g b = some y ∧ S (f a) y) :
    ∀ {l : List α} {l' : List β}, List.Forall₂ R l l' → ∃ m, l'.mapM g = some m ∧ List.Forall₂ S (l.map f) m
  | _, _, .nil => ⟨[], rfl, .nil⟩
  | _, _, @List.Forall₂.cons _ _ _ a b _ _ h1 h2 => by
    obtain ⟨m, h3, h4⟩ := f2_mapM h h2
    obtain ⟨y, h5, h6⟩ := h a b h1
    exact ⟨y :: m, by simp [List.mapM_cons, h3, h5], .cons h6 h4⟩

theorem f2_right {α β : Type} {R : α → β → Prop} : ∀ {l : List α} {l' : List β}, List.Forall₂ R l l' → ∀ b ∈ l', ∃ a ∈ l, R a b
  | _, _, .nil, b, hb => by simp at hb
  | _, _, @List.Forall₂.cons _ _ _ a a' _ _ h1 h2, b, hb => by
    rcases List.mem_cons.1 hb with rfl | hb
    · exact ⟨a, by simp, h1⟩
    · obtain ⟨x, hx, hr⟩ := f2_right h2 b hb
      exact ⟨x, by simp [hx], hr⟩

theorem f2_pairwise {α β : Type} {R : α → β → Prop} {p : α → α → Prop} {p' : β → β → Prop} (h : ∀ a a' b b', R a a' → R b b' → p a b → p' a' b') :
    ∀ {l : List α} {l' : List β}, List.Forall₂ R l l' → l.Pairwise p → l'.Pairwise p'
  | _, _, .nil, _ => .nil
  | _, _, @List.Forall₂.cons _ _ _ a a' _ _ h1 h2, hp => by
    rw [List.pairwise_cons] at hp ⊢
    refine ⟨fun b' hb' => ?_, f2_pairwise h h2 hp.2⟩
    obtain ⟨b, hb, hr⟩ := f2_right h2 b' hb'
    exact h a a' b b' h1 hr (hp.1 b hb)

theorem f2_flip {α β : Type} {R : α → β → Prop} : ∀ {l : List α} {l' : List β}, List.Forall₂ R l l' → List.Forall₂ (fun b a => R a b) l' l
  | _, _, .nil => .nil
  | _, _, .cons h1 h2 => .cons h1 (f2_flip h2)

theorem f2_drop {α β : Type} {R : α → β → Prop} : ∀ (n : Nat) {l : List α} {l' : List β}, List.Forall₂ R l l' → List.Forall₂ R (l.drop n) (l'.drop n)
  | 0, _, _, h => h
  | _ + 1, _, _, .nil => .nil
  | n + 1, _, _, .cons _ h => f2_drop n h

theorem f2_take {α β : Type} {R : α → β → Prop} : ∀ (n : Nat) {l : List α} {l' : List β}, List.Forall₂ R l l' → List.Forall₂ R (l.take n) (l'.take n)
  | 0, _, _, _ => .nil
  | _ + 1, _, _, .nil => .nil
  | n + 1, _, _, .cons h1 h => .cons h1 (f2_take n h)

theorem f2_window {α β : Type} {R : α → β → Prop} (w : Option (Nat × Nat)) {l : List α} {l' : List β} (h : List.Forall₂ R l l') : List.Forall₂ R (window w l) (window w l') := by
  cases w with
  | none => exact h
  | some p => exact f2_take _ (f2_drop _ h)

/-- Answers of related lines are related. -/
theorem admissible_rel {ρ ρ' κ κ' : Type} {R : ρ → ρ' → Prop} {S : κ → κ' → Prop} {le : κ → κ → Bool} {le' : κ' → κ' → Bool}
    (hle : ∀ a a' b b', S a a' → S b b' → le a b = le' a' b') {desc : Bool} {w : Option (Nat × Nat)} {l : List (ρ × Option κ)} {l' : List (ρ' × Option κ')}
    (h : List.Forall₂ (fun a b => R a.1 b.1 ∧ (a.2 = none ∧ b.2 = none ∨ ∃ x y, a.2 = some x ∧ b.2 = some y ∧ S x y)) l l') {ans : List ρ} (ha : Admissible le desc w l ans) :
    ∃ ans', Admissible le' desc w l' ans' ∧ List.Forall₂ R ans ans' := by
  obtain ⟨m, h1, h2, rfl⟩ := ha
  obtain ⟨m', h3, h4⟩ := List.perm_comp_forall₂ h1 h
  refine ⟨_, ⟨m', h4, ?_, rfl⟩, f2_window w (f2_map (fun a b h => h.1) h3)⟩
  refine f2_pairwise (fun a a' b b' ha hb hp => ?_) h3 h2
  rcases ha.2 with ⟨e1, e2⟩ | ⟨x, y, e1, e2, hxy⟩
  · rw [e2]
    rfl
  · rcases hb.2 with ⟨e3, e4⟩ | ⟨x', y', e3, e4, hxy'⟩
    · rw [e2, e4]
      rfl
    · rw [e1, e3] at hp
      rw [e2, e4]
      simp only [before] at hp ⊢
      rw [← hle x y x' y' hxy hxy', ← hle x' y' x y hxy' hxy]
      exact hp

/-! ### Values side by side -/

/-- What the backend finds in a column that MAX, MIN or ORDER BY reads. -/
def RankVal (c : Crypto) (cm : ColMeta) (v : Val) (x : DbVal) : Prop :=
  Suits cm v ∧ if cm.plaintext then x = v.db else ∃ z y, v = .int z ∧ c.opeEnc cm.key z = .ok y ∧ x = .int y

def RankKey (c : Crypto) (cm : ColMeta) (o : Option Val) (x : DbVal) : Prop :=
  match o with
  | none => x = .null
  | some v => RankVal c cm v x

theorem db_inj {v w : Val} (h : v.db = w.db) : v = w := by
  cases v <;> cases w <;> simp_all [Val.db]

theorem db_ne (v : Val) : v.db ≠ .null := by cases v <;> simp [Val.db]

theorem RankVal.ne {c : Crypto} {cm : ColMeta} {v : Val} {x : DbVal} (h : RankVal c cm v x) : x ≠ .null := by
  obtain ⟨_, h⟩ := h
  split at h
  · rw [h]
    exact db_ne v
  · obtain ⟨z, y, _, _, rfl⟩ := h
    simp

/-- **C01** for the cipher the proxy uses. -/
theorem ope_le {c : Crypto} {key : String} {a b x y : Int} (ha : c.opeEnc key a = .ok x) (hb : c.opeEnc key b = .ok y) : a ≤ b ↔ x ≤ y := by
  have := Ope.C01_ope_order_preserving _ b a y x hb ha
  constructor
  · intro h
    by_contra hn
    have := this.2 (by omega)
    omega
  · intro h
    by_contra hn
    have := this.1 (by omega)
    omega

theorem RankVal.le {c : Crypto} {cm : ColMeta} (le : String → String → Bool) {v w : Val} {x y : DbVal} (h : RankVal c cm v x) (h' : RankVal c cm w y) :
    leVal le v w = leDb le x y := by
  obtain ⟨_, h⟩ := h
  obtain ⟨_, h'⟩ := h'
  by_cases hp : cm.plaintext = true
  · rw [if_pos hp] at h h'
    subst h; subst h'
    cases v <;> cases w <;> rfl
  · rw [if_neg hp] at h h'
    obtain ⟨z, a, rfl, h1, rfl⟩ := h
    obtain ⟨z', a', rfl, h1', rfl⟩ := h'
    simp only [leVal, leDb, decide_eq_decide]
    exact ope_le h1 h1'

theorem RankVal.inj {c : Crypto} {cm : ColMeta} {v w : Val} {x y : DbVal} (h : RankVal c cm v x) (h' : RankVal c cm w y) : v = w ↔ x = y := by
  obtain ⟨_, h⟩ := h
  obtain ⟨_, h'⟩ := h'
  by_cases hp : cm.plaintext = true
  · rw [if_pos hp] at h h'
    subst h; subst h'
    exact ⟨fun e => by rw [e], db_inj⟩
  · rw [if_neg hp] at h h'
    obtain ⟨z, a, rfl, h1, rfl⟩ := h
    obtain ⟨z', a', rfl, h1', rfl⟩ := h'
    have e1 := ope_le h1 h1'
    have e2 := ope_le h1' h1
    simp only [Val.int.injEq, DbVal.int.injEq]
    omega

theorem RankKey.le {c : Crypto} {cm : ColMeta} (le : String → String → Bool) {o o' : Option Val} {x y : DbVal} (h : RankKey c cm o x) (h' : RankKey c cm o' y) :
    leKey le o o' = leDb le x y := by
  cases o with
  | none =>
    have h : x = .null := h
    subst h
    rfl
  | some v =>
    cases o' with
    | none =>
      have h' : y = .null := h'
      subst h'
      have := RankVal.ne h
      cases x <;> first | rfl | exact absurd rfl this
    | some w => exact RankVal.le le h h'

theorem RankKey.inj {c : Crypto} {cm : ColMeta} {o o' : Option Val} {x y : DbVal} (h : RankKey c cm o x) (h' : RankKey c cm o' y) : o = o' ↔ x = y := by
  cases o with
  | none =>
    have h : x = .null := h
    subst h
    cases o' with
    | none =>
      have h' : y = .null := h'
      simp [h']
    | some w =>
      have := RankVal.ne h'
      simp [this.symm]
  | some v =>
    cases o' with
    | none =>
      have h' : y = .null := h'
      subst h'
      simp [RankVal.ne h]
    | some w =>
      rw [Option.some.injEq]
      exact RankVal.inj h h'

theorem found_inj {c : Crypto} {cm : ColMeta} {o o' : Option Val} {x y : DbVal} (h : Found c cm o x) (h' : Found c cm o' y) : o = o' ↔ x = y := by
  have ne : ∀ {v x}, Found c cm (some v) x → x ≠ .null := by
    rintro v x ⟨_, rfl⟩
    split
    · exact db_ne v
    · simp
  cases o with
  | none =>
    have h : x = .null := h
    subst h
    cases o' with
    | none =>
      have h' : y = .null := h'
      simp [h']
    | some w => simp [(ne h').symm]
  | some v =>
    cases o' with
    | none =>
      have h' : y = .null := h'
      subst h'
      simp [ne h]
    | some w =>
      rw [Option.some.injEq]
      obtain ⟨hs, rfl⟩ := h
      obtain ⟨hs', rfl⟩ := h'
      by_cases hp : cm.plaintext = true
      · rw [if_pos hp, if_pos hp]
        exact ⟨fun e => by rw [e], db_inj⟩
      · rw [if_neg hp, if_neg hp]
        refine ⟨fun e => by rw [e], fun e => ?_⟩
        injection e with e
        rw [ofList_inj] at e
        cases v with
        | int a =>
          cases w with
          | int b =>
            have := (ct_inj (A := c.aes cm.key) (intStr_not_nul a) (intStr_not_nul b)).1 e
            have := congrArg Text.parseInt this
            rw [Text.parseInt_intStr, Text.parseInt_intStr] at this
            injection this with this
            rw [this]
          | text b => exact absurd hs hs'.1
        | text a =>
          cases w with
          | int b => exact absurd hs' hs.1
          | text b =>
            have := (ct_inj (A := c.aes cm.key) hs.2.2.2 hs'.2.2.2).1 e
            rw [String.toList_inj] at this
            rw [this]

/-! ### Items side by side -/

/-- The backend has the columns of an item. -/
def Item.Backed (cols : Dict String ColMeta) : Item → Prop
  | .col n => ∃ cm b, Dict.get? cols n = some cm ∧ readName n cm = some b
  | .count => True
  | .max n => ∃ cm b, Dict.get? cols n = some cm ∧ rankName n cm = some b ∧ (cm.plaintext = false → cm.type = "int")
  | .min n => ∃ cm b, Dict.get? cols n = some cm ∧ rankName n cm = some b ∧ (cm.plaintext = false → cm.type = "int")

theorem Item.Fine.backed {cols : Dict String ColMeta} {i : Item} (h : i.Fine cols) : i.Backed cols := by
  cases i with
  | col n => exact Readable.col h
  | count => trivial
  | max n => exact Ranked.col h
  | min n => exact Ranked.col h

theorem Item.Number.backed {cols : Dict String ColMeta} {i : Item} (h : i.Number cols) : i.Backed cols ∧ i.sent cols = i := by
  cases i with
  | col n =>
    obtain ⟨cm, h1, h2, _⟩ := h
    exact ⟨⟨cm, n, h1, by simp [readName, h2]⟩, by simp [Item.sent, h1, readName, h2]⟩
  | count => exact ⟨trivial, rfl⟩
  | max n =>
    obtain ⟨cm, h1, h2, h3⟩ := h
    exact ⟨⟨cm, n, h1, by simp [rankName, h2], fun _ => h3⟩, by simp [Item.sent, h1, rankName, h2]⟩
  | min n =>
    obtain ⟨cm, h1, h2, h3⟩ := h
    exact ⟨⟨cm, n, h1, by simp [rankName, h2], fun _ => h3⟩, by simp [Item.sent, h1, rankName, h2]⟩

/-- A value of an item, and what the backend has for it. -/
def Shows (c : Crypto) (cols : Dict String ColMeta) (i : Item) (o : Option Val) (x : DbVal) : Prop :=
  match i with
  | .col n => ∃ cm, Dict.get? cols n = some cm ∧ Found c cm o x
  | .count => ∃ z, o = some (.int z) ∧ x = .int z
  | .max n => ∃ cm, Dict.get? cols n = some cm ∧ RankKey c cm o x
  | .min n => ∃ cm, Dict.get? cols n = some cm ∧ RankKey c cm o x

theorem Shows.inj {c : Crypto} {cols : Dict String ColMeta} {i : Item} {o o' : Option Val} {x y : DbVal} (h : Shows c cols i o x) (h' : Shows c cols i o' y) :
    o = o' ↔ x = y := by
  cases i with
  | col n =>
    obtain ⟨cm, h1, h2⟩ := h
    obtain ⟨cm', h1', h2'⟩ := h'
    rw [h1] at h1'
    injection h1' with h1'
    subst h1'
    exact found_inj h2 h2'
  | count =>
    obtain ⟨z, rfl, rfl⟩ := h
    obtain ⟨z', rfl, rfl⟩ := h'
    simp
  | max n =>
    obtain ⟨cm, h1, h2⟩ := h
    obtain ⟨cm', h1', h2'⟩ := h'
    rw [h1] at h1'
    injection h1' with h1'
    subst h1'
    exact h2.inj h2'
  | min n =>
    obtain ⟨cm, h1, h2⟩ := h
    obtain ⟨cm', h1', h2'⟩ := h'
    rw [h1] at h1'
    injection h1' with h1'
    subst h1'
    exact h2.inj h2'

theorem keeps_found {c : Crypto} {cols : Dict String ColMeta} {row : PRow} {brow : Row} (h : Keeps c cols row brow) {n b : String} {cm : ColMeta}
    (hc : Dict.get? cols n = some cm) (hb : readName n cm = some b) : ∃ x, Dict.get? brow b = some x ∧ Found c cm (Dict.get? row n) x := by
  obtain ⟨v, hv, hsu⟩ := h.vals n cm hc
  unfold readName at hb
  by_cases hp : cm.plaintext = true
  · rw [if_pos hp] at hb
    injection hb with hb
    subst hb
    exact ⟨v.db, h.holds.plain n v cm hv hc hp, by simp [hv, Found, hsu, hp]⟩
  · have hp' : cm.plaintext = false := by simpa using hp
    rw [if_neg hp] at hb
    obtain ⟨y, hy, hg⟩ := h.holds.sym n v cm b hv hc hp' hb
    rw [sym_eq, String.toList_ofList] at hy
    injection hy with hy
    exact ⟨.text y, hg, by simp [hv, Found, hsu, hp', hy]⟩

theorem keeps_rank {c : Crypto} {cols : Dict String ColMeta} {row : PRow} {brow : Row} (h : Keeps c cols row brow) {n b : String} {cm : ColMeta}
    (hc : Dict.get? cols n = some cm) (hb : rankName n cm = some b) (ht : cm.plaintext = false → cm.type = "int") :
    ∃ v x, Dict.get? row n = some v ∧ Dict.get? brow b = some x ∧ RankVal c cm v x := by
  obtain ⟨v, hv, hsu⟩ := h.vals n cm hc
  unfold rankName at hb
  by_cases hp : cm.plaintext = true
  · rw [if_pos hp] at hb
    injection hb with hb
    subst hb
    exact ⟨v, v.db, hv, h.holds.plain n v cm hv hc hp, hsu, by rw [if_pos hp]⟩
  · have hp' : cm.plaintext = false := by simpa using hp
    rw [if_neg hp] at hb
    cases v with
    | text s => exact absurd (ht hp') hsu.1
    | int z =>
      obtain ⟨y, hy, hg⟩ := h.holds.ope n z cm b hv hc hp' hb
      exact ⟨.int z, .int y, hv, hg, hsu, by rw [if_neg hp]; exact ⟨z, y, rfl, hy, rfl⟩⟩

theorem ranks {c : Crypto} {cols : Dict String ColMeta} {n b : String} {cm : ColMeta} (hc : Dict.get? cols n = some cm) (hb : rankName n cm = some b)
    (ht : cm.plaintext = false → cm.type = "int") : ∀ {u : List PRow} {bu : List Row}, List.Forall₂ (Keeps c cols) u bu →
      ∃ l, (bu.mapM fun row => Dict.get? row b) = some l ∧ (l.filter fun x => decide (x ≠ .null)) = l ∧
        List.Forall₂ (RankVal c cm) (u.filterMap fun row => Dict.get? row n) l
  | _, _, .nil => ⟨[], rfl, rfl, .nil⟩
  | _, _, .cons h1 h2 => by
    obtain ⟨l, h3, h4, h5⟩ := ranks hc hb ht h2
    obtain ⟨v, x, h6, h7, h8⟩ := keeps_rank h1 hc hb ht
    refine ⟨x :: l, by simp [List.mapM_cons, h7, h3], ?_, ?_⟩
    · rw [List.filter_cons, if_pos (by simpa using h8.ne), h4]
    · rw [List.filterMap_cons, h6]
      exact .cons h8 h5

/-- The value of an item for the rows and for the stored rows. -/
theorem item_shown {c : Crypto} {cols : Dict String ColMeta} (le : String → String → Bool) {u : List PRow} {bu : List Row} (h : List.Forall₂ (Keeps c cols) u bu) {i : Item}
    (hi : i.Backed cols) : ∃ x, itemVal le bu (i.sent cols) = some x ∧ Shows c cols i (i.eval le u) x := by
  cases i with
  | col n =>
    obtain ⟨cm, b, hc, hb⟩ := hi
    simp only [Item.sent, hc, Option.bind_some, hb, Option.getD_some]
    cases h with
    | nil => exact ⟨.null, rfl, cm, hc, rfl⟩
    | cons h1 h2 =>
      obtain ⟨x, hx, hf⟩ := keeps_found h1 hc hb
      exact ⟨x, hx, cm, hc, hf⟩
  | count => exact ⟨.int bu.length, rfl, u.length, rfl, by rw [h.length_eq]⟩
  | max n =>
    obtain ⟨cm, b, hc, hb, ht⟩ := hi
    simp only [Item.sent, hc, Option.bind_some, hb, Option.getD_some]
    obtain ⟨l, h1, h2, h3⟩ := ranks hc hb ht h
    refine ⟨(best (leDb le) l).getD .null, by simp only [itemVal, h1, Option.map_some, h2], cm, hc, ?_⟩
    rcases best_rel (le := leVal le) (le' := leDb le) (fun a a' b b' ha hb => ha.le le hb) h3 with ⟨e, e'⟩ | ⟨a, a', e, e', hr⟩
    · simp only [Item.eval, e, e', RankKey, Option.getD_none]
    · simp only [Item.eval, e, e', RankKey, Option.getD_some]
      exact hr
  | min n =>
    obtain ⟨cm, b, hc, hb, ht⟩ := hi
    simp only [Item.sent, hc, Option.bind_some, hb, Option.getD_some]
    obtain ⟨l, h1, h2, h3⟩ := ranks hc hb ht h
    refine ⟨(best (fun a b => leDb le b a) l).getD .null, by simp only [itemVal, h1, Option.map_some, h2], cm, hc, ?_⟩
    rcases best_rel (le := fun a b => leVal le b a) (le' := fun a b => leDb le b a) (fun a a' b b' ha hb => hb.le le ha) h3 with ⟨e, e'⟩ | ⟨a, a', e, e', hr⟩
    · simp only [Item.eval, e, e', RankKey, Option.getD_none]
    · simp only [Item.eval, e, e', RankKey, Option.getD_some]
      exact hr

/-- A sort key for the rows and for the stored rows. -/
theorem key_shown {c : Crypto} {cols : Dict String ColMeta} (le : String → String → Bool) {u : List PRow} {bu : List Row} (h : List.Forall₂ (Keeps c cols) u bu) {n b : String}
    {cm : ColMeta} (hc : Dict.get? cols n = some cm) (hb : rankName n cm = some b) (ht : cm.plaintext = false → cm.type = "int") :
    ∃ x, itemVal le bu (.col b) = some x ∧ RankKey c cm ((Item.col n).eval le u) x := by
  cases h with
  | nil => exact ⟨.null, rfl, rfl⟩
  | cons h1 h2 =>
    obtain ⟨v, x, hv, hx, hr⟩ := keeps_rank h1 hc hb ht
    refine ⟨x, hx, ?_⟩
    simp only [Item.eval, hv]
    exact hr

theorem having_shown {c : Crypto} {cols : Dict String ColMeta} (le : String → String → Bool) {u : List PRow} {bu : List Row} (h : List.Forall₂ (Keeps c cols) u bu) {v : Having}
    (hv : v.item.Number cols) : havingVal le (some v) bu = some (v.holds le u) := by
  obtain ⟨hb, hs⟩ := hv.backed
  obtain ⟨x, h1, h2⟩ := item_shown le h hb
  rw [hs] at h1
  unfold havingVal Having.holds
  simp only [h1]
  have num : ∀ {n : String} {cm : ColMeta} {o : Option Val}, (Found c cm o x ∨ RankKey c cm o x) → cm.plaintext = true → cm.type = "int" →
      o = none ∧ x = .null ∨ ∃ z, o = some (.int z) ∧ x = .int z := by
    intro n cm o hf hp ht
    cases o with
    | none => exact .inl ⟨rfl, hf.elim id id⟩
    | some w =>
      have : Suits cm w ∧ x = w.db := by
        rcases hf with ⟨hs, e⟩ | ⟨hs, e⟩
        · rw [if_pos hp] at e
          exact ⟨hs, e⟩
        · rw [if_pos hp] at e
          exact ⟨hs, e⟩
      cases w with
      | text s => exact absurd ht this.1.1
      | int z => exact .inr ⟨z, rfl, this.2⟩
  have : v.item.eval le u = none ∧ x = .null ∨ ∃ z, v.item.eval le u = some (.int z) ∧ x = .int z := by
    revert h2 hv
    generalize v.item.eval le u = o
    intro hv h2
    cases hi : v.item with
    | col n =>
      rw [hi] at hv h2
      obtain ⟨cm, h3, h4, h5⟩ := hv
      obtain ⟨cm', h6, h7⟩ := h2
      rw [h3] at h6
      injection h6 with h6
      subst h6
      exact num (n := n) (.inl h7) h4 h5
    | count =>
      rw [hi] at h2
      exact .inr h2
    | max n =>
      rw [hi] at hv h2
      obtain ⟨cm, h3, h4, h5⟩ := hv
      obtain ⟨cm', h6, h7⟩ := h2
      rw [h3] at h6
      injection h6 with h6
      subst h6
      exact num (n := n) (.inr h7) h4 h5
    | min n =>
      rw [hi] at hv h2
      obtain ⟨cm, h3, h4, h5⟩ := hv
      obtain ⟨cm', h6, h7⟩ := h2
      rw [h3] at h6
      injection h6 with h6
      subst h6
      exact num (n := n) (.inr h7) h4 h5
  rcases this with ⟨e, rfl⟩ | ⟨z, e, rfl⟩ <;> rw [e]

/-! ### Decryption -/

theorem shown_decrypted {P : Proxy} {t : String} {tm : TableMeta ColMeta} (ht : Dict.get? P.db t = some tm) {i : Item} (hi : i.Fine tm.columns) {o : Option Val} {x : DbVal}
    (h : Shows P.c tm.columns i o x) :
    (if (i.entry tm.columns).2.2 = "plaintext" then .ok (plainVal x)
      else decryptVal P.c P.homDec P.ev P.db (.str t) x (i.entry tm.columns).1 (i.entry tm.columns).2.2 : Except PyErr OutVal) = .ok (outVal o) := by
  have hcol : ∀ {n : String} {cm : ColMeta}, '.' ∉ n.toList → Dict.get? tm.columns n = some cm → decCol P.db (.str t) n = .ok cm := by
    intro n cm hd hc
    have hs : splitDot n = [n] := by
      unfold splitDot
      rw [Text.split_word]
      · simp
      exact hd
    have g1 : tableOfJson P.db (.str t) = .ok tm := getItem_ok.2 ht
    have g2 : Dict.getItem tm.columns n = .ok cm := getItem_ok.2 hc
    unfold decCol
    simp only [hs, g1, g2]
  have hrank : ∀ {n : String} {cm : ColMeta}, '.' ∉ n.toList → Dict.get? tm.columns n = some cm → RankKey P.c cm o x →
      (if rankState cm = "plaintext" then .ok (plainVal x) else decryptVal P.c P.homDec P.ev P.db (.str t) x n (rankState cm) : Except PyErr OutVal) = .ok (outVal o) := by
    intro n cm hd hc hr
    cases o with
    | none =>
      have hr : x = .null := hr
      subst hr
      rw [C25_null_result]
      simp [plainVal, outVal]
    | some v =>
      obtain ⟨hsu, hr⟩ := hr
      by_cases hp : cm.plaintext = true
      · rw [if_pos hp] at hr
        subst hr
        rw [rankState, if_pos hp, if_pos rfl]
        cases v <;> rfl
      · rw [if_neg hp] at hr
        obtain ⟨z, y, rfl, hy, rfl⟩ := hr
        rw [rankState, if_neg hp, if_neg (by decide)]
        have hdec : P.c.opeDec cm.key y = .ok z := (Ope.C02_ope_decrypt_iff_encrypt _ z y).2 hy
        have hsu : cm.type = "int" := hsu
        unfold decryptVal
        rw [if_neg (by simp)]
        simp (decide := true) only [hcol hd hc, if_false, if_true, hdec, Except.map]
        simp [decodeVal, hsu, outVal, Val.out]
  cases i with
  | col n =>
    obtain ⟨cm, hc, hf⟩ := h
    simp only [Item.entry, hc, Option.map_some, Option.getD_some]
    cases o with
    | none =>
      have hf : x = .null := hf
      subst hf
      rw [C25_null_result]
      simp [plainVal, outVal]
    | some v =>
      obtain ⟨hsu, rfl⟩ := hf
      by_cases hp : cm.plaintext = true
      · rw [readState, if_pos hp, if_pos rfl, if_pos hp]
        cases v <;> rfl
      · rw [readState, if_neg hp, if_neg (by decide), if_neg hp]
        unfold decryptVal
        rw [if_neg (by simp)]
        simp only [hcol (Readable.dot hi) hc, if_true]
        rw [symDec_ct]
        · cases v with
          | int z =>
            unfold Suits at hsu
            simp [Val.str, Except.map, decodeVal, hsu, Text.parseInt_intStr, Val.out, outVal]
          | text s =>
            obtain ⟨h3, h4, h5, _⟩ := hsu
            simp [Val.str, Except.map, decodeVal, h3, h4, h5, Val.out, outVal]
        · cases v with
          | int z => exact intStr_not_nul z
          | text s => exact hsu.2.2.2
  | count =>
    obtain ⟨z, rfl, rfl⟩ := h
    rfl
  | max n =>
    obtain ⟨cm, hc, hf⟩ := h
    simp only [Item.entry, hc, Option.map_some, Option.getD_some]
    exact hrank (Ranked.dot hi) hc hf
  | min n =>
    obtain ⟨cm, hc, hf⟩ := h
    simp only [Item.entry, hc, Option.map_some, Option.getD_some]
    exact hrank (Ranked.dot hi) hc hf

/-- A row of the answer, and what the backend has for it. -/
inductive LineRel (c : Crypto) (cols : Dict String ColMeta) : List Item → List (Option Val) → List DbVal → Prop
  | nil : LineRel c cols [] [] []
  | cons {i : Item} {o : Option Val} {x : DbVal} {is : List Item} {os : List (Option Val)} {xs : List DbVal} : Shows c cols i o x → LineRel c cols is os xs →
      LineRel c cols (i :: is) (o :: os) (x :: xs)

theorem LineRel.inj {c : Crypto} {cols : Dict String ColMeta} : ∀ {is : List Item} {os os' : List (Option Val)} {xs xs' : List DbVal}, LineRel c cols is os xs →
    LineRel c cols is os' xs' → (os = os' ↔ xs = xs')
  | _, _, _, _, _, .nil, .nil => by simp
  | _, _, _, _, _, .cons h1 h2, .cons h3 h4 => by
    rw [List.cons.injEq, List.cons.injEq, h1.inj h3, h2.inj h4]

theorem line_shown {c : Crypto} {cols : Dict String ColMeta} (le : String → String → Bool) {u : List PRow} {bu : List Row} (h : List.Forall₂ (Keeps c cols) u bu) :
    ∀ {l : List Item}, (∀ i ∈ l, i.Backed cols) → ∃ xs, (l.map (Item.sent cols)).mapM (itemVal le bu) = some xs ∧ LineRel c cols l (l.map fun i => i.eval le u) xs
  | [], _ => ⟨[], rfl, .nil⟩
  | i :: l, hl => by
    obtain ⟨xs, h1, h2⟩ := line_shown le h (l := l) fun i hi => hl i (by simp [hi])
    obtain ⟨x, h3, h4⟩ := item_shown le h (hl i (by simp))
    exact ⟨x :: xs, by simp [List.mapM_cons, h1, h3], .cons h4 h2⟩

theorem line_decrypted {P : Proxy} {t : String} {tm : TableMeta ColMeta} (ht : Dict.get? P.db t = some tm) : ∀ {is : List Item} {os : List (Option Val)} {xs : List DbVal},
    (∀ i ∈ is, i.Fine tm.columns) → LineRel P.c tm.columns is os xs →
    decryptRow P.c P.homDec P.ev P.db (.str t) (is.map fun i => (i.entry tm.columns).1) (is.map fun i => (i.entry tm.columns).2.2) xs = .ok (os.map outVal)
  | _, _, _, _, .nil => rfl
  | _, _, _, hi, .cons h1 h2 => by
    have e1 := shown_decrypted ht (hi _ (by simp)) h1
    have e2 := line_decrypted ht (fun i h => hi i (by simp [h])) h2
    simp only [List.map_cons, decryptRow, e1, e2]

theorem pushes_columns : ∀ (l : List Rec) (s : Sel), (s.pushes l).columns = s.columns ++ l.map Prod.fst
  | [], s => by simp [Sel.pushes]
  | a :: l, s => by simp [Sel.pushes]

theorem pushes_state : ∀ (l : List Rec) (s : Sel), (s.pushes l).state = s.state ++ l.map fun r => r.2.2
  | [], s => by simp [Sel.pushes]
  | a :: l, s => by simp [Sel.pushes]

theorem answer_decrypted {P : Proxy} {t : String} {tm : TableMeta ColMeta} (ht : Dict.get? P.db t = some tm) {is : List Item} (hi : ∀ i ∈ is, i.Fine tm.columns) :
    ∀ {a : List (List (Option Val))} {b : List (List DbVal)}, List.Forall₂ (LineRel P.c tm.columns is) a b →
    P.answer (.str t) (Sel.pushes {} (is.map (Item.entry tm.columns))) b = .ok (a.map fun r => r.map outVal)
  | _, _, .nil => rfl
  | _, _, .cons h1 h2 => by
    have e1 := line_decrypted ht hi h1
    have e2 := answer_decrypted ht hi h2
    rw [Proxy.answer, pushes_columns, pushes_state]
    simp only [List.nil_append, List.map_map, Function.comp_def]
    simp only [e1, e2, List.map_cons]

/-! ### What MySQL reads -/

theorem itemOf_value (i : Item) : itemOf i.value = some i := by cases i <;> rfl

theorem mapM_values : ∀ l : List Item, (l.map Item.value).mapM itemOf = some l
  | [] => rfl
  | i :: l => by simp [List.mapM_cons, itemOf_value, mapM_values l]

theorem itemsOf_list (l : List Item) : itemsOf (listOut l) = some l := by
  match l with
  | [] => rfl
  | [i] => simp [listOut, itemsOf, itemOf_value]
  | i :: j :: l => exact mapM_values (i :: j :: l)

theorem mapM_names : ∀ l : List String, (l.map fun g => Json.dict [("value", .str g)]).mapM nameOf = some l
  | [] => rfl
  | i :: l => by simp [List.mapM_cons, nameOf, mapM_names l]

theorem groupOf_json (q : Query) : groupOf (Dict.get? q.json "groupby") = some q.group := by
  rw [get_json, if_neg (selectKey_ne (by decide) (by decide)), if_neg (by decide), get_where, if_neg (by decide), get_having_ne _ (by decide), get_order, if_neg (by decide),
    get_limit_ne _ (by decide) (by decide)]
  match q.group with
  | [] => rfl
  | [g] => rfl
  | g :: h :: l =>
    have := mapM_names (g :: h :: l)
    simpa [groupIn, Dict.get?_cons, groupOf] using this

theorem cmpOf_name (o : Cmp) : cmpOf o.name = some o := by cases o <;> decide

theorem havingOf_json (q : Query) : havingOf (Dict.get? q.json "having") = some q.having := by
  rw [get_json, if_neg (selectKey_ne (by decide) (by decide)), if_neg (by decide), get_where, if_neg (by decide), get_group_ne _ (by decide), get_order, if_neg (by decide),
    get_limit_ne _ (by decide) (by decide)]
  cases h : q.having with
  | none => rfl
  | some v => simp [havingIn, Dict.get?_cons, havingOf, cmpOf_name, itemOf_value]

theorem windowOf_json (q : Query) : windowOf (Dict.get? q.json "limit") (Dict.get? q.json "offset") = some q.window := by
  rw [get_json, if_neg (selectKey_ne (by decide) (by decide)), if_neg (by decide), get_where, if_neg (by decide), get_group_ne _ (by decide), get_order, if_neg (by decide),
    get_having_ne _ (by decide), get_json, if_neg (selectKey_ne (by decide) (by decide)), if_neg (by decide), get_where, if_neg (by decide), get_group_ne _ (by decide), get_order,
    if_neg (by decide), get_having_ne _ (by decide)]
  match h : q.limit with
  | none => simp [limitIn, windowOf, Query.window, h]
  | some (n, none) => simp (decide := true) [limitIn, windowOf, Query.window, h, Dict.get?_cons]
  | some (n, some m) => simp (decide := true) [limitIn, windowOf, Query.window, h, Dict.get?_cons]

/-- The column that ORDER BY reads. -/
def orderName (cols : Dict String ColMeta) (k : SortKey) : String := ((Dict.get? cols k.col).bind (rankName k.col)).getD ""

/-- The query with the order that is sent: DESC is lost for an encrypted column. -/
def Query.taken (q : Query) (cols : Dict String ColMeta) : Query :=
  { q with order := q.order.map fun k => match Dict.get? cols k.col with | some cm => if cm.plaintext then k else ⟨k.col, none⟩ | none => k }

theorem orderOf_sent {cols : Dict String ColMeta} {q : Query} (h : ∀ k ∈ q.order, Sortable cols k) :
    orderOf (q.order.map (orderSent cols)) = some (q.order.map (orderName cols)) ∧ descOf (q.order.map (orderSent cols)) = (q.taken cols).desc := by
  unfold Query.desc Query.taken
  cases ho : q.order with
  | none => exact ⟨rfl, rfl⟩
  | some k =>
    obtain ⟨cm, b, hc, hb, hd⟩ := h k ho
    simp only [Option.map_some, orderSent, orderName, hc, Option.bind_some, hb, Option.getD_some]
    by_cases hp : cm.plaintext = true
    · rw [if_pos hp, if_pos hp]
      rw [rankName, if_pos hp] at hb
      injection hb with hb
      subst hb
      unfold SortKey.json SortKey.desc
      rcases k.dir with _ | _ | _ <;> exact ⟨rfl, by simp (decide := true) [descOf, sortDesc, Dict.get?_cons]⟩
    · rw [if_neg hp, if_neg hp]
      exact ⟨rfl, by simp (decide := true) [descOf, sortDesc, Dict.get?_cons, SortKey.desc]⟩

theorem taken_eq {cols : Dict String ColMeta} {q : Query} (ho : ∀ k ∈ q.order, Sortable cols k) (h : Ascending cols q) : (q.taken cols).desc = q.desc := by
  unfold Query.desc Query.taken
  cases hq : q.order with
  | none => rfl
  | some k =>
    obtain ⟨cm, b, hc, hb, _⟩ := ho k hq
    simp only [Option.map_some, hc]
    by_cases hp : cm.plaintext = true
    · rw [if_pos hp]
    · rw [if_neg hp]
      rcases h k hq with ⟨cm', hc', hp'⟩ | hd
      · rw [hc] at hc'
        injection hc' with hc'
        subst hc'
        exact absurd hp' hp
      · rw [hd]
        rfl

theorem taken_lines (q : Query) (cols : Dict String ColMeta) (le : String → String → Bool) (st : PTables) : (q.taken cols).lines le st = q.lines le st := by
  have h1 : (q.taken cols).line le = q.line le := by
    funext u
    unfold Query.line Query.taken
    cases q.order with
    | none => rfl
    | some k =>
      simp only [Option.map_some]
      split
      · split <;> rfl
      · rfl
  unfold Query.lines
  rw [h1]
  rfl

/-! ### The lines -/

theorem key_rel {c : Crypto} {cols : Dict String ColMeta} {group : List String} (hg : ∀ g ∈ group, Clear cols g) {row row' : PRow} {brow brow' : Row} (h : Keeps c cols row brow)
    (h' : Keeps c cols row' brow') :
    (group.map fun g => Dict.get? row g) = (group.map fun g => Dict.get? row' g) ↔ (group.map fun g => Dict.get? brow g) = group.map fun g => Dict.get? brow' g := by
  induction group with
  | nil => simp
  | cons g group ih =>
    rw [List.map_cons, List.map_cons, List.map_cons, List.map_cons, List.cons.injEq, List.cons.injEq, ih fun g hg' => hg g (by simp [hg'])]
    obtain ⟨cm, hc, hp⟩ := hg g (by simp)
    obtain ⟨v, hv, _⟩ := h.vals g cm hc
    obtain ⟨v', hv', _⟩ := h'.vals g cm hc
    rw [h.holds.plain g v cm hv hc hp, h'.holds.plain g v' cm hv' hc hp, hv, hv']
    have : some v = some v' ↔ some v.db = some v'.db := by
      rw [Option.some.injEq, Option.some.injEq]
      exact ⟨fun e => by rw [e], db_inj⟩
    rw [this]

theorem key_there {c : Crypto} {cols : Dict String ColMeta} {group : List String} (hg : ∀ g ∈ group, Clear cols g) {row : PRow} {brow : Row} (h : Keeps c cols row brow) :
    (group.all fun g => (Dict.get? brow g).isSome) = true := by
  rw [List.all_eq_true]
  intro g hgm
  obtain ⟨cm, hc, hp⟩ := hg g hgm
  obtain ⟨v, hv, _⟩ := h.vals g cm hc
  rw [h.holds.plain g v cm hv hc hp]
  rfl

theorem sent_aggregate (cols : Dict String ColMeta) (i : Item) : (i.sent cols).aggregate = i.aggregate := by cases i <;> rfl

/-- The query is one that MySQL accepts. -/
theorem allowed_sent {cols : Dict String ColMeta} {q : Query} (hq : Open cols q) :
    allowed q.distinct q.aggregated (q.items.map (Item.sent cols)) q.group q.having (q.order.map (orderName cols)) = true := by
  have clearCol : ∀ {n}, Clear cols n → (Item.col n).sent cols = .col n := by
    rintro n ⟨cm, hc, hp⟩
    simp [Item.sent, hc, readName, hp]
  have clearKey : ∀ {k : SortKey}, Clear cols k.col → orderName cols k = k.col := by
    rintro k ⟨cm, hc, hp⟩
    simp [orderName, hc, rankName, hp]
  unfold allowed
  simp only [Bool.and_eq_true, Bool.or_eq_true, Bool.not_eq_true']
  refine ⟨⟨?_, ?_⟩, ?_⟩
  · cases ha : q.aggregated with
    | false => exact .inl rfl
    | true =>
      obtain ⟨h1, h2⟩ := hq.full ha
      right
      refine ⟨⟨?_, ?_⟩, ?_⟩
      · rw [List.all_map, List.all_eq_true]
        intro i hi
        have := h1 i hi
        cases i with
        | col n =>
          have hn : n ∈ q.group := this
          simp only [Function.comp_apply, clearCol (hq.group n hn)]
          simpa using hn
        | count => rfl
        | max n => rfl
        | min n => rfl
      · cases hh : q.having with
        | none => rfl
        | some h =>
          have := (hq.having h hh).2.2
          dsimp only
          cases hi : h.item with
          | col n =>
            rw [hi] at this
            have hn : n ∈ q.group := this
            simpa using hn
          | count => rfl
          | max n => rfl
          | min n => rfl
      · cases ho : q.order with
        | none => rfl
        | some k =>
          have := h2 k ho
          simp only [Option.map_some, clearKey (hq.group _ this)]
          simpa using this
  · cases hd : q.distinct with
    | false => exact .inl rfl
    | true =>
      right
      cases ho : q.order with
      | none => rfl
      | some k =>
        obtain ⟨h1, h2⟩ := hq.distinct hd k ho
        simp only [Option.map_some, clearKey h2]
        rw [List.contains_iff_mem]
        exact List.mem_map.2 ⟨_, h1, clearCol h2⟩
  · cases hh : q.having with
    | none => exact .inr rfl
    | some h => exact .inl (hq.having h hh).2.1

/-- A line of the answer, and what the backend has for it. -/
def Lined (c : Crypto) (cols : Dict String ColMeta) (q : Query) (a : List (Option Val) × Option (Option Val)) (b : List DbVal × Option DbVal) : Prop :=
  LineRel c cols q.items a.1 b.1 ∧
    match q.order with
    | none => a.2 = none ∧ b.2 = none
    | some k => ∃ cm x y, Dict.get? cols k.col = some cm ∧ a.2 = some x ∧ b.2 = some y ∧ RankKey c cm x y

theorem lines_run {P : Proxy} {pst : PTables} {bst : Tables} (hr : Rel P pst bst) {q : Query} {tm : TableMeta ColMeta} (ht : Dict.get? P.db q.table = some tm) (hq : Fine tm.columns q)
    (hg : Open tm.columns q) (le : String → String → Bool) : ∃ brows bl, Dict.get? bst tm.anonymous = some brows ∧
      runLines le q.distinct (q.items.map (Item.sent tm.columns)) (q.cond.map (Cond.sealed P.c tm.columns)) q.group q.having (q.order.map (orderName tm.columns)) brows = some bl ∧
      List.Forall₂ (Lined P.c tm.columns q) (q.lines le pst) bl := by
  obtain ⟨rows, brows, h1, h2, h3⟩ := hr q.table tm ht
  have hagg : (!q.group.isEmpty || (q.items.map (Item.sent tm.columns)).any Item.aggregate) = q.aggregated := by
    have : (q.items.map (Item.sent tm.columns)).any Item.aggregate = q.items.any Item.aggregate := by
      rw [List.any_map]
      congr 1
      funext i
      exact sent_aggregate _ i
    rw [this]
    rfl
  obtain ⟨m, h4, h5⟩ := f2_pick (p := selected q.cond) (p' := whereVal (q.cond.map (Cond.sealed P.c tm.columns))) (fun row brow hk => by
    cases hc : q.cond with
    | none => rfl
    | some x => exact sealed_eval hk.holds x (typed_fits hk.kinds x (hq.cond x hc))) h3
  have h6 : (m.all fun row => q.group.all fun g => (Dict.get? row g).isSome) = true := f2_all (fun row brow hk => key_there hg.group hk) h5
  have h7 := f2_units (f := q.key) (g := fun row : Row => q.group.map fun g => Dict.get? row g) (fun a a' b b' ha hb => key_rel hg.group ha hb) q.aggregated (!q.group.isEmpty) h5
  obtain ⟨us, h8, h9⟩ := f2_pick (p := q.keeps le) (p' := havingVal le q.having) (fun u bu hu => by
    unfold Query.keeps
    cases hh : q.having with
    | none => rfl
    | some h => exact having_shown le hu (hg.having h hh).1) h7
  obtain ⟨bl, h10, h11⟩ := f2_mapM (f := q.line le) (g := lineOf le (q.items.map (Item.sent tm.columns)) (q.order.map (orderName tm.columns))) (S := Lined P.c tm.columns q)
    (fun u bu hu => by
      obtain ⟨xs, g1, g2⟩ := line_shown le hu (l := q.items) fun i hi => (hq.items i hi).backed
      cases ho : q.order with
      | none => exact ⟨(xs, none), by simp [lineOf, g1], g2, by rw [ho]; simp [Query.line, ho]⟩
      | some k =>
        obtain ⟨cm, b, hc, hb, hd⟩ := hq.order k ho
        obtain ⟨y, g3, g4⟩ := key_shown le hu hc hb hd
        refine ⟨(xs, some y), ?_, g2, ?_⟩
        · simp [lineOf, g1, orderName, hc, hb, g3]
        · rw [ho]
          exact ⟨cm, _, y, hc, by simp only [Query.line, ho, Option.map_some], rfl, g4⟩) h9
  refine ⟨brows, if q.distinct then firsts Prod.fst bl else bl, h2, ?_, ?_⟩
  · unfold runLines
    simp only [hagg, allowed_sent hg, if_true, h4, h6, h8, h10]
  · unfold Query.lines Query.units
    simp only [h1, Option.getD_some]
    cases q.distinct with
    | false => exact h11
    | true => exact f2_firsts (fun a a' b b' ha hb => ha.1.inj hb.1) h11

/-- Sort keys, and what the backend has for them. -/
def Sorted (c : Crypto) (cols : Dict String ColMeta) (q : Query) (x : Option Val) (y : DbVal) : Prop :=
  ∃ k cm, q.order = some k ∧ Dict.get? cols k.col = some cm ∧ RankKey c cm x y

theorem Sorted.le {c : Crypto} {cols : Dict String ColMeta} {q : Query} (le : String → String → Bool) {x x' : Option Val} {y y' : DbVal} (h : Sorted c cols q x y)
    (h' : Sorted c cols q x' y') : leKey le x x' = leDb le y y' := by
  obtain ⟨k, cm, h1, h2, h3⟩ := h
  obtain ⟨k', cm', h1', h2', h3'⟩ := h'
  rw [h1] at h1'
  injection h1' with h1'
  subst h1'
  rw [h2] at h2'
  injection h2' with h2'
  subst h2'
  exact h3.le le h3'

theorem Lined.sorted {c : Crypto} {cols : Dict String ColMeta} {q : Query} {a : List (Option Val) × Option (Option Val)} {b : List DbVal × Option DbVal} (h : Lined c cols q a b) :
    LineRel c cols q.items a.1 b.1 ∧ (a.2 = none ∧ b.2 = none ∨ ∃ x y, a.2 = some x ∧ b.2 = some y ∧ Sorted c cols q x y) := by
  obtain ⟨h1, h2⟩ := h
  refine ⟨h1, ?_⟩
  cases ho : q.order with
  | none =>
    rw [ho] at h2
    exact .inl h2
  | some k =>
    rw [ho] at h2
    obtain ⟨cm, x, y, h3, h4, h5, h6⟩ := h2
    exact .inr ⟨x, y, h4, h5, k, cm, ho, h3, h6⟩

/-- **C81, partial: queries as sent.** If the backend holds the client's table, the query is rewritten, MySQL accepts it, and MySQL's answers to the rewritten query, decrypted,
are exactly the answers that the query has without encryption, except that DESC is lost for an encrypted column. -/
theorem C81_taken_partial {P : Proxy} {pst : PTables} {bst : Tables} (hr : Rel P pst bst) {q : Query} {tm : TableMeta ColMeta} (ht : Dict.get? P.db q.table = some tm)
    (hp : PlainTable q.table) (hq : Fine tm.columns q) (hg : Open tm.columns q) (le : String → String → Bool) :
    ∃ json table s, rewriteQuery P.c P.db P.fuel q.json = .ok (json, table, s) ∧ (run le bst json).isSome = true ∧
      (∀ bans, Answers le bst json bans → ∃ ans, P.answer table s bans = .ok ans ∧ (q.taken tm.columns).Answers le pst ans) ∧
      ∀ ans, (q.taken tm.columns).Answers le pst ans → ∃ bans, Answers le bst json bans ∧ P.answer table s bans = .ok ans := by
  obtain ⟨json, g1, g2, g3, g4, g5, g6⟩ := query_rewritten (c := P.c) ht hp hq P.fuel
  obtain ⟨brows, bl, h1, h2, h3⟩ := lines_run hr ht hq hg le
  obtain ⟨ho, hd⟩ := orderOf_sent hq.order
  have hrun : run le bst json = some bl := by
    unfold run
    simp only [g2, g3, itemsOf_list, g6 "groupby" (by simp), groupOf_json, g6 "having" (by simp), havingOf_json, g5, ho, h1, g4, h2]
  have hwin : windowOf (Dict.get? json "limit") (Dict.get? json "offset") = some q.window := by
    rw [g6 "limit" (by simp), g6 "offset" (by simp), windowOf_json]
  have hdesc : descOf (Dict.get? json "orderby") = (q.taken tm.columns).desc := by rw [g5, hd]
  refine ⟨json, _, _, g1, by rw [hrun]; rfl, ?_, ?_⟩
  · rintro bans ⟨l, w, h4, h5, h6⟩
    rw [hrun] at h4
    injection h4 with h4
    subst h4
    rw [hwin] at h5
    injection h5 with h5
    subst h5
    rw [hdesc] at h6
    obtain ⟨a, h7, h8⟩ := admissible_rel (R := fun b a => LineRel P.c tm.columns q.items a b) (S := fun y x => Sorted P.c tm.columns q x y) (le' := leKey le)
      (fun a a' b b' ha hb => (ha.le le hb).symm) ((f2_flip h3).imp fun b a h => by
        obtain ⟨h1, h2⟩ := h.sorted
        refine ⟨h1, h2.imp (fun h => ⟨h.2, h.1⟩) ?_⟩
        rintro ⟨x, y, h3, h4, h5⟩
        exact ⟨y, x, h4, h3, h5⟩) h6
    exact ⟨_, answer_decrypted ht hq.items (f2_flip h8), a, by rw [taken_lines]; exact h7, rfl⟩
  · rintro ans ⟨a, h4, rfl⟩
    rw [taken_lines] at h4
    obtain ⟨b, h5, h6⟩ := admissible_rel (R := LineRel P.c tm.columns q.items) (S := Sorted P.c tm.columns q) (le' := leDb le) (fun a a' b b' ha hb => ha.le le hb)
      (h3.imp fun a b h => h.sorted) h4
    exact ⟨b, ⟨bl, q.window, hrun, hwin, by rw [hdesc]; exact h5⟩, answer_decrypted ht hq.items h6⟩

/-- **C81, partial: queries.** If moreover an encrypted column is sorted in ascending order only, these are exactly the answers that the query has without encryption. -/
theorem C81_query_partial {P : Proxy} {pst : PTables} {bst : Tables} (hr : Rel P pst bst) {q : Query} {tm : TableMeta ColMeta} (ht : Dict.get? P.db q.table = some tm)
    (hp : PlainTable q.table) (hq : Fine tm.columns q) (hg : Open tm.columns q) (ha : Ascending tm.columns q) (le : String → String → Bool) :
    ∃ json table s, rewriteQuery P.c P.db P.fuel q.json = .ok (json, table, s) ∧ (run le bst json).isSome = true ∧
      (∀ bans, Answers le bst json bans → ∃ ans, P.answer table s bans = .ok ans ∧ q.Answers le pst ans) ∧
      ∀ ans, q.Answers le pst ans → ∃ bans, Answers le bst json bans ∧ P.answer table s bans = .ok ans := by
  have he : (q.taken tm.columns).Answers le pst = q.Answers le pst := by
    funext ans
    unfold Query.Answers
    rw [taken_lines, taken_eq hq.order ha]
    rfl
  have := C81_taken_partial hr ht hp hq hg le
  rw [he] at this
  exact this

/-- There is an answer if the texts are ordered. -/
theorem C81_answered {le : String → String → Bool} (htot : ∀ a b, le a b = true ∨ le b a = true) (htrans : ∀ a b c, le a b = true → le b c = true → le a c = true)
    (q : Query) (st : PTables) : ∃ ans, q.Answers le st ans := by
  have tot : ∀ a b, leKey le a b = true ∨ leKey le b a = true := by
    intro a b
    rcases a with _ | a <;> rcases b with _ | b <;> simp only [leKey, true_or, or_true]
    cases a <;> cases b <;> simp only [leVal, true_or, or_true, decide_eq_true_eq]
    · omega
    · exact htot _ _
  have trans : ∀ a b c, leKey le a b = true → leKey le b c = true → leKey le a c = true := by
    intro a b c
    rcases a with _ | a <;> rcases b with _ | b <;> rcases c with _ | c <;> simp only [leKey, implies_true, Bool.false_eq_true, false_implies]
    cases a <;> cases b <;> cases c <;> simp only [leVal, implies_true, Bool.false_eq_true, false_implies, decide_eq_true_eq]
    · intro h1 h2
      omega
    · exact htrans _ _ _
  let r : List (Option Val) × Option (Option Val) → List (Option Val) × Option (Option Val) → Bool := fun a b =>
    if q.desc then leKey le (b.2.getD none) (a.2.getD none) else leKey le (a.2.getD none) (b.2.getD none)
  have hp : ((q.lines le st).mergeSort r).Pairwise fun a b => r a b = true := by
    refine List.pairwise_mergeSort ?_ ?_ _
    · intro a b c h1 h2
      cases hd : q.desc <;> simp only [r, hd, if_true, Bool.false_eq_true, if_false] at h1 h2 ⊢
      · exact trans _ _ _ h1 h2
      · exact trans _ _ _ h2 h1
    · intro a b
      simp only [r, Bool.or_eq_true]
      split
      · exact tot _ _
      · exact tot _ _
  refine ⟨_, _, ⟨_, List.mergeSort_perm _ r, hp.imp fun {a b} h => ?_, rfl⟩, rfl⟩
  rcases ha : a.2 with _ | x
  · rfl
  · rcases hb : b.2 with _ | y
    · rfl
    · simpa [r, ha, hb, before] using h

end EulerDB.Answer
