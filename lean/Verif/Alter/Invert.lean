/-
Which expressions match the text of a statement, and with what captured.
-/
import Verif.Alter.Spell

namespace EulerDB.Alter

open EulerDB EulerDB.Clause

/-- The text does not begin with a character of the class. -/
def Stops (p : Char → Bool) : List Char → Prop
  | [] => True
  | c :: _ => p c = false

theorem take {p : Char → Bool} {t r : List Char} (ht : Stops p t) : ∀ (u b : List Char), (∀ c ∈ u, p c = true) → b ++ t = u ++ r → ∃ b', b = u ++ b' ∧ r = b' ++ t
  | [], b, _, h => ⟨b, rfl, by simpa using h.symm⟩
  | c :: u, [], hu, h => by
    simp only [List.nil_append, List.cons_append] at h
    subst h
    have := hu c (by simp)
    simp only [Stops] at ht
    rw [ht] at this; simp at this
  | c :: u, d :: b, hu, h => by
    simp only [List.cons_append, List.cons.injEq] at h
    obtain ⟨rfl, h⟩ := h
    obtain ⟨b', rfl, hr⟩ := take ht u b (fun x hx => hu x (by simp [hx])) h
    exact ⟨b', rfl, hr⟩

section
variable (uni : Char → Bool)

theorem stops_ws_word {x r : List Char} (hx : IsName uni x) : Stops isWs (x ++ r) := by
  obtain ⟨hx, hw⟩ := hx
  cases x with
  | nil => exact absurd rfl hx
  | cons c x => exact word_not_ws (hw c (by simp))

theorem stops_word_ws {b r : List Char} (hne : b ≠ []) (hb : ∀ c ∈ b, isWs c = true) : Stops (isWord uni) (b ++ r) := by
  cases b with
  | nil => exact absurd rfl hne
  | cons c b => exact ws_not_word uni (hb c (by simp))

theorem kw_name {u w : List Char} (hw : Low w) (hne : w ≠ []) (hu : u.map Char.toLower = w) : IsName uni u :=
  ⟨by rintro rfl; exact hne (by simpa using hu.symm), kw_word uni hw hu⟩

variable {uni}

theorem M_ws {ps : List Pat} {prev : Option Char} {b r : List Char} {caps : List (List Char)} (hr : Stops isWs r) (hb : ∀ c ∈ b, isWs c = true)
    (h : M uni (.ws :: ps) prev (b ++ r) caps) : ∃ prev' b', (∀ c ∈ b', isWs c = true) ∧ M uni ps prev' (b' ++ r) caps := by
  obtain ⟨u, r', he, hu, hm⟩ := h
  obtain ⟨b', rfl, rfl⟩ := take hr u b hu he
  exact ⟨_, b', fun c hc => hb c (by simp [hc]), hm⟩

theorem M_ws0 {ps : List Pat} {prev : Option Char} {r : List Char} {caps : List (List Char)} (hr : Stops isWs r)
    (h : M uni (.ws :: ps) prev r caps) : M uni ps prev r caps := by
  obtain ⟨u, r', he, hu, hm⟩ := h
  obtain ⟨b', hb, rfl⟩ := take hr u [] hu he
  obtain ⟨rfl, rfl⟩ : u = [] ∧ b' = [] := by simpa using hb.symm
  simpa using hm

/-- A keyword does not match a blank. -/
theorem M_kw_blank {ps : List Pat} {prev : Option Char} {b r v : List Char} {caps : List (List Char)} (hv : Low v) (hne : v ≠ []) (hb : ∀ c ∈ b, isWs c = true)
    (h : M uni (.kw v :: ps) prev (b ++ r) caps) : b = [] := by
  obtain ⟨u, r', he, hu, hm⟩ := h
  have hn := kw_name uni hv hne hu
  cases b with
  | nil => rfl
  | cons c b =>
    obtain ⟨x, hx, _⟩ := take (p := isWord uni) (t := c :: (b ++ r)) (ws_not_word uni (hb c (by simp))) u [] hn.2 he
    exact absurd (List.append_eq_nil_iff.1 hx.symm).1 hn.1

theorem M_ch_blank {ps : List Pat} {prev : Option Char} {b r : List Char} {d : Char} {caps : List (List Char)} (hd : isWs d = false) (hb : ∀ c ∈ b, isWs c = true)
    (h : M uni (.ch d :: ps) prev (b ++ r) caps) : b = [] := by
  obtain ⟨r', he, _⟩ := h
  cases b with
  | nil => rfl
  | cons c b =>
    simp only [List.cons_append, List.cons.injEq] at he
    have := hb c (by simp)
    rw [he.1, hd] at this; simp at this

theorem M_ws_kw {ps : List Pat} {prev : Option Char} {b r v : List Char} {caps : List (List Char)} (hv : Low v) (hne : v ≠ []) (hr : Stops isWs r)
    (hb : ∀ c ∈ b, isWs c = true) (h : M uni (.ws :: .kw v :: ps) prev (b ++ r) caps) : ∃ prev', M uni (.kw v :: ps) prev' r caps := by
  obtain ⟨p, b', hb', hm⟩ := M_ws hr hb h
  obtain rfl := M_kw_blank hv hne hb' hm
  exact ⟨p, hm⟩

theorem M_ws_ch {ps : List Pat} {prev : Option Char} {b r : List Char} {d e : Char} {caps : List (List Char)} (hd : isWs d = false) (he : isWs e = false)
    (hb : ∀ c ∈ b, isWs c = true) (h : M uni (.ws :: .ch d :: ps) prev (b ++ e :: r) caps) : d = e ∧ M uni ps (some d) r caps := by
  obtain ⟨p, b', hb', hm⟩ := M_ws (r := e :: r) he hb h
  obtain rfl := M_ch_blank hd hb' hm
  obtain ⟨r', hr, hm⟩ := hm
  simp only [List.nil_append, List.cons.injEq] at hr
  obtain ⟨rfl, rfl⟩ := hr
  exact ⟨rfl, hm⟩

/-- Neither keyword begins with the other unless they are equal. -/
def Apart (v w : List Char) : Prop := v <+: w ∨ w <+: v → v = w

instance (v w : List Char) : Decidable (Apart v w) := by unfold Apart; infer_instance

theorem M_kw_kw {ps : List Pat} {prev : Option Char} {u r v w : List Char} {caps : List (List Char)} (hu : u.map Char.toLower = w) (ha : Apart v w)
    (h : M uni (.kw v :: ps) prev (u ++ r) caps) : v = w ∧ M uni ps (after prev u) r caps := by
  obtain ⟨x, r', he, hx, hm⟩ := h
  rcases List.append_eq_append_iff.1 he with ⟨y, rfl, rfl⟩ | ⟨y, rfl, rfl⟩
  · have hvw : v = w := ha (.inr ⟨y.map Char.toLower, by rw [← hx, ← hu, List.map_append]⟩)
    rw [← hx, ← hu, List.map_append] at hvw
    obtain rfl : y = [] := by simpa using hvw
    exact ⟨by rw [← hx, ← hu]; simp, by simpa using hm⟩
  · have hvw : v = w := ha (.inl ⟨y.map Char.toLower, by rw [← hx, ← hu, List.map_append]⟩)
    rw [← hx, ← hu, List.map_append] at hvw
    obtain rfl : y = [] := by simpa using hvw
    exact ⟨by rw [← hx, ← hu]; simp, by simpa using hm⟩

theorem M_ws_kw_kw {ps : List Pat} {prev : Option Char} {b u r v w : List Char} {caps : List (List Char)} (hv : Low v) (hne : v ≠ []) (hw : Low w) (hwe : w ≠ [])
    (hb : ∀ c ∈ b, isWs c = true) (hu : u.map Char.toLower = w) (ha : Apart v w) (h : M uni (.ws :: .kw v :: ps) prev (b ++ (u ++ r)) caps) :
    v = w ∧ ∃ prev', M uni ps prev' r caps := by
  obtain ⟨p, hm⟩ := M_ws_kw hv hne (stops_ws_word uni (kw_name uni hw hwe hu)) hb h
  obtain ⟨he, hm⟩ := M_kw_kw hu ha hm
  exact ⟨he, _, hm⟩

/-- A name in front of which there may be blanks is captured whole, if what follows in the expression cannot begin inside it. -/
theorem M_name {ps : List Pat} {prev : Option Char} {b n r : List Char} {caps : List (List Char)} (hb : ∀ c ∈ b, isWs c = true) (hn : IsName uni n)
    (hr : Stops (isWord uni) r)
    (hq : ∀ prev b x caps, (∀ c ∈ b, isWs c = true) → IsName uni x → ¬ M uni ps prev (b ++ (x ++ r)) caps)
    (h : M uni (.ws :: .name :: ps) prev (b ++ (n ++ r)) caps) : ∃ prev' caps', caps = n :: caps' ∧ M uni ps prev' r caps' := by
  obtain ⟨p, b', hb', u, r', caps', he, hu, rfl, hm⟩ := M_ws (stops_ws_word uni hn) hb h
  cases b' with
  | nil =>
    obtain ⟨n', rfl, rfl⟩ := take hr u n hu he
    cases n' with
    | nil => exact ⟨_, caps', by simp, hm⟩
    | cons c n' => exact absurd hm (hq _ [] (c :: n') _ (by simp) ⟨by simp, fun d hd => hn.2 d (by simp [hd])⟩)
  | cons c b' =>
    obtain ⟨x, hx, rfl⟩ := take (p := isWord uni) (t := c :: b' ++ (n ++ r)) (ws_not_word uni (hb' c (by simp))) u [] hu he
    obtain ⟨rfl, rfl⟩ := List.append_eq_nil_iff.1 hx.symm
    exact absurd hm (hq _ (c :: b') n _ hb' hn)

/-- What cannot begin at a word, even after blanks. -/
def Blocked (uni : Char → Bool) (ps : List Pat) : Prop :=
  ∀ prev b x r caps, (∀ c ∈ b, isWs c = true) → IsName uni x → ¬ M uni ps prev (b ++ (x ++ r)) caps

theorem blocked_ch {ps : List Pat} {d : Char} (h1 : isWs d = false) (h2 : isWord uni d = false) : Blocked uni (.ch d :: ps) := by
  intro prev b x r caps hb hx h
  obtain rfl := M_ch_blank h1 hb h
  obtain ⟨r', he, _⟩ := h
  obtain ⟨hne, hw⟩ := hx
  cases x with
  | nil => exact hne rfl
  | cons c x =>
    simp only [List.nil_append, List.cons_append, List.cons.injEq] at he
    have := hw c (by simp)
    rw [he.1, h2] at this; simp at this

theorem blocked_fin {ps : List Pat} : Blocked uni (.fin :: ps) := by
  intro prev b x r caps hb hx h
  obtain ⟨hne, hw⟩ := hx
  cases x with
  | nil => exact hne rfl
  | cons c x =>
    have hc := hw c (by simp)
    rcases atEnd_mem h.1 c (by simp) with rfl | rfl <;> simp [isWord] at hc

theorem blocked_ws {ps : List Pat} (h : Blocked uni ps) : Blocked uni (.ws :: ps) := by
  intro prev b x r caps hb hx hm
  obtain ⟨p, b', hb', hm⟩ := M_ws (stops_ws_word uni hx) hb hm
  exact h _ _ _ _ _ hb' hx hm

/-! ### A name that is cut cannot be completed -/

/-- The expression cannot match `x ++ b ++ a ++ rest`, `x` a word, `b` blanks and `a` the next word of the statement (`stuck`). -/
def Ok (uni : Char → Bool) (a rest : List Char) : List Pat → Prop
  | [] => False
  | .ws :: ps => Ok uni a rest ps
  | .kw v :: ps => Low v ∧ v ≠ [] ∧ Apart v (a.map Char.toLower) ∧ v ≠ a.map Char.toLower ∧ Ok uni a rest ps
  | .name :: ps => (∀ prev z y caps, a = z ++ y → z ≠ [] → ¬ M uni ps prev (y ++ rest) caps) ∧ Ok uni a rest ps
  | .ch c :: _ => isWs c = false ∧ isWord uni c = false
  | .fin :: _ => True
  | .table :: _ => False

theorem stuck {a rest : List Char} (ha : IsName uni a) (hrest : Stops (isWord uni) rest) : ∀ (ps : List Pat), Ok uni a rest ps → ∀ (prev : Option Char) (x b : List Char) (caps : List (List Char)),
    (∀ c ∈ x, isWord uni c = true) → (∀ c ∈ b, isWs c = true) → (b ≠ [] ∨ x = []) → ¬ M uni ps prev (x ++ (b ++ (a ++ rest))) caps
  | [], h, _, _, _, _, _, _, _ => h.elim
  | .ws :: ps, h, prev, x, b, caps, hx, hb, hxb => by
    intro hm
    cases x with
    | nil =>
      obtain ⟨p, b', hb', hm⟩ := M_ws (stops_ws_word uni ha) hb hm
      exact stuck ha hrest ps h p [] b' caps hx hb' (.inr rfl) hm
    | cons c x =>
      have := M_ws0 (stops_ws_word uni (x := c :: x) ⟨by simp, hx⟩) hm
      exact stuck ha hrest ps h prev (c :: x) b caps hx hb hxb this
  | .kw v :: ps, h, prev, x, b, caps, hx, hb, hxb => by
    intro hm
    obtain ⟨hv, hne, hap, hneq, hok⟩ := h
    by_cases hbn : b = []
    · obtain rfl : x = [] := hxb.resolve_left (fun h => h hbn)
      subst hbn
      exact hneq (M_kw_kw rfl hap hm).1
    · obtain ⟨u, r, he, hu, hm⟩ := hm
      obtain ⟨x', rfl, rfl⟩ := take (stops_word_ws uni hbn hb) u x (kw_word uni hv hu) he
      exact stuck ha hrest ps hok _ x' b caps (fun c hc => hx c (by simp [hc])) hb (.inl hbn) hm
  | .name :: ps, h, prev, x, b, caps, hx, hb, hxb => by
    intro hm
    obtain ⟨hz, hok⟩ := h
    obtain ⟨u, r, caps', he, hu, rfl, hm⟩ := hm
    by_cases hbn : b = []
    · obtain rfl : x = [] := hxb.resolve_left (fun h => h hbn)
      subst hbn
      obtain ⟨y, rfl, rfl⟩ := take hrest u a hu he
      cases u with
      | nil => exact stuck ha hrest ps hok _ [] [] _ hx hb (.inr rfl) (by simpa using hm)
      | cons c u => exact hz _ (c :: u) y _ rfl (by simp) hm
    · obtain ⟨x', rfl, rfl⟩ := take (stops_word_ws uni hbn hb) u x hu he
      exact stuck ha hrest ps hok _ x' b _ (fun c hc => hx c (by simp [hc])) hb (.inl hbn) hm
  | .ch d :: ps, h, prev, x, b, caps, hx, hb, hxb => by
    intro hm
    cases x with
    | nil => exact blocked_ch h.1 h.2 _ b a rest caps hb ha hm
    | cons c x => exact blocked_ch h.1 h.2 _ [] (c :: x) (b ++ (a ++ rest)) caps (by simp) ⟨by simp, hx⟩ hm
  | .fin :: ps, h, prev, x, b, caps, hx, hb, hxb => by
    intro hm
    cases x with
    | nil => exact blocked_fin _ b a rest caps hb ha hm
    | cons c x => exact blocked_fin _ [] (c :: x) (b ++ (a ++ rest)) caps (by simp) ⟨by simp, hx⟩ hm
  | .table :: ps, h, _, _, _, _, _, _, _ => h.elim

end

end EulerDB.Alter
