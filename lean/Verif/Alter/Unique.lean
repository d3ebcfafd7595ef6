/-
A spelled statement is matched by its own expression, with its names captured, and by no other.
-/
import Verif.Alter.Invert

namespace EulerDB.Alter

open EulerDB EulerDB.Clause

inductive Kind where
  | addPrimary | dropPrimary | addForeign | dropForeign | addIndex | addFulltext | addUnique | dropIndex
  deriving DecidableEq, Repr

/-- ADD or DROP. -/
def Kind.verb : Kind → List Char
  | .addPrimary | .addForeign | .addIndex | .addFulltext | .addUnique => "add".toList
  | .dropPrimary | .dropForeign | .dropIndex => "drop".toList

def Kind.noun : Kind → List Char
  | .addPrimary | .dropPrimary => "primary".toList
  | .addForeign => "constraint".toList
  | .dropForeign => "foreign".toList
  | .addIndex | .dropIndex => "index".toList
  | .addFulltext => "fulltext".toList
  | .addUnique => "unique".toList

/-- The expression after the second keyword. -/
def Kind.tail : Kind → List Pat
  | .addPrimary => .ws :: .kw "key".toList :: .ws :: (column ++ [.fin])
  | .dropPrimary => [.ws, .kw "key".toList, .ws, .fin]
  | .addForeign => .ws :: .name :: .ws :: .kw "foreign".toList :: .ws :: .kw "key".toList :: .ws ::
      (column ++ .kw "references".toList :: .ws :: .name :: .ws :: (column ++ [.fin]))
  | .dropForeign => [.ws, .kw "key".toList, .ws, .name, .ws, .fin]
  | .addIndex | .addFulltext | .addUnique => .ws :: .name :: .ws :: (column ++ [.fin])
  | .dropIndex => [.ws, .name, .ws, .fin]

def Kind.pat : Kind → List Pat
  | .addPrimary => Alter.addPrimary
  | .dropPrimary => Alter.dropPrimary
  | .addForeign => Alter.addForeign
  | .dropForeign => Alter.dropForeign
  | .addIndex => Alter.addIndex
  | .addFulltext => Alter.addFulltext
  | .addUnique => Alter.addUnique
  | .dropIndex => Alter.dropIndex

theorem Kind.pat_eq (k : Kind) : k.pat = head ++ .kw k.verb :: .ws :: .kw k.noun :: k.tail := by cases k <;> rfl

def Stmt.kind : Stmt → Kind
  | .addPrimary .. => .addPrimary
  | .dropPrimary .. => .dropPrimary
  | .addForeign .. => .addForeign
  | .dropForeign .. => .dropForeign
  | .addIndex .. => .addIndex
  | .addFulltext .. => .addFulltext
  | .addUnique .. => .addUnique
  | .dropIndex .. => .dropIndex

def Stmt.tbl : Stmt → List Char
  | .addPrimary t _ | .dropPrimary t | .addForeign t _ _ _ _ | .dropForeign t _ | .addIndex t _ _ | .addFulltext t _ _ | .addUnique t _ _ | .dropIndex t _ => t

/-- The names of the statement after the table. -/
def Stmt.names : Stmt → List (List Char)
  | .addPrimary _ c => [c]
  | .dropPrimary _ => []
  | .addForeign _ n c u d => [n, c, u, d]
  | .dropForeign _ n => [n]
  | .addIndex _ n c | .addFulltext _ n c | .addUnique _ n c => [n, c]
  | .dropIndex _ n => [n]

def Stmt.more : Stmt → List Item
  | .addPrimary _ c => .kw "key".toList :: colItems c
  | .dropPrimary _ => [.kw "key".toList]
  | .addForeign _ n c u d => .id n :: .kw "foreign".toList :: .kw "key".toList :: (colItems c ++ .kw "references".toList :: .id u :: colItems d)
  | .dropForeign _ n => [.kw "key".toList, .id n]
  | .addIndex _ n c | .addFulltext _ n c | .addUnique _ n c => .id n :: colItems c
  | .dropIndex _ n => [.id n]

theorem Stmt.items_eq (s : Stmt) : s.items = .kw "alter".toList :: .kw "table".toList :: .table s.tbl :: .kw s.kind.verb :: .kw s.kind.noun :: s.more := by
  cases s <;> rfl

instance (w : List Char) : Decidable (Low w) := by unfold Low; infer_instance

theorem verb_low (k : Kind) : Low k.verb ∧ k.verb ≠ [] := by cases k <;> decide
theorem noun_low (k : Kind) : Low k.noun ∧ k.noun ≠ [] := by cases k <;> decide
theorem verbs (k k' : Kind) : Apart k.verb k'.verb := by cases k <;> cases k' <;> decide
theorem nouns (k k' : Kind) : Apart k.noun k'.noun := by cases k <;> cases k' <;> decide
theorem noun_verb (k k' : Kind) : Apart k.noun k'.verb ∧ k.noun ≠ k'.verb := by cases k <;> cases k' <;> decide
theorem key_verb (k : Kind) : Apart "key".toList k.verb ∧ "key".toList ≠ k.verb := by cases k <;> decide
theorem verb_length (k : Kind) : k.verb.length ≤ 4 := by cases k <;> decide
theorem foreign_noun (k : Kind) : k.noun = "foreign".toList → k = .dropForeign := by cases k <;> decide
theorem kind_eq {k k' : Kind} : k.verb = k'.verb → k.noun = k'.noun → k = k' := by revert k k'; intro k k'; cases k <;> cases k' <;> decide

section
variable {uni : Char → Bool}

theorem quote_ws : isWs '`' = false := by decide
theorem quote_word : isWord uni '`' = false := by simp [isWord]

/-- The table name is found, or it is cut and its rest begins with the first keyword of the expression. -/
theorem head_inv {v a : List Char} {t : List Char} {P : List Pat} {is : List Item} {text : List Char} {caps : List (List Char)} (hv : Low v) (hve : v ≠ [])
    (ha : Low a) (hae : a ≠ []) (hva : Apart v a)
    (hs : Spells uni false (.kw "alter".toList :: .kw "table".toList :: .table t :: .kw a :: is) text) (hm : M uni (head ++ .kw v :: P) none text caps) :
    ∃ A r, A.map Char.toLower = a ∧ Spells uni true is r ∧
      ((∃ prev caps', caps = t :: caps' ∧ v = a ∧ M uni P prev r caps') ∨
        (∃ prev caps' x b, (∀ c ∈ x, isWord uni c = true) ∧ (∀ c ∈ b, isWs c = true) ∧ b ≠ [] ∧ M uni P prev (x ++ (b ++ (A ++ r))) caps')) := by
  obtain ⟨b0, u0, r0, rfl, hb0, -, hu0, b1, u1, r1, rfl, hb1, -, hu1, b2, r2, hb2, ht, hs⟩ := hs
  simp only [head, List.cons_append, List.nil_append] at hm
  obtain ⟨-, p0, hm⟩ := M_ws_kw_kw (by decide) (by decide) (by decide) (by decide) hb0 hu0 (fun _ => rfl) hm
  obtain ⟨-, p1, hm⟩ := M_ws_kw_kw (by decide) (by decide) (by decide) (by decide) hb1 hu1 (fun _ => rfl) hm
  rcases hs with ⟨rfl, -, b3, A, r, rfl, hb3, hne3, hA, hs⟩ | ⟨rfl, b3, A, r, rfl, hb3, -, hA, hs⟩
  · have hAn := kw_name uni ha hae hA
    have hb3n : b3 ≠ [] := hne3 rfl
    -- the rest of a name that was cut
    have cut : ∀ p y caps', IsName uni y → M uni (.kw v :: P) p (y ++ (b3 ++ (A ++ r))) caps' →
        ∃ prev caps' x b, (∀ c ∈ x, isWord uni c = true) ∧ (∀ c ∈ b, isWs c = true) ∧ b ≠ [] ∧ M uni P prev (x ++ (b ++ (A ++ r))) caps' := by
      rintro p y caps' hy ⟨u, r', he, hu, hm⟩
      obtain ⟨x, rfl, rfl⟩ := take (stops_word_ws uni hb3n hb3) u y (kw_word uni hv hu) he
      exact ⟨_, _, x, b3, fun c hc => hy.2 c (by simp [hc]), hb3, hb3n, hm⟩
    refine ⟨A, r, hA, hs, ?_⟩
    obtain ⟨p2, b2', hb2', u, r', caps', hu, rfl, h⟩ := M_ws (stops_ws_word uni ht) hb2 hm
    rcases h with ⟨he, -⟩ | ⟨-, he, hm⟩
    · exfalso
      cases b2' with
      | nil =>
        obtain ⟨hne, hw⟩ := ht
        cases t with
        | nil => exact hne rfl
        | cons c t =>
          simp only [List.nil_append, List.cons_append, List.cons.injEq] at he
          have := hw c (by simp)
          rw [he.1, quote_word] at this; simp at this
      | cons c b2' =>
        simp only [List.cons_append, List.cons.injEq] at he
        have := hb2' c (by simp)
        rw [he.1, quote_ws] at this; simp at this
    · cases b2' with
      | nil =>
        obtain ⟨t', rfl, rfl⟩ := take (stops_word_ws uni hb3n hb3) u t hu he
        cases t' with
        | nil =>
          obtain ⟨he, p3, hm⟩ := M_ws_kw_kw hv hve ha hae hb3 hA hva hm
          exact .inl ⟨p3, caps', by simp, he, hm⟩
        | cons c t' =>
          have hy : IsName uni (c :: t') := ⟨by simp, fun d hd => ht.2 d (by simp [hd])⟩
          exact .inr (cut _ _ _ hy (M_ws0 (stops_ws_word uni hy) hm))
      | cons c b2' =>
        obtain ⟨x, hx, rfl⟩ := take (p := isWord uni) (t := c :: b2' ++ (t ++ (b3 ++ (A ++ r)))) (ws_not_word uni (hb2' c (by simp))) u [] hu he
        obtain ⟨rfl, rfl⟩ := List.append_eq_nil_iff.1 hx.symm
        obtain ⟨p3, hm⟩ := M_ws_kw hv hve (stops_ws_word uni ht) hb2' hm
        exact .inr (cut _ _ _ ht hm)
  · have hAn := kw_name uni ha hae hA
    refine ⟨A, r, hA, hs, .inl ?_⟩
    obtain ⟨p2, b2', hb2', u, r', caps', hu, rfl, h⟩ := M_ws (r := '`' :: (t ++ '`' :: (b3 ++ (A ++ r)))) quote_ws hb2 hm
    rcases h with ⟨he, hm⟩ | ⟨-, he, hm⟩
    · cases b2' with
      | nil =>
        simp only [List.nil_append, List.cons_append, List.cons.injEq, true_and] at he
        obtain ⟨t', rfl, he'⟩ := take (t := '`' :: (b3 ++ (A ++ r))) quote_word u t hu he
        cases t' with
        | nil =>
          simp only [List.nil_append, List.cons.injEq, true_and] at he'
          subst he'
          obtain ⟨he, p3, hm⟩ := M_ws_kw_kw hv hve ha hae hb3 hA hva hm
          exact ⟨p3, caps', by simp, he, hm⟩
        | cons c t' =>
          exfalso
          simp only [List.cons_append, List.cons.injEq] at he'
          have := ht.2 c (by simp)
          rw [← he'.1, quote_word] at this; simp at this
      | cons c b2' =>
        simp only [List.cons_append, List.cons.injEq] at he
        have := hb2' c (by simp)
        rw [he.1, quote_ws] at this; simp at this
    · exfalso
      have hu0 : u = [] := by
        cases b2' with
        | nil =>
          obtain ⟨x, hx, -⟩ := take (p := isWord uni) (t := '`' :: (t ++ '`' :: (b3 ++ (A ++ r)))) quote_word u [] hu he
          exact (List.append_eq_nil_iff.1 hx.symm).1
        | cons c b2' =>
          obtain ⟨x, hx, -⟩ := take (p := isWord uni) (t := c :: b2' ++ ('`' :: (t ++ '`' :: (b3 ++ (A ++ r))))) (ws_not_word uni (hb2' c (by simp))) u [] hu he
          exact (List.append_eq_nil_iff.1 hx.symm).1
      subst hu0
      simp only [List.nil_append] at he
      subst he
      obtain ⟨p3, w, r', he, hw, -⟩ := M_ws_kw hv hve (r := '`' :: (t ++ '`' :: (b3 ++ (A ++ r)))) quote_ws hb2' hm
      have hwn := kw_name uni hv hve hw
      obtain ⟨x, hx, -⟩ := take (p := isWord uni) (t := '`' :: (t ++ '`' :: (b3 ++ (A ++ r)))) quote_word w [] hwn.2 he
      exact hwn.1 (List.append_eq_nil_iff.1 hx.symm).1

/-- A column list captures the column. -/
theorem column_inv {Q : List Pat} {prev : Option Char} {w : Bool} {c : List Char} {is : List Item} {text : List Char} {caps : List (List Char)}
    (hs : Spells uni w (colItems c ++ is) text) (hm : M uni (.ws :: (column ++ Q)) prev text caps) :
    ∃ prev' r caps', caps = c :: caps' ∧ M uni (.ws :: Q) prev' r caps' ∧ Spells uni false is r := by
  obtain ⟨b, r, rfl, hb, b1, r1, rfl, hb1, -, hc, b2, r2, rfl, hb2, hs⟩ := hs
  obtain ⟨-, hm⟩ := M_ws_ch (d := '(') (e := '(') (by decide) (by decide) hb hm
  have h41 : isWord uni ')' = false := by simp [isWord]
  obtain ⟨p, caps', hc1, hm⟩ := M_name (ps := .ws :: .ch ')' :: .ws :: Q) hb1 hc (by
      cases b2 with
      | nil => exact h41
      | cons d b2 => exact ws_not_word uni (hb2 d (by simp)))
    (fun prev b x caps hb hx => blocked_ws (blocked_ch (by decide) h41) prev b x _ caps hb hx) hm
  obtain ⟨-, hm⟩ := M_ws_ch (d := ')') (e := ')') (by decide) (by decide) hb2 hm
  exact ⟨_, r2, caps', hc1, hm, hs⟩

theorem fin_inv {prev : Option Char} {text : List Char} {caps : List (List Char)} (hm : M uni [.ws, .fin] prev text caps) : caps = [] := by
  obtain ⟨u, r, -, -, -, h⟩ := hm
  exact h

/-- What may follow a name in the expressions cannot begin inside a word, except FOREIGN. -/
theorem blocked_column {Q : List Pat} : Blocked uni (.ws :: (column ++ Q)) := blocked_ws (blocked_ch (by decide) (by simp [isWord]))

theorem stops_spelled {is : List Item} {text : List Char} (hs : Spells uni true is text) (hl : ∀ k ∈ is, match k with | .mark c => isWord uni c = false | .table _ => False | _ => True) :
    Stops (isWord uni) text := by
  cases is with
  | nil =>
    obtain ⟨b, r, rfl, hb, -, hr⟩ := spells_end uni hs
    cases b with
    | nil => rcases hr with rfl | rfl <;> simp [Stops, isWord]
    | cons c b => exact ws_not_word uni (hb c (by simp))
  | cons i is =>
    cases i with
    | kw k =>
      obtain ⟨b, u, r, rfl, hb, hne, -, -⟩ := hs
      exact stops_word_ws uni (hne rfl) hb
    | id n =>
      obtain ⟨b, r, rfl, hb, hne, -, -⟩ := hs
      exact stops_word_ws uni (hne rfl) hb
    | table n => exact False.elim (hl (.table n) List.mem_cons_self)
    | mark c =>
      obtain ⟨b, r, rfl, hb, -⟩ := hs
      cases b with
      | nil => exact hl (.mark c) List.mem_cons_self
      | cons d b => exact ws_not_word uni (hb d (by simp))


/-- After a part of ADD or DROP was taken for a name, nothing fits. -/
theorem bad_after {A rest : List Char} {Q : List Pat} {b u r : List Char} (hA : IsName uni A) (hq : Blocked uni Q) (hrest : rest = b ++ (u ++ r)) (hb : ∀ c ∈ b, isWs c = true)
    (hu : IsName uni u) (prev : Option Char) (z y : List Char) (caps : List (List Char)) (he : A = z ++ y) : ¬ M uni Q prev (y ++ rest) caps := by
  intro hm
  cases y with
  | nil => rw [hrest] at hm; exact hq _ _ _ _ _ hb hu hm
  | cons c y => exact hq _ [] (c :: y) rest _ (by simp) ⟨by simp, fun d hd => hA.2 d (by rw [he]; simp [hd])⟩ hm

/-- A cut table name cannot be completed, whichever expression is tried. -/
theorem cut_ok (k k' : Kind) {A b u r' : List Char} (hA : A.map Char.toLower = k'.verb) (hb : ∀ c ∈ b, isWs c = true) (hne : b ≠ []) (hu : u.map Char.toLower = k'.noun)
    (hfk : k' = .dropForeign → ∀ Q prev caps, ¬ M uni (.ws :: .kw "key".toList :: .ws :: (column ++ Q)) prev r' caps) :
    Ok uni A (b ++ (u ++ r')) (.ws :: .kw k.noun :: k.tail) := by
  have hAn : IsName uni A := kw_name uni (verb_low _).1 (verb_low _).2 hA
  have hun : IsName uni u := kw_name uni (noun_low _).1 (noun_low _).2 hu
  have h40 : isWord uni '(' = false := by simp [isWord]
  have hkey : Low "key".toList ∧ "key".toList ≠ [] ∧ Apart "key".toList (A.map Char.toLower) ∧ "key".toList ≠ A.map Char.toLower := by
    rw [hA]; exact ⟨by decide, by decide, (key_verb _).1, (key_verb _).2⟩
  have hcol : ∀ Q, Ok uni A (b ++ (u ++ r')) (.ws :: (column ++ Q)) := fun Q => ⟨by decide, h40⟩
  refine ⟨(noun_low k).1, (noun_low k).2, by rw [hA]; exact (noun_verb k k').1, by rw [hA]; exact (noun_verb k k').2, ?_⟩
  cases k with
  | addPrimary => exact ⟨hkey.1, hkey.2.1, hkey.2.2.1, hkey.2.2.2, hcol _⟩
  | dropPrimary => exact ⟨hkey.1, hkey.2.1, hkey.2.2.1, hkey.2.2.2, trivial⟩
  | dropForeign =>
    exact ⟨hkey.1, hkey.2.1, hkey.2.2.1, hkey.2.2.2, fun prev z y caps he _ => bad_after hAn (blocked_ws blocked_fin) rfl hb hun prev z y caps he, trivial⟩
  | addIndex => exact ⟨fun prev z y caps he _ => bad_after hAn blocked_column rfl hb hun prev z y caps he, hcol _⟩
  | addFulltext => exact ⟨fun prev z y caps he _ => bad_after hAn blocked_column rfl hb hun prev z y caps he, hcol _⟩
  | addUnique => exact ⟨fun prev z y caps he _ => bad_after hAn blocked_column rfl hb hun prev z y caps he, hcol _⟩
  | dropIndex => exact ⟨fun prev z y caps he _ => bad_after hAn (blocked_ws blocked_fin) rfl hb hun prev z y caps he, trivial⟩
  | addForeign =>
    refine ⟨?_, by decide, by decide, ?_, ?_, hkey.1, hkey.2.1, hkey.2.2.1, hkey.2.2.2, hcol _⟩
    · intro prev z y caps he hz hm
      cases y with
      | nil =>
        by_cases hf : k'.noun = "foreign".toList
        · obtain ⟨-, p, hm⟩ := M_ws_kw_kw (by decide) (by decide) (noun_low _).1 (noun_low _).2 hb hu (fun _ => hf.symm) hm
          exact hfk (foreign_noun _ hf) _ _ _ hm
        · have hap : Apart "foreign".toList k'.noun := nouns .dropForeign k'
          exact hf (M_ws_kw_kw (by decide) (by decide) (noun_low _).1 (noun_low _).2 hb hu hap hm).1.symm
      | cons c y =>
        have hy : IsName uni (c :: y) := ⟨by simp, fun d hd => hAn.2 d (by rw [he]; simp [hd])⟩
        obtain ⟨u', r'', he', hu', -⟩ := M_ws0 (stops_ws_word uni hy) hm
        obtain ⟨y', hy', -⟩ := take (stops_word_ws uni hne hb) u' (c :: y) (kw_word uni (by decide) hu') he'
        have h1 : u'.length = 7 := by rw [← List.length_map (f := Char.toLower), hu']; rfl
        have h2 : A.length ≤ 4 := by
          rw [← List.length_map (f := Char.toLower), hA]
          exact verb_length _
        have h3 := congrArg List.length he
        have h4 := congrArg List.length hy'
        simp only [List.length_append] at h3 h4
        omega
    · rw [hA]; exact (noun_verb .dropForeign k').1
    · rw [hA]; exact (noun_verb .dropForeign k').2

/-- What follows the first keyword of the statement: its second keyword, and then what the expression captures as `names`, or nothing
that the expression matches. -/
def Follows (uni : Char → Bool) (k : Kind) (names : Option (List (List Char))) (r : List Char) : Prop :=
  ∃ b u r', r = b ++ (u ++ r') ∧ (∀ c ∈ b, isWs c = true) ∧ b ≠ [] ∧ u.map Char.toLower = k.noun ∧
    (k = .dropForeign → ∀ Q prev caps, ¬ M uni (.ws :: .kw "key".toList :: .ws :: (column ++ Q)) prev r' caps) ∧ (∀ prev caps, M uni k.tail prev r' caps ↔ some caps = names)

/-- The text is matched by no expression but its own, and its names are captured. -/
theorem unique {k k' : Kind} {t : List Char} {is : List Item} {names : Option (List (List Char))} {text : List Char} {caps : List (List Char)}
    (hs : Spells uni false (.kw "alter".toList :: .kw "table".toList :: .table t :: .kw k'.verb :: is) text)
    (hf : ∀ r, Spells uni true is r → Follows uni k' names r) (hm : M uni k.pat none text caps) : k = k' ∧ some caps = names.map (t :: ·) := by
  rw [Kind.pat_eq] at hm
  obtain ⟨A, r, hA, hs, ⟨p, caps', rfl, hv, hm⟩ | ⟨p, caps', x, b, hx, hb, hbn, hm⟩⟩ := head_inv (verb_low _).1 (verb_low _).2 (verb_low _).1 (verb_low _).2 (verbs _ _) hs hm
  · obtain ⟨b, u, r', rfl, hb, -, hu, -, ht⟩ := hf r hs
    obtain ⟨hn, p, hm⟩ := M_ws_kw_kw (noun_low _).1 (noun_low _).2 (noun_low _).1 (noun_low _).2 hb hu (nouns _ _) hm
    obtain rfl := kind_eq hv hn
    rw [← (ht _ _).1 hm]
    exact ⟨rfl, rfl⟩
  · exfalso
    obtain ⟨b', u, r', rfl, hb', hne, hu, hfk, -⟩ := hf r hs
    exact stuck (kw_name uni (verb_low _).1 (verb_low _).2 hA) (stops_word_ws uni hne hb') _ (cut_ok k k' hA hb' hne hu hfk) p x b caps' hx hb (.inl hbn) hm

/-- After the second keyword the names of the statement are captured, blank or not in front of them. -/
theorem tail_inv {s : Stmt} {w : Bool} {r : List Char} {prev : Option Char} {caps : List (List Char)} (hs : Spells uni w s.more r) (hm : M uni s.kind.tail prev r caps) :
    caps = s.names := by
  cases s with
  | addPrimary t c =>
    obtain ⟨b1, u1, r1, rfl, hb1, -, hu1, hs⟩ := hs
    obtain ⟨-, p, hm⟩ := M_ws_kw_kw (by decide) (by decide) (by decide) (by decide) hb1 hu1 (fun _ => rfl) hm
    obtain ⟨p, r, caps', hc2, hm, -⟩ := column_inv (is := []) (by simpa using hs) hm
    rw [hc2, fin_inv hm]; rfl
  | dropPrimary t =>
    obtain ⟨b1, u1, r1, rfl, hb1, -, hu1, hs⟩ := hs
    obtain ⟨-, p, hm⟩ := M_ws_kw_kw (by decide) (by decide) (by decide) (by decide) hb1 hu1 (fun _ => rfl) hm
    exact fin_inv hm
  | dropForeign t n =>
    obtain ⟨b1, u1, r1, rfl, hb1, -, hu1, b2, r2, rfl, hb2, -, hn, hs⟩ := hs
    obtain ⟨-, p, hm⟩ := M_ws_kw_kw (by decide) (by decide) (by decide) (by decide) hb1 hu1 (fun _ => rfl) hm
    obtain ⟨p, caps', hc3, hm⟩ := M_name hb2 hn (stops_spelled hs (by simp)) (fun prev b x caps hb hx => blocked_ws blocked_fin prev b x _ caps hb hx) hm
    rw [hc3, fin_inv hm]; rfl
  | dropIndex t n =>
    obtain ⟨b2, r2, rfl, hb2, -, hn, hs⟩ := hs
    obtain ⟨p, caps', hc4, hm⟩ := M_name hb2 hn (stops_spelled hs (by simp)) (fun prev b x caps hb hx => blocked_ws blocked_fin prev b x _ caps hb hx) hm
    rw [hc4, fin_inv hm]; rfl
  | addIndex t n c =>
    obtain ⟨b2, r2, rfl, hb2, -, hn, hs⟩ := hs
    obtain ⟨p, caps', hc5, hm⟩ := M_name hb2 hn (stops_spelled hs (by simp [colItems, isWord])) (fun prev b x caps hb hx => blocked_column prev b x _ caps hb hx) hm
    obtain ⟨p, r, caps', hc6, hm, -⟩ := column_inv (is := []) (by simpa using hs) hm
    rw [hc5, hc6, fin_inv hm]; rfl
  | addFulltext t n c =>
    obtain ⟨b2, r2, rfl, hb2, -, hn, hs⟩ := hs
    obtain ⟨p, caps', hc7, hm⟩ := M_name hb2 hn (stops_spelled hs (by simp [colItems, isWord])) (fun prev b x caps hb hx => blocked_column prev b x _ caps hb hx) hm
    obtain ⟨p, r, caps', hc8, hm, -⟩ := column_inv (is := []) (by simpa using hs) hm
    rw [hc7, hc8, fin_inv hm]; rfl
  | addUnique t n c =>
    obtain ⟨b2, r2, rfl, hb2, -, hn, hs⟩ := hs
    obtain ⟨p, caps', hc9, hm⟩ := M_name hb2 hn (stops_spelled hs (by simp [colItems, isWord])) (fun prev b x caps hb hx => blocked_column prev b x _ caps hb hx) hm
    obtain ⟨p, r, caps', hc10, hm, -⟩ := column_inv (is := []) (by simpa using hs) hm
    rw [hc9, hc10, fin_inv hm]; rfl
  | addForeign t n c u d =>
    obtain ⟨b2, r2, rfl, hb2, -, hn, hs⟩ := hs
    obtain ⟨b3, F, r3, rfl, hb3, hne3, hF, b4, K, r4, rfl, hb4, hne4, hK, hs⟩ := hs
    have hFn : IsName uni F := kw_name uni (by decide) (by decide) hF
    have hKn : IsName uni K := kw_name uni (by decide) (by decide) hK
    obtain ⟨p, caps', hc11, hm⟩ := M_name hb2 hn (stops_word_ws uni (hne3 rfl) hb3) (by
        intro prev b x caps hb hx hm
        obtain ⟨p, u', r', he, hu', hm⟩ := M_ws_kw (by decide) (by decide) (stops_ws_word uni hx) hb hm
        obtain ⟨x', rfl, rfl⟩ := take (stops_word_ws uni (hne3 rfl) hb3) u' x (kw_word uni (by decide) hu') he
        refine stuck hFn (stops_word_ws uni (hne4 rfl) hb4) _ ?_ _ x' b3 caps (fun c hc => hx.2 c (by simp [hc])) hb3 (.inl (hne3 rfl)) hm
        refine ⟨by decide, by decide, by rw [hF]; decide, by rw [hF]; decide, ?_⟩
        exact ⟨by decide, by simp [isWord]⟩) hm
    obtain ⟨-, p, hm⟩ := M_ws_kw_kw (by decide) (by decide) (by decide) (by decide) hb3 hF (fun _ => rfl) hm
    obtain ⟨-, p, hm⟩ := M_ws_kw_kw (by decide) (by decide) (by decide) (by decide) hb4 hK (fun _ => rfl) hm
    obtain ⟨p, r, caps', hc12, hm, hs⟩ := column_inv hs hm
    obtain ⟨b5, R, r5, rfl, hb5, -, hR, b6, r6, rfl, hb6, -, hu6, hs⟩ := hs
    obtain ⟨-, p, hm⟩ := M_ws_kw_kw (by decide) (by decide) (by decide) (by decide) hb5 hR (fun _ => rfl) hm
    obtain ⟨p, caps', hc13, hm⟩ := M_name hb6 hu6 (stops_spelled hs (by simp [colItems, isWord])) (fun prev b x caps hb hx => blocked_column prev b x _ caps hb hx) hm
    obtain ⟨p, r, caps', hc14, hm, -⟩ := column_inv (is := []) (by simpa using hs) hm
    rw [hc11, hc12, hc13, hc14, fin_inv hm]; rfl

/-! ### The other direction -/

theorem fwd_kw {ps : List Pat} {b u r v : List Char} {caps : List (List Char)} (hb : ∀ c ∈ b, isWs c = true) (hu : u.map Char.toLower = v)
    (h : ∀ prev, M uni ps prev r caps) (prev : Option Char) : M uni (.ws :: .kw v :: ps) prev (b ++ (u ++ r)) caps :=
  ⟨b, _, rfl, hb, u, r, rfl, hu, h _⟩

theorem fwd_name {ps : List Pat} {b n r : List Char} {caps : List (List Char)} (hb : ∀ c ∈ b, isWs c = true) (hn : IsName uni n)
    (h : ∀ prev, M uni ps prev r caps) (prev : Option Char) : M uni (.ws :: .name :: ps) prev (b ++ (n ++ r)) (n :: caps) :=
  ⟨b, _, rfl, hb, n, r, caps, rfl, hn.2, rfl, h _⟩

theorem fwd_column {Q : List Pat} {w : Bool} {c : List Char} {is : List Item} {text : List Char} {caps : List (List Char)} (hs : Spells uni w (colItems c ++ is) text)
    (h : ∀ r, Spells uni false is r → ∀ prev, M uni (.ws :: Q) prev r caps) (prev : Option Char) : M uni (.ws :: (column ++ Q)) prev text (c :: caps) := by
  obtain ⟨b, r, rfl, hb, b1, r1, rfl, hb1, -, hc, b2, r2, rfl, hb2, hs⟩ := hs
  exact ⟨b, _, rfl, hb, _, rfl, b1, _, rfl, hb1, c, _, caps, rfl, hc.2, rfl, b2, _, rfl, hb2, _, rfl, h r2 hs _⟩

theorem fwd_fin {w : Bool} {text : List Char} (hs : Spells uni w [] text) (prev : Option Char) : M uni [.ws, .fin] prev text [] := by
  obtain ⟨b, r, rfl, hb, he, -⟩ := spells_end uni hs
  exact ⟨b, r, rfl, hb, he, rfl⟩

theorem tail_fwd {s : Stmt} {w : Bool} {r : List Char} (hs : Spells uni w s.more r) (prev : Option Char) : M uni s.kind.tail prev r s.names := by
  cases s with
  | addPrimary t c =>
    obtain ⟨b, u, r, rfl, hb, -, hu, hs⟩ := hs
    exact fwd_kw hb hu (fwd_column (is := []) (by simpa using hs) fun r hs => fwd_fin hs) prev
  | dropPrimary t =>
    obtain ⟨b, u, r, rfl, hb, -, hu, hs⟩ := hs
    exact fwd_kw hb hu (fwd_fin hs) prev
  | dropForeign t n =>
    obtain ⟨b, u, r, rfl, hb, -, hu, b2, r2, rfl, hb2, -, hn, hs⟩ := hs
    exact fwd_kw hb hu (fwd_name hb2 hn (fwd_fin hs)) prev
  | dropIndex t n =>
    obtain ⟨b2, r2, rfl, hb2, -, hn, hs⟩ := hs
    exact fwd_name hb2 hn (fwd_fin hs) prev
  | addIndex t n c =>
    obtain ⟨b2, r2, rfl, hb2, -, hn, hs⟩ := hs
    exact fwd_name hb2 hn (fwd_column (is := []) (by simpa using hs) fun r hs => fwd_fin hs) prev
  | addFulltext t n c =>
    obtain ⟨b2, r2, rfl, hb2, -, hn, hs⟩ := hs
    exact fwd_name hb2 hn (fwd_column (is := []) (by simpa using hs) fun r hs => fwd_fin hs) prev
  | addUnique t n c =>
    obtain ⟨b2, r2, rfl, hb2, -, hn, hs⟩ := hs
    exact fwd_name hb2 hn (fwd_column (is := []) (by simpa using hs) fun r hs => fwd_fin hs) prev
  | addForeign t n c u d =>
    obtain ⟨b2, r2, rfl, hb2, -, hn, b3, F, r3, rfl, hb3, -, hF, b4, K, r4, rfl, hb4, -, hK, hs⟩ := hs
    refine fwd_name hb2 hn (fwd_kw hb3 hF (fwd_kw hb4 hK (fwd_column hs fun r hs => ?_))) prev
    obtain ⟨b5, R, r5, rfl, hb5, -, hR, b6, r6, rfl, hb6, -, hu6, hs⟩ := hs
    exact fwd_kw hb5 hR (fwd_name hb6 hu6 (fwd_column (is := []) (by simpa using hs) fun r hs => fwd_fin hs))

theorem after_ws {b : List Char} (hne : b ≠ []) (hb : ∀ c ∈ b, isWs c = true) (prev : Option Char) : ∃ c, after prev b = some c ∧ isWs c = true := by
  refine ⟨b.getLast hne, ?_, hb _ (List.getLast_mem hne)⟩
  simp [after, List.getLast?_eq_getLast_of_ne_nil hne]

theorem head_fwd {v : List Char} {t : List Char} {P : List Pat} {is : List Item} {text : List Char} {caps : List (List Char)}
    (hs : Spells uni false (.kw "alter".toList :: .kw "table".toList :: .table t :: .kw v :: is) text) (h : ∀ r, Spells uni true is r → ∀ prev, M uni P prev r caps) :
    M uni (head ++ .kw v :: P) none text (t :: caps) := by
  obtain ⟨b0, u0, r0, rfl, hb0, -, hu0, b1, u1, r1, rfl, hb1, -, hu1, b2, r2, hb2, ht, hs⟩ := hs
  simp only [head, List.cons_append, List.nil_append]
  refine fwd_kw hb0 hu0 (fwd_kw hb1 hu1 fun prev => ?_) none
  rcases hs with ⟨rfl, hne, b3, A, r, rfl, hb3, -, hA, hs⟩ | ⟨rfl, b3, A, r, rfl, hb3, -, hA, hs⟩
  · refine ⟨b2, _, rfl, hb2, t, _, caps, ht.2, rfl, .inr ⟨?_, rfl, fwd_kw hb3 hA (h r hs) _⟩⟩
    obtain ⟨c, hc, hw⟩ := after_ws (hne rfl) hb2 prev
    obtain ⟨htn, htw⟩ := ht
    cases t with
    | nil => exact absurd rfl htn
    | cons d t => simp [boundary, hc, ws_not_word uni hw, htw d (by simp)]
  · exact ⟨b2, _, rfl, hb2, t, _, caps, ht.2, rfl, .inl ⟨rfl, fwd_kw hb3 hA (h r hs) _⟩⟩

/-- Every expression on a text whose table and what follows are given. -/
theorem run_kind {k k' : Kind} {t : List Char} {is : List Item} {names : Option (List (List Char))} {text : List Char}
    (hs : Spells uni false (.kw "alter".toList :: .kw "table".toList :: .table t :: .kw k'.verb :: is) text)
    (hf : ∀ r, Spells uni true is r → Follows uni k' names r) : run uni k.pat none text = if k = k' then names.map (t :: ·) else none := by
  by_cases hk : k = k'
  · subst hk
    rw [if_pos rfl]
    cases names with
    | none => exact (run_eq_none_iff uni _ _ _).2 fun caps hm => by have := (unique hs hf hm).2; simp at this
    | some names =>
    refine run_eq_some uni ?_ fun caps hm => by simpa using (unique hs hf hm).2
    rw [Kind.pat_eq]
    refine head_fwd hs fun r hr prev => ?_
    obtain ⟨b, u, r', rfl, hb, -, hu, -, ht⟩ := hf r hr
    exact fwd_kw hb hu (fun prev => (ht prev _).2 rfl) prev
  · rw [if_neg hk]
    exact (run_eq_none_iff uni _ _ _).2 fun caps hm => hk (unique hs hf hm).1

theorem follows_more {s : Stmt} {r : List Char} (hs : Spells uni true (.kw s.kind.noun :: s.more) r) : Follows uni s.kind (some s.names) r := by
  obtain ⟨b, u, r', rfl, hb, hne, hu, hs⟩ := hs
  refine ⟨b, u, r', rfl, hb, hne rfl, hu, fun hk Q prev caps hm => ?_, fun prev caps => ⟨fun h => by rw [tail_inv hs h], fun h => by
    rw [Option.some.inj h]; exact tail_fwd hs prev⟩⟩
  cases s <;> try cases hk
  obtain ⟨b1, u1, r1, rfl, hb1, -, hu1, b2, r2, rfl, hb2, -, hn, -⟩ := hs
  obtain ⟨-, p, hm⟩ := M_ws_kw_kw (by decide) (by decide) (by decide) (by decide) hb1 hu1 (fun _ => rfl) hm
  exact blocked_column _ _ _ _ _ hb2 hn hm

end

end EulerDB.Alter
