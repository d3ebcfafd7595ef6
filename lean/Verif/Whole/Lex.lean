/-
How pieces of text are cut into tokens by the backend.
-/
import Verif.Whole.Mysql
import Verif.Format.LiteralProps
import Verif.Statement.Model

namespace EulerDB.Whole

open EulerDB EulerDB.Clause

/-! ### Steps -/

theorem readStr_shorter (bs : Bool) (q : Char) : ∀ (t : List Char) {o r : List Char}, Format.readStr bs q t = some (o, r) → r.length < t.length
  | [], _, _, h => by simp [Format.readStr] at h
  | [c], o, r, h => by
    unfold Format.readStr at h
    split at h
    · simp only [Option.some.injEq, Prod.mk.injEq] at h
      rw [← h.2]; simp
    · exact absurd h (by simp)
  | c :: d :: t, o, r, h => by
    unfold Format.readStr at h
    split at h
    · split at h
      · cases hr : Format.readStr bs q t with
        | none => simp [hr] at h
        | some p =>
          have := readStr_shorter bs q t (o := p.1) (r := p.2) hr
          simp only [hr, Option.map_some, Option.some.injEq, Prod.mk.injEq] at h
          rw [← h.2]; simp only [List.length_cons]; omega
      · simp only [Option.some.injEq, Prod.mk.injEq] at h
        rw [← h.2]; simp
    · split at h
      · cases hr : Format.readStr bs q t with
        | none => simp [hr] at h
        | some p =>
          have := readStr_shorter bs q t (o := p.1) (r := p.2) hr
          simp only [hr, Option.map_some, Option.some.injEq, Prod.mk.injEq] at h
          rw [← h.2]; simp only [List.length_cons]; omega
      · cases hr : Format.readStr bs q (d :: t) with
        | none => simp [hr] at h
        | some p =>
          have := readStr_shorter bs q (d :: t) (o := p.1) (r := p.2) hr
          simp only [hr, Option.map_some, Option.some.injEq, Prod.mk.injEq] at h
          rw [← h.2]; simp only [List.length_cons] at this ⊢; omega

theorem dropWhile_le (p : Char → Bool) (t : List Char) : (t.dropWhile p).length ≤ t.length := (List.dropWhile_sublist p).length_le

theorem wordTok_rest {w r : List Char} {k : MTok} {r' : List Char} (h : wordTok w r = some (k, r')) : r' = r := by
  unfold wordTok at h
  split at h
  · simp only [Option.some.injEq, Prod.mk.injEq] at h; exact h.2.symm
  · split at h
    · split at h
      · exact absurd h (by simp)
      · simp only [Option.some.injEq, Prod.mk.injEq] at h; exact h.2.symm
    · split at h
      · exact absurd h (by simp)
      · simp only [Option.some.injEq, Prod.mk.injEq] at h; exact h.2.symm
    · exact absurd h (by simp)

theorem tokAt_shorter {c : Char} {t : List Char} {k : MTok} {r : List Char} (h : tokAt c t = some (k, r)) : r.length ≤ t.length := by
  unfold tokAt at h
  split at h
  · cases hr : Format.readStr true c t with
    | none => simp [hr] at h
    | some p =>
      have := readStr_shorter true c t (o := p.1) (r := p.2) hr
      simp only [hr, Option.map_some, Option.some.injEq, Prod.mk.injEq] at h
      rw [← h.2]; omega
  · split at h
    · rw [wordTok_rest h]; exact dropWhile_le _ _
    · split at h
      · cases ho : cmpOf (c :: t.takeWhile cmpChar) with
        | none => simp [ho] at h
        | some o =>
          simp only [ho, Option.map_some, Option.some.injEq, Prod.mk.injEq] at h
          rw [← h.2]; exact dropWhile_le _ _
      · repeat' split at h
        all_goals first
          | (simp only [Option.some.injEq, Prod.mk.injEq] at h; rw [← h.2])
          | exact absurd h (by simp)

/-- The text has these tokens. -/
def Lx (s : List Char) (ts : List MTok) : Prop := ∃ n, lex n s = some ts

theorem lex_length : ∀ (n : Nat) (s : List Char) (ts : List MTok), lex n s = some ts → ∀ m, s.length ≤ m → lex m s = some ts
  | n, s, ts, h, m, hm => by
    unfold lex at h ⊢
    have hd := dropWhile_le space s
    cases hs : s.dropWhile space with
    | nil => simpa [hs] using h
    | cons c t =>
      rw [hs] at h hd
      simp only [List.length_cons] at hd
      cases n with
      | zero => simp at h
      | succ n =>
        cases m with
        | zero => omega
        | succ m =>
          simp only at h ⊢
          cases hk : tokAt c t with
          | none => simp [hk] at h
          | some p =>
            have hl := tokAt_shorter (k := p.1) (r := p.2) hk
            simp only [hk] at h ⊢
            cases hr : lex n p.2 with
            | none => simp [hr] at h
            | some us =>
              rw [lex_length n p.2 us hr m (by omega)]
              simpa [hr] using h

theorem Lx.full {s : List Char} {ts : List MTok} (h : Lx s ts) : lex s.length s = some ts := by
  obtain ⟨n, h⟩ := h
  exact lex_length n s ts h _ (Nat.le_refl _)

theorem Lx.nil : Lx [] [] := ⟨0, rfl⟩

theorem Lx.blank {s : List Char} {ts : List MTok} (h : Lx s ts) {c : Char} (hc : space c = true) : Lx (c :: s) ts := by
  obtain ⟨n, h⟩ := h
  refine ⟨n, ?_⟩
  unfold lex at h ⊢
  simpa [List.dropWhile_cons, hc] using h

theorem Lx.tok {c : Char} {t r : List Char} {k : MTok} {ts : List MTok} (hc : space c = false) (hk : tokAt c t = some (k, r)) (h : Lx r ts) :
    Lx (c :: t) (k :: ts) := by
  obtain ⟨n, h⟩ := h
  refine ⟨n + 1, ?_⟩
  unfold lex
  simp [hc, hk, h]

/-! ### Pieces -/

/-- A text that ends what stands before it: the end, a blank, a comma or a parenthesis. -/
def Ends (s : List Char) : Prop := ∀ c ∈ s.head?, c = ' ' ∨ c = ')' ∨ c = ','

/-- The piece of text is these tokens wherever it is ended. -/
def Cut (s : List Char) (ts : List MTok) : Prop := ∀ rest out, Ends rest → Lx rest out → Lx (s ++ rest) (ts ++ out)

theorem Ends.nil : Ends [] := by simp [Ends]
theorem Ends.blank (s : List Char) : Ends (' ' :: s) := by simp [Ends]
theorem Ends.rp (s : List Char) : Ends (')' :: s) := by simp [Ends]
theorem Ends.comma (s : List Char) : Ends (',' :: s) := by simp [Ends]

theorem Ends.head {s : List Char} (h : Ends s) {p : Char → Bool} (hp : p ' ' = false ∧ p ')' = false ∧ p ',' = false) :
    ∀ c ∈ s.head?, p c = false := by
  intro c hc
  rcases h c hc with rfl | rfl | rfl
  · exact hp.1
  · exact hp.2.1
  · exact hp.2.2

theorem Ends.notFirst {s : List Char} (h : Ends s) (q : Char) (hq : q = '\'' ∨ q = '"') : Format.NotFirst q s := by
  intro hh
  have := h q (by simpa using hh)
  rcases hq with rfl | rfl <;> revert this <;> decide

theorem lx_lp {s : List Char} {ts : List MTok} (h : Lx s ts) : Lx ('(' :: s) (.lp :: ts) :=
  Lx.tok (by decide) (by simp (decide := true) [tokAt]) h

theorem lx_rp {s : List Char} {ts : List MTok} (h : Lx s ts) : Lx (')' :: s) (.rp :: ts) :=
  Lx.tok (by decide) (by simp (decide := true) [tokAt]) h

theorem lx_comma {s : List Char} {ts : List MTok} (h : Lx s ts) : Lx (',' :: s) (.comma :: ts) :=
  Lx.tok (by decide) (by simp (decide := true) [tokAt]) h

theorem Cut.done {s : List Char} {ts : List MTok} (h : Cut s ts) : Lx s ts := by
  simpa using h [] [] Ends.nil Lx.nil

/-- Two pieces with a blank between them. -/
theorem Cut.blank {a b : List Char} {ta tb : List MTok} (ha : Cut a ta) (hb : Cut b tb) : Cut (a ++ ' ' :: b) (ta ++ tb) := by
  intro rest out hr ho
  have h1 := ha (' ' :: (b ++ rest)) _ (Ends.blank _) ((hb rest out hr ho).blank (by decide))
  simpa using h1

theorem Cut.paren {a : List Char} {ta : List MTok} (ha : Cut a ta) : Cut ('(' :: (a ++ [')'])) (.lp :: (ta ++ [.rp])) := by
  intro rest out hr ho
  have h1 := lx_lp (ha (')' :: rest) _ (Ends.rp _) (lx_rp ho))
  simpa using h1

/-! ### Words, numbers, strings, comparisons -/

theorem takeWhile_app {p : Char → Bool} {w rest : List Char} (hw : ∀ c ∈ w, p c = true) (hr : ∀ c ∈ rest.head?, p c = false) :
    (w ++ rest).takeWhile p = w ∧ (w ++ rest).dropWhile p = rest := by
  induction w with
  | nil =>
    cases rest with
    | nil => simp
    | cons d r => simp [hr d (by simp)]
  | cons c t ih =>
    have := ih (fun x hx => hw x (by simp [hx]))
    simp [hw c (by simp), this.1, this.2]

theorem nameChar_ends : Format.nameChar ' ' = false ∧ Format.nameChar ')' = false ∧ Format.nameChar ',' = false := by decide

/-- The beginning of a run of name characters. -/
theorem tokAt_word {c : Char} {t rest : List Char} (hw : ∀ x ∈ c :: t, Format.nameChar x = true) (hr : Ends rest) :
    tokAt c (t ++ rest) = wordTok (c :: t) rest := by
  obtain ⟨h1, h2⟩ := takeWhile_app (w := t) (rest := rest) (p := Format.nameChar) (fun x hx => hw x (by simp [hx])) (hr.head nameChar_ends)
  have hc := hw c (by simp)
  have hq : ¬(c = '\'' ∨ c = '"') := by
    rintro (rfl | rfl) <;> revert hc <;> clear hw <;> decide
  unfold tokAt
  rw [if_neg hq, if_pos hc, h1, h2]

theorem space_nameChar {c : Char} (h : Format.nameChar c = true) : space c = false := by
  cases hs : space c with
  | false => rfl
  | true =>
    simp only [space, Bool.or_eq_true, beq_iff_eq, or_assoc] at hs
    rcases hs with rfl | rfl | rfl | rfl <;> revert h <;> decide

/-- A name as the backend writes it: name characters, the first no digit. -/
def Name (w : List Char) : Prop := w ≠ [] ∧ (∀ c ∈ w, Format.nameChar c = true) ∧ ∀ c ∈ w.head?, c.isDigit = false

theorem cut_word {w : List Char} (h : Name w) : Cut w [.word w] := by
  intro rest out hr ho
  obtain ⟨h0, h1, h2⟩ := h
  obtain ⟨c, t, rfl⟩ := List.exists_cons_of_ne_nil h0
  have hd : c.isDigit = false := h2 c (by simp)
  refine Lx.tok (space_nameChar (h1 c (by simp))) (r := rest) ?_ ho
  refine (tokAt_word h1 hr).trans ?_
  unfold wordTok
  have : Text.parseNat (c :: t) = .error .valueError := by
    unfold Text.parseNat
    rw [if_neg]
    simp [hd]
  rw [this]
  cases rest with
  | nil => simp [hd]
  | cons d r =>
    have hd' := hr d (by simp)
    rcases hd' with rfl | rfl | rfl <;> simp (decide := true) [hd]

theorem digit_nameChar {c : Char} (h : c.isDigit = true) : Format.nameChar c = true := by
  simp [Format.nameChar, Char.isAlphanum, h]

theorem cut_nat (n : Nat) : Cut (Text.natStr n) [.num n] := by
  intro rest out hr ho
  obtain ⟨c, t, he, hd⟩ := Text.natStr_head n
  have hall : ∀ x ∈ c :: t, Format.nameChar x = true := fun x hx => digit_nameChar (Text.natStr_digit (n := n) (by rw [he]; exact hx))
  have hp := Text.parseNat_natStr n
  rw [he] at hp ⊢
  refine Lx.tok (space_nameChar (hall c (by simp))) (r := rest) ?_ ho
  refine (tokAt_word hall hr).trans ?_
  unfold wordTok
  rw [hp]

/-- The tokens of an integer. -/
def intToks (z : Int) : List MTok := if z < 0 then [.minus, .num z.natAbs] else [.num z.natAbs]

theorem cut_int (z : Int) : Cut (Text.intStr z) (intToks z) := by
  unfold Text.intStr intToks
  split
  · intro rest out hr ho
    obtain ⟨c, t, he, hd⟩ := Text.natStr_head z.natAbs
    refine Lx.tok (c := '-') (r := Text.natStr z.natAbs ++ rest) (by decide) ?_ (cut_nat _ rest out hr ho)
    have hc : c ≠ '-' := fun hh => by subst hh; revert hd; decide
    simp (decide := true) [tokAt, he, hc]
  · exact cut_nat _

/-- A text in quotes `q` whose quotes are doubled. -/
theorem cut_str {q : Char} (hq : q = '\'' ∨ q = '"') {s : List Char}
    (h : ∀ rest, Format.NotFirst q rest → Format.readStr true q (Format.doubled q s ++ q :: rest) = some (s, rest)) :
    Cut (Format.quoted q s) [.str s] := by
  intro rest out hr ho
  have h1 := h rest (hr.notFirst q hq)
  refine Lx.tok (c := q) (t := Format.doubled q s ++ q :: rest) (r := rest) ?_ ?_ ho |> fun x => by simpa [Format.quoted] using x
  · rcases hq with rfl | rfl <;> decide
  · unfold tokAt
    rw [if_pos hq, h1]
    rfl

theorem cut_lit {s : List Char} (h : Format.kept s = true) : Cut (Format.quoted '\'' s) [.str s] :=
  cut_str (Or.inl rfl) fun rest hr => (Format.readStr_kept rest hr s).2 h

theorem cut_dquoted {s : List Char} (h : '\\' ∉ s) : Cut (Format.quoted '"' s) [.str s] :=
  cut_str (Or.inr rfl) fun rest hr => Format.readStr_doubled_bs '"' rest hr s h

/-- The text of a comparison operator. -/
def MCmp.chars : MCmp → List Char
  | .eq => ['=']
  | .neq => ['<', '>']
  | .gt => ['>']
  | .lt => ['<']
  | .gte => ['>', '=']
  | .lte => ['<', '=']

theorem cut_cmp_of {c : Char} {w : List Char} {o : MCmp} (hc : space c = false) (h1 : ¬(c = '\'' ∨ c = '"')) (h2 : ¬Format.nameChar c = true)
    (h3 : cmpChar c = true) (hw : ∀ x ∈ w, cmpChar x = true) (ho : cmpOf (c :: w) = some o) : Cut (c :: w) [.cmp o] := by
  intro rest out hr hl
  have h := takeWhile_app hw (hr.head (p := cmpChar) (by decide))
  refine Lx.tok (r := rest) (t := w ++ rest) hc ?_ hl
  unfold tokAt
  rw [if_neg h1, if_neg h2, if_pos h3, h.1, h.2, ho]
  rfl

theorem cut_cmp (o : MCmp) : Cut o.chars [.cmp o] := by
  cases o <;> exact cut_cmp_of (by decide) (by decide) (by decide) (by decide) (by decide) (by decide)

/-! ### The text of a statement -/

/-- What the backend makes of the pieces of a statement's text. -/
inductive Pieces : List Statement.Tok → List MTok → Prop
  | nil : Pieces [] []
  | cons {t : Statement.Tok} {ts : List MTok} {r : List Statement.Tok} {rs : List MTok} : (t = .lp → ts = [.lp]) → (t ≠ .lp → Cut (Statement.spell.one t).toList ts) →
      Pieces r rs → Pieces (t :: r) (ts ++ rs)

theorem spell_ends (b : Statement.Tok) (r : List Statement.Tok) (h : b = .rp ∨ b = .comma) : Ends (Statement.spell (b :: r)).toList := by
  rcases h with rfl | rfl <;> cases r <;> simp [Statement.spell, Statement.spell.one, String.toList_append, Ends]

theorem Pieces.lx : ∀ {l : List Statement.Tok} {ts : List MTok}, Pieces l ts → Lx (Statement.spell l).toList ts
  | [], _, h => by
    cases h
    simpa [Statement.spell] using Lx.nil
  | [t], _, h => by
    cases h with
    | cons h1 h2 hr =>
      cases hr
      by_cases ht : t = .lp
      · rw [h1 ht, ht]
        simpa [Statement.spell, Statement.spell.one] using lx_lp Lx.nil
      · simpa [Statement.spell] using (h2 ht).done
  | a :: b :: r, _, h => by
    cases h with
    | @cons _ ta _ rs h1 h2 hr =>
      have ih := Pieces.lx hr
      rw [Statement.spell]
      by_cases ha : a = .lp
      · rw [if_pos (Or.inl ha), h1 ha, ha]
        simpa [Statement.spell.one, String.toList_append] using lx_lp ih
      · by_cases hb : b = .rp ∨ b = .comma
        · rw [if_pos (Or.inr hb)]
          have := h2 ha _ _ (spell_ends b r hb) ih
          simpa [String.toList_append] using this
        · rw [if_neg (by tauto)]
          have := h2 ha _ _ (Ends.blank _) (ih.blank (c := ' ') (by decide))
          simpa [String.toList_append] using this

theorem Pieces.append {l m : List Statement.Tok} {ts us : List MTok} (h : Pieces l ts) (h' : Pieces m us) : Pieces (l ++ m) (ts ++ us) := by
  induction h with
  | nil => exact h'
  | cons h1 h2 _ ih =>
    rw [List.cons_append, List.append_assoc]
    exact .cons h1 h2 ih

theorem Pieces.one {t : Statement.Tok} {ts : List MTok} (h : Cut (Statement.spell.one t).toList ts) (ht : t ≠ .lp) : Pieces [t] ts := by
  simpa using Pieces.cons (fun h' => absurd h' ht) (fun _ => h) .nil

theorem Pieces.lp : Pieces [.lp] [.lp] := by
  simpa using Pieces.cons (t := .lp) (ts := [.lp]) (fun _ => rfl) (fun h => absurd rfl h) .nil

theorem Pieces.rp : Pieces [.rp] [.rp] :=
  .one (fun rest out _ ho => by simpa [Statement.spell.one] using lx_rp ho) (by simp)

theorem Pieces.comma : Pieces [.comma] [.comma] :=
  .one (fun rest out _ ho => by simpa [Statement.spell.one] using lx_comma ho) (by simp)

theorem Pieces.parens {l : List Statement.Tok} {ts : List MTok} (h : Pieces l ts) : Pieces (Statement.parens l) (.lp :: (ts ++ [.rp])) := by
  simpa [Statement.parens] using Pieces.lp.append (h.append .rp)

/-- Tokens with commas between them. -/
def commaToks : List (List MTok) → List MTok
  | [] => []
  | [p] => p
  | p :: ps => p ++ .comma :: commaToks ps

theorem Pieces.commaSep : ∀ {l : List (List Statement.Tok)} {ts : List (List MTok)}, List.Forall₂ Pieces l ts →
    Pieces (Statement.commaSep l) (commaToks ts)
  | [], _, h => by cases h; exact .nil
  | [p], _, h => by
    cases h with
    | cons h1 h2 => cases h2; exact h1
  | p :: q :: r, _, h => by
    cases h with
    | cons h1 h2 =>
      have ih := Pieces.commaSep h2
      cases h2 with
      | cons h3 h4 =>
        simpa [Statement.commaSep, commaToks] using h1.append (Pieces.comma.append ih)

end EulerDB.Whole
