/-
C77: the tokens of a text.  What the backend's lexer finds is written down as a relation between texts and tokens.
-/
import Verif.Whole.Mysql
import Verif.Sql.RunTree

namespace EulerDB.Whole

open EulerDB

/-- The text is without a character of a name at its beginning. -/
def NoName (r : List Char) : Prop := ∀ c, r.head? = some c → Format.nameChar c = false

/-- A part of a string in single quotes: a character, or two quotes. -/
def Piece : Format.Part → Prop
  | .ch c => c ≠ '\''
  | .quote => True
  | .esc _ => False

/-- The token `k` is written `t`; `r` follows.  `dq`: double quotes occur. -/
inductive TokAt (dq : Bool) : MTok → List Char → List Char → Prop
  | word {c : Char} {w r : List Char} : c.isDigit = false → (∀ d ∈ c :: w, Format.nameChar d = true) → NoName r →
      (∀ d, r.head? = some d → d ≠ '\'' ∧ d ≠ '"') → TokAt dq (.word (c :: w)) (c :: w) r
  | num {ds r : List Char} : ds ≠ [] → (∀ d ∈ ds, d.isDigit = true) → NoName r → TokAt dq (.num (Sql.natOf 0 ds)) ds r
  | str {l : List Format.Part} {r : List Char} : (∀ p ∈ l, Piece p) → TokAt dq (.str (Format.meant l)) ('\'' :: (Format.written l ++ ['\''])) r
  | dstr {x s r : List Char} : dq = true → ('"' ∉ s → x = s) → TokAt dq (.str s) ('"' :: (x ++ ['"'])) r
  | lp {r : List Char} : TokAt dq .lp ['('] r
  | rp {r : List Char} : TokAt dq .rp [')'] r
  | comma {r : List Char} : TokAt dq .comma [','] r
  | minus {r : List Char} : r.head? ≠ some '-' → TokAt dq .minus ['-'] r
  | cmp {o : MCmp} {w r : List Char} : cmpOf w = some o → TokAt dq (.cmp o) w r

/-- Blanks. -/
def Blank (g : List Char) : Prop := ∀ c ∈ g, space c = true

/-- The text consists of the tokens. -/
inductive At (dq : Bool) : List Char → List MTok → Prop
  | nil {g : List Char} : Blank g → At dq g []
  | cons {g t r : List Char} {k : MTok} {ks : List MTok} : Blank g → TokAt dq k t r → At dq r ks → At dq (g ++ (t ++ r)) (k :: ks)

/-! ### The lexer -/

theorem natOf_ofDigitChars : ∀ (l : List Char) (a : Nat), (∀ c ∈ l, c.isDigit = true) → Nat.ofDigitChars 10 l a = Sql.natOf a l
  | [], a, _ => rfl
  | c :: l, a, h => by
    have hd : Sql.digitVal c = c.toNat - '0'.toNat := rfl
    rw [Nat.ofDigitChars_cons, natOf_ofDigitChars l _ fun c hc => h c (by simp [hc])]
    simp [Sql.natOf, hd]

theorem parts_of_readStr : ∀ {t : List Char} {s r : List Char}, '\\' ∉ t → Format.readStr true '\'' t = some (s, r) →
    ∃ l, (∀ p ∈ l, Piece p) ∧ s = Format.meant l ∧ t = Format.written l ++ '\'' :: r
  | [], _, _, _, h => by simp [Format.readStr] at h
  | [c], s, r, _, h => by
    rw [Format.readStr] at h
    split at h
    · rename_i hc
      simp only [Option.some.injEq, Prod.mk.injEq] at h
      exact ⟨[], by simp, by simp [Format.meant, h.1], by simp [Format.written, hc, h.2]⟩
    · exact absurd h (by simp)
  | c :: d :: t, s, r, hb, h => by
    rw [Format.readStr] at h
    simp only [List.mem_cons, not_or] at hb
    split at h
    · rename_i hc
      split at h
      · rename_i hd
        obtain ⟨p, hp, he⟩ := Option.map_eq_some_iff.1 h
        obtain ⟨l, h1, h2, h3⟩ := parts_of_readStr (s := p.1) (r := p.2) hb.2.2 hp
        simp only [Prod.mk.injEq] at he
        refine ⟨.quote :: l, ?_, ?_, ?_⟩
        · intro q hq
          rcases List.mem_cons.1 hq with rfl | hq
          · trivial
          · exact h1 q hq
        · rw [← he.1, h2]; simp [Format.meant, Format.Part.value]
        · rw [h3, hc, hd, he.2]; simp [Format.written, Format.Part.text]
      · simp only [Option.some.injEq, Prod.mk.injEq] at h
        exact ⟨[], by simp, by simp [Format.meant, h.1], by simp [Format.written, hc, h.2]⟩
    · rename_i hc
      rw [if_neg (by simp; exact fun x => hb.1 x.symm)] at h
      obtain ⟨p, hp, he⟩ := Option.map_eq_some_iff.1 h
      obtain ⟨l, h1, h2, h3⟩ := parts_of_readStr (t := d :: t) (s := p.1) (r := p.2) (by simp [hb.2]) hp
      simp only [Prod.mk.injEq] at he
      refine ⟨.ch c :: l, ?_, ?_, ?_⟩
      · intro q hq
        rcases List.mem_cons.1 hq with rfl | hq
        · exact hc
        · exact h1 q hq
      · rw [← he.1, h2]; simp [Format.meant, Format.Part.value]
      · rw [h3, he.2]; simp [Format.written, Format.Part.text]

theorem double_of_readStr : ∀ {t : List Char} {s r : List Char}, '\\' ∉ t → Format.readStr true '"' t = some (s, r) →
    ∃ x, ('"' ∉ s → x = s) ∧ t = x ++ '"' :: r
  | [], _, _, _, h => by simp [Format.readStr] at h
  | [c], s, r, _, h => by
    rw [Format.readStr] at h
    split at h
    · rename_i hc
      simp only [Option.some.injEq, Prod.mk.injEq] at h
      exact ⟨[], fun _ => h.1, by simp [hc, h.2]⟩
    · exact absurd h (by simp)
  | c :: d :: t, s, r, hb, h => by
    rw [Format.readStr] at h
    simp only [List.mem_cons, not_or] at hb
    split at h
    · rename_i hc
      split at h
      · rename_i hd
        obtain ⟨p, hp, he⟩ := Option.map_eq_some_iff.1 h
        obtain ⟨x, _, h3⟩ := double_of_readStr (s := p.1) (r := p.2) hb.2.2 hp
        simp only [Prod.mk.injEq] at he
        exact ⟨'"' :: '"' :: x, fun hn => absurd (by rw [← he.1]; simp) hn, by rw [h3, hc, hd, he.2]; simp⟩
      · simp only [Option.some.injEq, Prod.mk.injEq] at h
        exact ⟨[], fun _ => h.1, by simp [hc, h.2]⟩
    · rename_i hc
      rw [if_neg (by simp; exact fun x => hb.1 x.symm)] at h
      obtain ⟨p, hp, he⟩ := Option.map_eq_some_iff.1 h
      obtain ⟨x, h2, h3⟩ := double_of_readStr (t := d :: t) (s := p.1) (r := p.2) (by simp [hb.2]) hp
      simp only [Prod.mk.injEq] at he
      refine ⟨c :: x, fun hn => ?_, by rw [h3, he.2]; simp⟩
      rw [← he.1] at hn ⊢
      rw [h2 fun hm => hn (by simp [hm])]

theorem dropWhile_head {p : Char → Bool} : ∀ (t : List Char) (c : Char), (t.dropWhile p).head? = some c → p c = false
  | [], _, h => by simp at h
  | d :: t, c, h => by
    rw [List.dropWhile_cons] at h
    split at h
    · exact dropWhile_head t c h
    · rename_i hd
      simp only [List.head?_cons, Option.some.injEq] at h
      rw [← h]; simpa using hd

theorem mem_takeWhile {p : Char → Bool} : ∀ {t : List Char} {c : Char}, c ∈ t.takeWhile p → p c = true
  | [], _, h => by simp at h
  | d :: t, c, h => by
    rw [List.takeWhile_cons] at h
    split at h
    · rename_i hd
      rcases List.mem_cons.1 h with rfl | h
      · exact hd
      · exact mem_takeWhile h
    · simp at h

theorem dropWhile_nil {p : Char → Bool} : ∀ {t : List Char}, t.dropWhile p = [] → ∀ c ∈ t, p c = true
  | [], _, _, h => by simp at h
  | d :: t, hs, c, h => by
    rw [List.dropWhile_cons] at hs
    split at hs
    · rename_i hd
      rcases List.mem_cons.1 h with rfl | h
      · exact hd
      · exact dropWhile_nil hs c h
    · exact absurd hs (by simp)

theorem wordTok_at {dq : Bool} {w r r' : List Char} {k : MTok} (hw : ∀ d ∈ w, Format.nameChar d = true) (hr : NoName r) (h : wordTok w r = some (k, r')) :
    r' = r ∧ TokAt dq k w r := by
  unfold wordTok Text.parseNat at h
  split at h
  · rename_i n hn
    split at hn
    · rename_i hd
      simp only [Option.some.injEq, Prod.mk.injEq] at h
      have hd' : ∀ c ∈ w, c.isDigit = true := by simpa using hd.2
      injection hn with hn
      rw [natOf_ofDigitChars w 0 hd'] at hn
      rw [← h.1, ← hn]
      exact ⟨h.2.symm, .num hd.1 hd' hr⟩
    · exact absurd hn (by simp)
  · split at h
    · rename_i c x d y _
      split at h
      · exact absurd h (by simp)
      · rename_i hc
        simp only [Bool.or_eq_true, beq_iff_eq, not_or, Bool.not_eq_true] at hc
        simp only [Option.some.injEq, Prod.mk.injEq] at h
        rw [← h.1]
        refine ⟨h.2.symm, .word hc.1.1 hw hr ?_⟩
        rintro e he
        simp only [List.head?_cons, Option.some.injEq] at he
        rw [← he]
        exact ⟨hc.1.2, hc.2⟩
    · split at h
      · exact absurd h (by simp)
      · rename_i hc
        simp only [Option.some.injEq, Prod.mk.injEq] at h
        rw [← h.1]
        exact ⟨h.2.symm, .word (by simpa using hc) hw hr (by simp)⟩
    · exact absurd h (by simp)

theorem tokAt_at {dq : Bool} {c : Char} {t r : List Char} {k : MTok} (hb : '\\' ∉ t) (hd : c = '"' → dq = true) (h : tokAt c t = some (k, r)) :
    ∃ x, c :: t = x ++ r ∧ TokAt dq k x r := by
  unfold tokAt at h
  split at h
  · rename_i hc
    obtain ⟨p, hp, he⟩ := Option.map_eq_some_iff.1 h
    simp only [Prod.mk.injEq] at he
    rcases hc with rfl | rfl
    · obtain ⟨l, h1, h2, h3⟩ := parts_of_readStr hb hp
      rw [← he.1, ← he.2, h2]
      exact ⟨_, by rw [h3]; simp, .str h1⟩
    · obtain ⟨x, h1, h2⟩ := double_of_readStr hb hp
      rw [← he.1, ← he.2]
      exact ⟨_, by rw [h2]; simp, .dstr (hd rfl) h1⟩
  split at h
  · rename_i hc
    have hn : NoName (t.dropWhile Format.nameChar) := fun d hd => dropWhile_head t d hd
    obtain ⟨h1, h2⟩ := wordTok_at (dq := dq) (fun d hd => by
      rcases List.mem_cons.1 hd with rfl | hd
      · exact hc
      · exact mem_takeWhile hd) hn h
    rw [h1]
    exact ⟨_, by simp, h2⟩
  split at h
  · obtain ⟨o, ho, he⟩ := Option.map_eq_some_iff.1 h
    simp only [Prod.mk.injEq] at he
    rw [← he.1, ← he.2]
    exact ⟨_, by simp, .cmp ho⟩
  split at h
  · rename_i hc
    simp only [Option.some.injEq, Prod.mk.injEq] at h
    rw [← h.1, ← h.2, hc]
    exact ⟨_, rfl, .lp⟩
  split at h
  · rename_i hc
    simp only [Option.some.injEq, Prod.mk.injEq] at h
    rw [← h.1, ← h.2, hc]
    exact ⟨_, rfl, .rp⟩
  split at h
  · rename_i hc
    simp only [Option.some.injEq, Prod.mk.injEq] at h
    rw [← h.1, ← h.2, hc]
    exact ⟨_, rfl, .comma⟩
  split at h
  · rename_i hc
    split at h
    · exact absurd h (by simp)
    · rename_i hm
      simp only [Option.some.injEq, Prod.mk.injEq] at h
      rw [← h.1, ← h.2, hc]
      exact ⟨_, rfl, .minus hm⟩
  · exact absurd h (by simp)

theorem lex_at {dq : Bool} : ∀ (n : Nat) {s : List Char} {ks : List MTok}, '\\' ∉ s → ('"' ∈ s → dq = true) → lex n s = some ks → At dq s ks := by
  intro n
  induction n with
  | zero =>
    intro s ks hb hd h
    rw [lex.eq_def] at h
    dsimp only at h
    split at h
    · rename_i hs
      simp only [Option.some.injEq] at h
      rw [← h]
      exact .nil fun c hc => by
        have := dropWhile_nil hs c hc
        exact this
    · exact absurd h (by simp)
  | succ n ih =>
    intro s ks hb hd h
    rw [lex.eq_def] at h
    dsimp only at h
    split at h
    · rename_i hs
      simp only [Option.some.injEq] at h
      rw [← h]
      exact .nil fun c hc => dropWhile_nil hs c hc
    · rename_i c t hs
      have e : s = s.takeWhile space ++ c :: t := by rw [← hs]; simp
      split at h
      · exact absurd h (by simp)
      · rename_i k r hk
        obtain ⟨l, hl, rfl⟩ := Option.map_eq_some_iff.1 h
        have hm : ∀ x, x ∈ c :: t → x ∈ s := fun x hx => by rw [e]; simp [hx]
        obtain ⟨x, hx, ht⟩ := tokAt_at (dq := dq) (fun hm' => hb (hm _ (by simp [hm']))) (fun hc => hd (hm _ (by simp [hc]))) hk
        have hr : ∀ y, y ∈ r → y ∈ s := fun y hy => hm y (by rw [hx]; simp [hy])
        rw [e, hx]
        exact .cons (fun c hc => mem_takeWhile hc) ht (ih (fun h => hb (hr _ h)) (fun h => hd (hr _ h)) hl)

end EulerDB.Whole
