/-
C77: what the backend reads as an expression is spelled as the grammar wants it.
-/
import Verif.Whole.Tokens

namespace EulerDB.Whole

open EulerDB EulerDB.Sql EulerDB.Parse

/-! ### Blanks and first characters -/

theorem white_space (c : Char) : white c = space c := by
  unfold white space
  cases c == ' ' <;> cases c == '\n' <;> cases c == '\r' <;> cases c == '\t' <;> rfl

theorem Blank.gap {g : List Char} (h : Blank g) : Gap g := gap_of_white fun c hc => by rw [white_space]; exact h c hc

theorem space_facts {c : Char} (h : space c = true) : shutChar c = true ∧ endChar c = true ∧ c ≠ '-' ∧ keyChar c = false ∧ identChar c = false ∧ c ≠ '`' := by
  unfold space at h
  simp only [Bool.or_eq_true, beq_iff_eq] at h
  rcases h with ((rfl | rfl) | rfl) | rfl <;> decide

theorem Blank.after {g : List Char} (h : Blank g) (d : Edge) : After d g :=
  ⟨h.gap, fun _ hd => (space_facts (h '-' (List.mem_of_mem_head? hd))).2.2.1 rfl⟩

/-- The characters with which a token begins. -/
def starts : MTok → Char → Bool
  | .word _, c => Format.nameChar c && !c.isDigit
  | .num _, c => c.isDigit
  | .str _, c => c == '\'' || c == '"'
  | .lp, c => c == '('
  | .rp, c => c == ')'
  | .comma, c => c == ','
  | .minus, c => c == '-'
  | .cmp _, c => cmpChar c

theorem cmpOf_text {w : List Char} {o : MCmp} (h : cmpOf w = some o) :
    (w = ['='] ∧ o = .eq) ∨ (w = ['<', '>'] ∧ o = .neq) ∨ (w = ['>'] ∧ o = .gt) ∨ (w = ['<'] ∧ o = .lt) ∨ (w = ['>', '='] ∧ o = .gte) ∨ (w = ['<', '='] ∧ o = .lte) := by
  unfold cmpOf at h
  split at h
  · injection h with h; exact Or.inl ⟨by assumption, h.symm⟩
  split at h
  · injection h with h; exact Or.inr (Or.inl ⟨by assumption, h.symm⟩)
  split at h
  · injection h with h; exact Or.inr (Or.inr (Or.inl ⟨by assumption, h.symm⟩))
  split at h
  · injection h with h; exact Or.inr (Or.inr (Or.inr (Or.inl ⟨by assumption, h.symm⟩)))
  split at h
  · injection h with h; exact Or.inr (Or.inr (Or.inr (Or.inr (Or.inl ⟨by assumption, h.symm⟩))))
  split at h
  · injection h with h; exact Or.inr (Or.inr (Or.inr (Or.inr (Or.inr ⟨by assumption, h.symm⟩))))
  · exact absurd h (by simp)

theorem TokAt.first {dq : Bool} {k : MTok} {t r : List Char} (h : TokAt dq k t r) : ∃ c x, t = c :: x ∧ starts k c = true := by
  cases h with
  | word h1 h2 _ _ => exact ⟨_, _, rfl, by rw [starts, h2 _ (by simp), h1]; rfl⟩
  | num h1 h2 _ =>
    cases t with
    | nil => exact absurd rfl h1
    | cons c x => exact ⟨c, x, rfl, h2 c (by simp)⟩
  | str _ => exact ⟨_, _, rfl, rfl⟩
  | dstr _ _ => exact ⟨_, _, rfl, rfl⟩
  | lp => exact ⟨_, _, rfl, rfl⟩
  | rp => exact ⟨_, _, rfl, rfl⟩
  | comma => exact ⟨_, _, rfl, rfl⟩
  | minus _ => exact ⟨_, _, rfl, rfl⟩
  | cmp h => rcases cmpOf_text h with ⟨rfl, _⟩ | ⟨rfl, _⟩ | ⟨rfl, _⟩ | ⟨rfl, _⟩ | ⟨rfl, _⟩ | ⟨rfl, _⟩ <;> exact ⟨_, _, rfl, rfl⟩

theorem At.head {dq : Bool} {s : List Char} {ks : List MTok} (h : At dq s ks) {c : Char} (hc : s.head? = some c) :
    space c = true ∨ ∃ k, ks.head? = some k ∧ starts k c = true := by
  cases h with
  | nil hg => exact Or.inl (hg c (List.mem_of_mem_head? hc))
  | @cons g t r k ks hg ht _ =>
    obtain ⟨d, x, rfl, hs⟩ := ht.first
    cases g with
    | nil =>
      simp only [List.nil_append, List.cons_append, List.head?_cons, Option.some.injEq] at hc
      exact Or.inr ⟨k, rfl, hc ▸ hs⟩
    | cons e g =>
      simp only [List.cons_append, List.head?_cons, Option.some.injEq] at hc
      exact Or.inl (hg c (by simp [hc]))

theorem skipWhite_blank : ∀ {g : List Char}, Blank g → ∀ r, skipWhite (g ++ r) = skipWhite r
  | [], _, _ => rfl
  | c :: g, h, r => by
    rw [List.cons_append, skipWhite, List.dropWhile_cons, if_pos (by rw [white_space]; exact h c (by simp))]
    exact skipWhite_blank (fun d hd => h d (by simp [hd])) r

theorem At.skipped {dq : Bool} {s : List Char} {ks : List MTok} (h : At dq s ks) {c : Char} (hc : (skipWhite s).head? = some c) :
    ∃ k, ks.head? = some k ∧ starts k c = true := by
  cases h with
  | nil hg =>
    have := skipWhite_blank hg []
    rw [List.append_nil] at this
    rw [this] at hc
    simp [skipWhite] at hc
  | @cons g t r k ks hg ht _ =>
    obtain ⟨d, x, rfl, hs⟩ := ht.first
    rw [skipWhite_blank hg, List.cons_append, skipWhite, List.dropWhile_cons] at hc
    split at hc
    · rename_i hw
      rw [white_space] at hw
      unfold space at hw
      simp only [Bool.or_eq_true, beq_iff_eq] at hw
      rcases hw with ((rfl | rfl) | rfl) | rfl <;> cases k <;> revert hs <;> simp (decide := true) [starts]
    · simp only [List.head?_cons, Option.some.injEq] at hc
      exact ⟨k, rfl, hc ▸ hs⟩

theorem nameChar_key {c : Char} (h : Format.nameChar c = false) : keyChar c = false := by
  unfold Format.nameChar at h
  unfold keyChar
  simp only [Bool.or_eq_false_iff] at h
  rw [h.1.1.1, h.1.1.2, h.1.2]
  rfl

theorem NoName.boundary {r : List Char} (h : NoName r) : boundary r = true := by
  cases r with
  | nil => rfl
  | cons c r => rw [Sql.boundary, nameChar_key (h c rfl)]; rfl

/-! ### Keywords -/

theorem upper_lower_small : ∀ n : Fin 26, (Char.ofNat (97 + n.1)).toUpper.toLower = (Char.ofNat (97 + n.1)).toLower := by decide +kernel

theorem upper_lower (c : Char) : c.toUpper.toLower = c.toLower := by
  by_cases h : 97 ≤ c.toNat ∧ c.toNat ≤ 122
  · have := upper_lower_small ⟨c.toNat - 97, by omega⟩
    rw [show 97 + (c.toNat - 97) = c.toNat by omega, Char.ofNat_toNat] at this
    exact this
  · unfold Char.toUpper
    rw [dif_neg]
    intro hc
    exact h ⟨hc.1, hc.2⟩

theorem isKw_word {K w : String} {t : List Char} (hK : K.toList.map Char.toLower = w.toList) (h : isKw K t = true) : Word w t := by
  have : t.map Char.toUpper = K.toList := by simpa [isKw] using h
  rw [Word, ← hK, ← this, List.map_map]
  exact List.map_congr_left fun c _ => (upper_lower c).symm

/-! ### Runs, from the left -/

section
variable {env : Env} {Ex : Edge → List Char → V → Prop}

/-- The operators of a run of the backend. -/
inductive EOp : Bop → List Char → List Char → Prop
  | sym {w : String} {o : Bop} {u : List Char} : (w, OpTok.bin o) ∈ symbolOps → w ≠ "-" → EOp o w.toList u
  | word {w : String} {o : Bop} {t u : List Char} : ([w], OpTok.bin o) ∈ wordOps → w ≠ "is" → Word w t → boundary u = true → u ≠ [] → EOp o t u

theorem EOp.sp {o : Bop} {w u : List Char} (h : EOp o w u) : SpOp (.bin o) w u := by
  cases h with
  | sym h1 h2 => exact .sym h1 fun e => absurd e h2
  | word h1 h2 h3 h4 _ => exact .word h1 (.one h3) h4 fun e => absurd (by simpa using e) h2

theorem EOp.extend {o : Bop} {w u : List Char} (h : EOp o w u) (x : List Char) : EOp o w (u ++ x) := by
  cases h with
  | sym h1 h2 => exact .sym h1 h2
  | word h1 h2 h3 h4 h5 =>
    cases u with
    | nil => exact absurd rfl h5
    | cons c u => exact .word h1 h2 h3 h4 (by simp)

theorem EOp.before {o : Bop} {w u x : List Char} (h : EOp o w (u ++ x)) (hu : u ≠ []) : EOp o w u := by
  cases h with
  | sym h1 h2 => exact .sym h1 h2
  | word h1 h2 h3 h4 h5 =>
    cases u with
    | nil => exact absurd rfl hu
    | cons c u => exact .word h1 h2 h3 h4 (by simp)

variable (env Ex) in
/-- A run, built from the left. -/
inductive ERun : Edge → List Char → List F → Prop
  | one {d : Edge} {t : List Char} {m : List F} : SpOperand env Ex d t m → ERun d t m
  | snoc {d e : Edge} {t g w u : List Char} {l m : List F} {o : Bop} : ERun d t l → Gap g → Sep d (g ++ w) → EOp o w u → SpOperand env Ex e u m →
      ERun e (t ++ g ++ w ++ u) (l ++ .bin o :: m)

theorem ERun.append {d : Edge} {t : List Char} {l : List F} (h : ERun env Ex d t l) : ∀ {e : Edge} {g w x : List Char} {l' : List F} {o : Bop}, Gap g → Sep d (g ++ w) →
    EOp o w x → SpRun env Ex e x l' → SpRun env Ex e (t ++ g ++ w ++ x) (l ++ .bin o :: l') := by
  induction h with
  | one h => exact fun hg hs ho hr => .cons h hg hs ho.sp hr
  | @snoc d e t g w u l m o _ hg hs ho hu ih =>
    intro e' g' w' x l' o' hg' hs' ho' hr
    have h1 : SpRun env Ex e' (u ++ g' ++ w' ++ x) (m ++ .bin o' :: l') := .cons hu hg' hs' ho'.sp hr
    have h2 := ih hg hs (o := o) (x := u ++ g' ++ w' ++ x) (by
      have := ho.extend (g' ++ w' ++ x)
      simpa using this) h1
    simpa using h2

theorem ERun.run {d : Edge} {t : List Char} {l : List F} (h : ERun env Ex d t l) : SpRun env Ex d t l := by
  cases h with
  | one h => exact .one h
  | snoc h hg hs ho hu => exact h.append hg hs ho (.one hu)

variable (env Ex) in
/-- An operand at the beginning of `s` completes the run. -/
def Pend (T : List Char) (L : List F) (s : List Char) : Prop :=
  ∀ {e : Edge} {u s' : List Char} {m : List F}, s = u ++ s' → SpOperand env Ex e u m → ERun env Ex e (T ++ u) (L ++ m)

theorem Pend.start (s : List Char) : Pend env Ex [] [] s := fun _ h => .one h

theorem Pend.op {d : Edge} {t g w s : List Char} {l : List F} {o : Bop} (h : ERun env Ex d t l) (hg : Gap g) (hs : Sep d (g ++ w)) (ho : EOp o w s) :
    Pend env Ex (t ++ g ++ w) (l ++ [.bin o]) s := by
  intro e u s' m hu hm
  have hne : u ≠ [] := by
    obtain ⟨x, y, h, _⟩ := hm.head
    simp [h]
  have := ERun.snoc h hg hs ((hu ▸ ho).before hne) hm
  simpa using this

end

/-! ### What is asked of names and texts -/

/-- A plain name that is no word of the proxy's grammar. -/
def GoodName (n : String) : Prop := Plain n.toList ∧ ∀ w ∈ noNames ++ ["table", "top"], ¬ Word w n.toList

/-- No control characters that Python's literals exclude; no quotes, if double quotes are used. -/
def GoodText (dq : Bool) (s : String) : Prop := (∀ c ∈ s.toList, Format.pyPlain c) ∧ (dq = true → ∀ c ∈ s.toList, c ≠ '\'' ∧ c ≠ '"')

/-- The names and texts of an expression. -/
def MEx.Good (dq : Bool) : MEx → Prop
  | .name n => GoodName n
  | .text s => GoodText dq s
  | .int _ => True
  | .cmp _ a b => a.Good dq ∧ b.Good dq
  | .and a b => a.Good dq ∧ b.Good dq
  | .or a b => a.Good dq ∧ b.Good dq

/-- The operators of the two parsers. -/
def MCmp.bop : MCmp → Bop
  | .eq => .eq | .neq => .neq | .gt => .gt | .lt => .lt | .gte => .gte | .lte => .lte

/-- The proxy's value of an expression of the backend, up to parentheses. -/
inductive Rep : MEx → V → Prop
  | name {n : String} : Rep (.name n) (.name n)
  | text {s : String} : Rep (.text s) (.lit s)
  | int {z : Int} : Rep (.int z) (.int z)
  | paren {e : MEx} {v : V} : Rep e v → Rep e (.paren v)
  | cmp {o : MCmp} {a b : MEx} {x y : V} : Rep a x → Rep b y → Rep (.cmp o a b) (binV (jop o.bop) x y)
  | and {a b : MEx} {x y : V} : Rep a x → Rep b y → Rep (.and a b) (binV .and x y)
  | or {a b : MEx} {x y : V} : Rep a x → Rep b y → Rep (.or a b) (binV .or x y)

/-- The characters with which a statement ends. -/
def finChar (c : Char) : Bool := keyChar c || c == '\'' || c == '"' || c == ')'

/-- The text ends with such a character. -/
def Fin' (t : List Char) : Prop := ∃ x c, t = x ++ [c] ∧ finChar c = true

theorem Fin'.append {t : List Char} (h : Fin' t) (u : List Char) : Fin' (u ++ t) := by
  obtain ⟨x, c, rfl, hc⟩ := h
  exact ⟨u ++ x, c, by simp, hc⟩

/-- What follows a token. -/
def Glue (d : Edge) (s : List Char) : Prop := d ≠ .shut → NoName s

/-! ### Operands -/

theorem digit_key {c : Char} (h : c.isDigit = true) : keyChar c = true := by simp [keyChar, Char.isAlphanum, h]

theorem fin_last {t : List Char} (h : t ≠ []) (hk : ∀ c ∈ t, keyChar c = true) : Fin' t :=
  ⟨t.dropLast, t.getLast h, (List.dropLast_concat_getLast h).symm, by simp [finChar, hk _ (List.getLast_mem h)]⟩

theorem good_name {n : List Char} {no : List String} (h : GoodName (String.ofList n)) (hno : ∀ w ∈ no, w ∈ noNames ++ ["table", "top"]) : SpName no n n := by
  have := SpName.mk (.plain h.1) (fun w hw => h.2 w (hno w hw)) .nil
  rw [String.toList_ofList, List.append_nil] at this
  exact this

theorem pieces_agreed {dq : Bool} {l : List Format.Part} (h : ∀ p ∈ l, Piece p) (hg : GoodText dq (String.ofList (Format.meant l))) : ∀ p ∈ l, p.Agreed := by
  intro p hp
  have h1 := h p hp
  cases p with
  | ch c =>
    refine ⟨hg.1 c ?_, h1⟩
    rw [String.toList_ofList]
    exact List.mem_flatMap.2 ⟨_, hp, by simp [Format.Part.value]⟩
  | quote => trivial
  | esc d => exact h1.elim

section
variable (res : List Char → Bool) (env : Env) {dq : Bool}

/-- A parser of nested expressions reads what the grammar reads. -/
def ExOk (dq : Bool) (Ex : Edge → List Char → V → Prop) (ex : List MTok → Option (MEx × List MTok)) : Prop :=
  ∀ ts e ts', ex ts = some (e, ts') → e.Good dq → ∀ s, At dq s ts → ∃ d u s' v, s = u ++ s' ∧ At dq s' ts' ∧ Glue d s' ∧ Ex d u v ∧ Rep e v ∧ Fin' u

variable {Ex : Edge → List Char → V → Prop} {ex : List MTok → Option (MEx × List MTok)}

/-- What is found at the beginning of `s`, after the run `T`. -/
def Found (dq : Bool) (Ex : Edge → List Char → V → Prop) (b : Nat) (T : List Char) (L : List F) (e : MEx) (s : List Char) (ts' : List MTok) : Prop :=
  ∃ d u s', ∃ t : Rt, s = u ++ s' ∧ At dq s' ts' ∧ Glue d s' ∧ ERun env Ex d (T ++ u) (L ++ t.run) ∧ t.Grouped ∧ t.lv ≤ b ∧ Rep e t.v ∧ Fin' u

theorem Found.le {b b' : Nat} {T : List Char} {L : List F} {e : MEx} {s : List Char} {ts' : List MTok} (h : Found env dq Ex b T L e s ts') (hb : b ≤ b') :
    Found env dq Ex b' T L e s ts' := by
  obtain ⟨d, u, s', t, h1, h2, h3, h4, h5, h6, h7⟩ := h
  exact ⟨d, u, s', t, h1, h2, h3, h4, h5, Nat.le_trans h6 hb, h7⟩

theorem prim_found (hex : ExOk dq Ex ex) {ts ts' : List MTok} {e : MEx} (h : prim res ex ts = some (e, ts')) (hg : e.Good dq) {s : List Char} (hs : At dq s ts)
    {T : List Char} {L : List F} (hp : Pend env Ex T L s) : Found env dq Ex 4 T L e s ts' := by
  unfold prim at h
  split at h
  · simp only [Option.some.injEq, Prod.mk.injEq] at h
    obtain ⟨rfl, rfl⟩ := h
    cases hs with
    | @cons g t r _ _ hb ht hr =>
      cases ht with
      | num h1 h2 h3 =>
        refine ⟨.lit, g ++ t, r, .val (.int (natOf 0 t)), by simp, hr, fun _ => h3, hp (s' := r) (by simp) (.atom hb.gap (.int h1 h2)), trivial, Nat.zero_le _, .int, ?_⟩
        exact (fin_last h1 fun c hc => digit_key (h2 c hc)).append g
  · simp only [Option.some.injEq, Prod.mk.injEq] at h
    obtain ⟨rfl, rfl⟩ := h
    cases hs with
    | @cons g t r _ _ hb ht hr =>
      cases ht with
      | minus h0 =>
        cases hr with
        | @cons g' t' r' _ _ hb' ht' hr' =>
          cases ht' with
          | num h1 h2 h3 =>
            have hd : (g' ++ t').head? ≠ some '-' := by
              intro hd
              apply h0
              cases g' with
              | nil =>
                cases t' with
                | nil => exact absurd rfl h1
                | cons c x => exact hd
              | cons c x => exact hd
            refine ⟨.lit, g ++ '-' :: (g' ++ t'), r', .un .neg (.val (.int (natOf 0 t'))), by simp, hr', fun _ => h3,
              hp (s' := r') (by simp) (.neg hb.gap hd (.atom hb'.gap (.int h1 h2))), ⟨trivial, Nat.zero_le _⟩, (by decide : ix (.pre .neg) + 1 ≤ 4), .int, ?_⟩
            have := ((fin_last h1 fun c hc => digit_key (h2 c hc)).append g').append (g ++ ['-'])
            simpa using this
  · rename_i w _
    simp only [Option.some.injEq, Prod.mk.injEq] at h
    obtain ⟨rfl, rfl⟩ := h
    cases hs with
    | @cons g t r _ _ hb ht hr =>
      cases ht with
      | @str l _ h1 =>
        refine ⟨.shut, _, r, .val (.lit (strOf (Format.meant l))), by rw [List.append_assoc], hr, fun x => absurd rfl x,
          hp (s' := r) (by rw [List.append_assoc]) (.atom hb.gap (.str (pieces_agreed h1 hg))), trivial, Nat.zero_le _, .text, ?_⟩
        exact Fin'.append ⟨'\'' :: Format.written l, '\'', by simp, by decide⟩ g
      | @dstr x _ _ h1 h2 =>
        have hq : ∀ c ∈ w, Format.pyPlain c ∧ c ≠ '\'' ∧ c ≠ '"' := fun c hc => by
          have hc' : c ∈ (String.ofList w).toList := by rw [String.toList_ofList]; exact hc
          exact ⟨hg.1 c hc', hg.2 h1 c hc'⟩
        obtain rfl := h2 fun hm => (hq _ hm).2.2 rfl
        refine ⟨.shut, _, r, .val (.lit (strOf x)), by rw [List.append_assoc], hr, fun x => absurd rfl x,
          hp (s' := r) (by rw [List.append_assoc]) (.atom hb.gap (.dstr hq)), trivial, Nat.zero_le _, .text, ?_⟩
        exact Fin'.append ⟨'"' :: x, '"', by simp, by decide⟩ g
  · split at h
    · exact absurd h (by simp)
    simp only [Option.some.injEq, Prod.mk.injEq] at h
    obtain ⟨rfl, rfl⟩ := h
    cases hs with
    | @cons g t r _ _ hb ht hr =>
      cases ht with
      | @word c w _ h1 h2 h3 h4 =>
        have hg' : GoodName (String.ofList (c :: w)) := hg
        refine ⟨.name, _, r, .val (.name (strOf (c :: w))), by rw [List.append_assoc], hr, fun _ => h3,
          hp (s' := r) (by rw [List.append_assoc]) (.atom hb.gap (.name (good_name hg' fun w hw => by simp [hw]))), trivial, Nat.zero_le _, .name, ?_⟩
        have hw := hg'.1.1
        rw [String.toList_ofList] at hw
        exact (fin_last (by simp) hw).append g
  · rename_i r0
    have h' : ex r0 = some (e, .rp :: ts') := by
      unfold closeParen at h
      split at h
      · rename_i e0 x hx
        simp only [Option.some.injEq, Prod.mk.injEq] at h
        rw [hx, h.1, h.2]
      · exact absurd h (by simp)
    cases hs with
    | @cons g t r _ _ hb ht hr =>
      cases ht with
      | lp =>
        obtain ⟨d, u, s', v, rfl, h2, _, h4, h5, _⟩ := hex _ _ _ h' hg _ hr
        cases h2 with
        | @cons g2 t2 r2 _ _ hb2 ht2 hr2 =>
          cases ht2 with
          | rp =>
            refine ⟨.shut, g ++ '(' :: (u ++ g2 ++ [')']), r2, .val (.paren v), by simp, hr2, fun x => absurd rfl x,
              hp (s' := r2) (by simp) (.atom hb.gap (.paren (.one h4) (hb2.after d))), trivial, Nat.zero_le _, .paren h5, ?_⟩
            exact Fin'.append ⟨'(' :: (u ++ g2), ')', by simp, by decide⟩ g
  · exact absurd h (by simp)

end

/-! ### Operators -/

theorem sep_of {d : Edge} {g w : List Char} (hg : Blank g) (hw : ∀ c, w.head? = some c → shutChar c = true ∧ c ≠ '-' ∧ (endChar c = true ∨ (g = [] → d = .shut))) : Sep d (g ++ w) := by
  intro c hc
  cases g with
  | nil =>
    obtain ⟨h1, h2, h3⟩ := hw c hc
    refine ⟨h1, fun hd => ?_, fun _ => h2⟩
    rcases h3 with h3 | h3
    · exact h3
    · exact absurd (h3 rfl) hd
  | cons x g =>
    simp only [List.cons_append, List.head?_cons, Option.some.injEq] at hc
    obtain ⟨h1, h2, h3, _⟩ := space_facts (hg c (by simp [hc]))
    exact ⟨h1, fun _ => h2, fun _ => h3⟩

theorem sep_cmp {d : Edge} {g w : List Char} {o : MCmp} (hg : Blank g) (h : cmpOf w = some o) : Sep d (g ++ w) := by
  refine sep_of hg fun c hc => ?_
  rcases cmpOf_text h with ⟨rfl, _⟩ | ⟨rfl, _⟩ | ⟨rfl, _⟩ | ⟨rfl, _⟩ | ⟨rfl, _⟩ | ⟨rfl, _⟩ <;> simp only [List.head?_cons, Option.some.injEq] at hc <;> subst hc <;>
    exact ⟨by decide, by decide, Or.inl (by decide)⟩

theorem nameChar_shut {c : Char} (h : Format.nameChar c = true) : shutChar c = true ∧ c ≠ '-' := by
  have hne : ∀ x, Format.nameChar x = false → c ≠ x := fun x hx e => by rw [e, hx] at h; exact absurd h (by decide)
  refine ⟨?_, hne _ (by decide)⟩
  simp only [shutChar, Bool.and_eq_true, bne_iff_ne, ne_eq]
  exact ⟨⟨⟨⟨hne _ (by decide), hne _ (by decide)⟩, hne _ (by decide)⟩, hne _ (by decide)⟩, hne _ (by decide)⟩

theorem sep_word {d : Edge} {g w r : List Char} (hg : Blank g) (hw : ∀ c ∈ w, Format.nameChar c = true) (hne : w ≠ []) (hd : Glue d (g ++ (w ++ r))) : Sep d (g ++ w) := by
  refine sep_of hg fun c hc => ?_
  have hc' := hw c (List.mem_of_mem_head? hc)
  refine ⟨(nameChar_shut hc').1, (nameChar_shut hc').2, Or.inr fun e => ?_⟩
  by_contra hdd
  subst e
  cases w with
  | nil => exact hne rfl
  | cons x w =>
    simp only [List.head?_cons, Option.some.injEq] at hc
    have := hd hdd c (by simp [hc])
    rw [hc'] at this
    exact absurd this (by decide)

theorem cmp_op {w : List Char} {o : MCmp} (h : cmpOf w = some o) (s : List Char) : EOp o.bop w s := by
  rcases cmpOf_text h with ⟨rfl, rfl⟩ | ⟨rfl, rfl⟩ | ⟨rfl, rfl⟩ | ⟨rfl, rfl⟩ | ⟨rfl, rfl⟩ | ⟨rfl, rfl⟩
  · exact EOp.sym (w := "=") (by decide) (by decide)
  · exact EOp.sym (w := "<>") (by decide) (by decide)
  · exact EOp.sym (w := ">") (by decide) (by decide)
  · exact EOp.sym (w := "<") (by decide) (by decide)
  · exact EOp.sym (w := ">=") (by decide) (by decide)
  · exact EOp.sym (w := "<=") (by decide) (by decide)

section
variable (res : List Char → Bool) (env : Env) {dq : Bool}
variable {Ex : Edge → List Char → V → Prop} {ex : List MTok → Option (MEx × List MTok)}

theorem Found.step {b b' c : Nat} {T : List Char} {L : List F} {a e f : MEx} {s : List Char} {ts ts' : List MTok} {o : Bop} (h : Found env dq Ex b T L a s ts)
    (hn : ∀ {d : Edge} {s' : List Char}, At dq s' ts → Glue d s' → ∃ g w s2, s' = g ++ (w ++ s2) ∧ Gap g ∧ Sep d (g ++ w) ∧ EOp o w s2 ∧
      ∀ T' L', Pend env Ex T' L' s2 → Found env dq Ex b' T' L' e s2 ts')
    (hb : b ≤ ix (.bin o) + 1) (hb' : b' ≤ ix (.bin o)) (hc : ix (.bin o) + 1 ≤ c) (hr : ∀ x y, Rep a x → Rep e y → Rep f (binV (jop o) x y)) :
    Found env dq Ex c T L f s ts' := by
  obtain ⟨d, u, s', t, rfl, h2, h3, h4, h5, h6, h7, h8⟩ := h
  obtain ⟨g, w, s2, rfl, g1, g2, g3, g4⟩ := hn h2 h3
  obtain ⟨d', u', s3, t', rfl, k2, k3, k4, k5, k6, k7, k8⟩ := g4 _ _ (Pend.op h4 g1 g2 g3)
  refine ⟨d', u ++ (g ++ (w ++ u')), s3, .bin o t t', by simp, k2, k3, ?_, ⟨h5, k5, Nat.le_trans h6 hb, Nat.le_trans k6 hb'⟩, hc, hr _ _ h7 k7, ?_⟩
  · have : L ++ (Rt.bin o t t').run = L ++ t.run ++ [.bin o] ++ t'.run := by simp [Rt.run]
    rw [this]
    simpa using k4
  · exact ((k8.append w).append g).append u

theorem compar_found (hex : ExOk dq Ex ex) {ts ts' : List MTok} {e : MEx} (h : compar res ex ts = some (e, ts')) (hg : e.Good dq) {s : List Char} (hs : At dq s ts)
    {T : List Char} {L : List F} (hp : Pend env Ex T L s) : Found env dq Ex 10 T L e s ts' := by
  unfold compar at h
  obtain ⟨⟨a, r⟩, h1, h2⟩ := Option.bind_eq_some_iff.1 h
  unfold cmpTail at h2
  split at h2
  · rename_i o r' he
    obtain rfl : r = _ := he
    obtain ⟨⟨c, r2⟩, h3, h4⟩ := Option.map_eq_some_iff.1 h2
    simp only [Prod.mk.injEq] at h4
    obtain ⟨rfl, rfl⟩ := h4
    refine (prim_found res env hex h1 hg.1 hs hp).step (o := o.bop) env (b' := 4) (e := c) ?_ ?_ ?_ ?_ fun x y hx hy => .cmp hx hy
    · intro d s' hs' _
      cases hs' with
      | @cons g w s2 _ _ hb ht hr =>
        cases ht with
        | cmp ho => exact ⟨g, w, s2, rfl, hb.gap, sep_cmp hb ho, cmp_op ho _, fun T' L' hp' => prim_found res env hex h3 hg.2 hr hp'⟩
    all_goals cases o <;> decide
  · simp only [Option.some.injEq, Prod.mk.injEq] at h2
    obtain ⟨rfl, rfl⟩ := h2
    exact (prim_found res env hex h1 hg hs hp).le env (by decide)

/-- The word at the beginning of a text. -/
theorem word_step {dq : Bool} {K w0 : String} {o : Bop} {w : List Char} {r : List MTok} {d : Edge} {s' : List Char} (hk : isKw K w = true)
    (hK : K.toList.map Char.toLower = w0.toList) (ho : ([w0], OpTok.bin o) ∈ wordOps) (hi : w0 ≠ "is") (hs : At dq s' (.word w :: r)) (hd : Glue d s') (hr : r ≠ []) :
    ∃ g s2, s' = g ++ (w ++ s2) ∧ Gap g ∧ Sep d (g ++ w) ∧ EOp o w s2 ∧ At dq s2 r := by
  cases hs with
  | @cons g t s2 _ _ hb ht hr2 =>
    cases ht with
    | @word c x _ h1 h2 h3 h4 =>
      refine ⟨g, s2, rfl, hb.gap, sep_word hb h2 (by simp) hd, .word ho hi (isKw_word hK hk) h3.boundary ?_, hr2⟩
      intro e
      have h0 : ∀ {s : List Char} {l : List MTok}, At dq s l → s = [] → l = [] := fun h e => by
        cases h with
        | nil _ => rfl
        | cons _ ht _ =>
          obtain ⟨c, x, rfl, _⟩ := ht.first
          simp at e
      exact hr (h0 hr2 e)

theorem prim_ne {ts ts' : List MTok} {e : MEx} (h : prim res ex ts = some (e, ts')) : ts ≠ [] := by
  rintro rfl
  simp [prim] at h

theorem compar_ne {ts ts' : List MTok} {e : MEx} (h : compar res ex ts = some (e, ts')) : ts ≠ [] := by
  obtain ⟨p, h1, _⟩ := Option.bind_eq_some_iff.1 h
  exact prim_ne res h1

theorem conj_ne {ts ts' : List MTok} {e : MEx} (h : conj res ex ts = some (e, ts')) : ts ≠ [] := by
  obtain ⟨p, h1, _⟩ := Option.bind_eq_some_iff.1 h
  exact compar_ne res h1

theorem andTail_cases {n : Nat} {a e : MEx} {ts ts' : List MTok} (h : andTail res ex n a ts = some (e, ts')) :
    (a = e ∧ ts = ts') ∨ ∃ m w r p, n = m + 1 ∧ ts = .word w :: r ∧ isKw "AND" w = true ∧ compar res ex r = some p ∧ andTail res ex m (.and a p.1) p.2 = some (e, ts') := by
  cases n with
  | zero => simp only [andTail, Option.some.injEq, Prod.mk.injEq] at h; exact Or.inl h
  | succ m =>
    cases ts with
    | nil => simp only [andTail, Option.some.injEq, Prod.mk.injEq] at h; exact Or.inl h
    | cons k r =>
      cases k with
      | word w =>
        rw [andTail] at h
        split at h
        · rename_i hk
          obtain ⟨p, h1, h2⟩ := Option.bind_eq_some_iff.1 h
          exact Or.inr ⟨m, w, r, p, rfl, rfl, hk, h1, h2⟩
        · simp only [Option.some.injEq, Prod.mk.injEq] at h; exact Or.inl h
      | _ => simp only [andTail, Option.some.injEq, Prod.mk.injEq] at h; exact Or.inl h

theorem orTail_cases {n : Nat} {a e : MEx} {ts ts' : List MTok} (h : orTail res ex n a ts = some (e, ts')) :
    (a = e ∧ ts = ts') ∨ ∃ m w r p, n = m + 1 ∧ ts = .word w :: r ∧ isKw "OR" w = true ∧ conj res ex r = some p ∧ orTail res ex m (.or a p.1) p.2 = some (e, ts') := by
  cases n with
  | zero => simp only [orTail, Option.some.injEq, Prod.mk.injEq] at h; exact Or.inl h
  | succ m =>
    cases ts with
    | nil => simp only [orTail, Option.some.injEq, Prod.mk.injEq] at h; exact Or.inl h
    | cons k r =>
      cases k with
      | word w =>
        rw [orTail] at h
        split at h
        · rename_i hk
          obtain ⟨p, h1, h2⟩ := Option.bind_eq_some_iff.1 h
          exact Or.inr ⟨m, w, r, p, rfl, rfl, hk, h1, h2⟩
        · simp only [Option.some.injEq, Prod.mk.injEq] at h; exact Or.inl h
      | _ => simp only [orTail, Option.some.injEq, Prod.mk.injEq] at h; exact Or.inl h

theorem andTail_good {dq : Bool} : ∀ (n : Nat) {a e : MEx} {ts ts' : List MTok}, andTail res ex n a ts = some (e, ts') → e.Good dq → a.Good dq := by
  intro n
  induction n with
  | zero =>
    intro a e ts ts' h hg
    rcases andTail_cases res h with ⟨rfl, _⟩ | ⟨m, _, _, _, hm, _⟩
    · exact hg
    · exact absurd hm (by simp)
  | succ n ih =>
    intro a e ts ts' h hg
    rcases andTail_cases res h with ⟨rfl, _⟩ | ⟨m, _, _, _, hm, _, _, _, h2⟩
    · exact hg
    · obtain rfl := Nat.succ.inj hm
      exact (ih h2 hg).1

theorem orTail_good {dq : Bool} : ∀ (n : Nat) {a e : MEx} {ts ts' : List MTok}, orTail res ex n a ts = some (e, ts') → e.Good dq → a.Good dq := by
  intro n
  induction n with
  | zero =>
    intro a e ts ts' h hg
    rcases orTail_cases res h with ⟨rfl, _⟩ | ⟨m, _, _, _, hm, _⟩
    · exact hg
    · exact absurd hm (by simp)
  | succ n ih =>
    intro a e ts ts' h hg
    rcases orTail_cases res h with ⟨rfl, _⟩ | ⟨m, _, _, _, hm, _, _, _, h2⟩
    · exact hg
    · obtain rfl := Nat.succ.inj hm
      exact (ih h2 hg).1

theorem andTail_found (hex : ExOk dq Ex ex) : ∀ (n : Nat) {a e : MEx} {ts ts' : List MTok}, andTail res ex n a ts = some (e, ts') → e.Good dq →
    ∀ {s : List Char} {T : List Char} {L : List F}, Found env dq Ex 25 T L a s ts → Found env dq Ex 25 T L e s ts' := by
  intro n
  induction n with
  | zero =>
    intro a e ts ts' h _ s T L hf
    rcases andTail_cases res h with ⟨rfl, rfl⟩ | ⟨m, _, _, _, hm, _⟩
    · exact hf
    · exact absurd hm (by simp)
  | succ n ih =>
    intro a e ts ts' h hg s T L hf
    rcases andTail_cases res h with ⟨rfl, rfl⟩ | ⟨m, w, r, ⟨c, r2⟩, hm, rfl, hk, h1, h2⟩
    · exact hf
    · obtain rfl := Nat.succ.inj hm
      have hg' := andTail_good res n h2 hg
      refine ih h2 hg (hf.step (o := .and) env (b' := 10) (e := c) ?_ (by decide) (by decide) (by decide) fun x y hx hy => .and hx hy)
      intro d s' hs' hd
      obtain ⟨g, s2, e1, e2, e3, e4, e5⟩ := word_step (o := .and) (w0 := "and") hk (by decide) (by decide) (by decide) hs' hd (compar_ne res h1)
      exact ⟨g, w, s2, e1, e2, e3, e4, fun T' L' hp' => compar_found res env hex h1 hg'.2 e5 hp'⟩

theorem conj_found (hex : ExOk dq Ex ex) {ts ts' : List MTok} {e : MEx} (h : conj res ex ts = some (e, ts')) (hg : e.Good dq) {s : List Char} (hs : At dq s ts)
    {T : List Char} {L : List F} (hp : Pend env Ex T L s) : Found env dq Ex 25 T L e s ts' := by
  obtain ⟨⟨a, r⟩, h1, h2⟩ := Option.bind_eq_some_iff.1 h
  exact andTail_found res env hex _ h2 hg ((compar_found res env hex h1 (andTail_good res _ h2 hg) hs hp).le env (by decide))

theorem orTail_found (hex : ExOk dq Ex ex) : ∀ (n : Nat) {a e : MEx} {ts ts' : List MTok}, orTail res ex n a ts = some (e, ts') → e.Good dq →
    ∀ {s : List Char} {T : List Char} {L : List F}, Found env dq Ex 26 T L a s ts → Found env dq Ex 26 T L e s ts' := by
  intro n
  induction n with
  | zero =>
    intro a e ts ts' h _ s T L hf
    rcases orTail_cases res h with ⟨rfl, rfl⟩ | ⟨m, _, _, _, hm, _⟩
    · exact hf
    · exact absurd hm (by simp)
  | succ n ih =>
    intro a e ts ts' h hg s T L hf
    rcases orTail_cases res h with ⟨rfl, rfl⟩ | ⟨m, w, r, ⟨c, r2⟩, hm, rfl, hk, h1, h2⟩
    · exact hf
    · obtain rfl := Nat.succ.inj hm
      have hg' := orTail_good res n h2 hg
      refine ih h2 hg (hf.step (o := .or) env (b' := 25) (e := c) ?_ (by decide) (by decide) (by decide) fun x y hx hy => .or hx hy)
      intro d s' hs' hd
      obtain ⟨g, s2, e1, e2, e3, e4, e5⟩ := word_step (o := .or) (w0 := "or") hk (by decide) (by decide) (by decide) hs' hd (conj_ne res h1)
      exact ⟨g, w, s2, e1, e2, e3, e4, fun T' L' hp' => conj_found res env hex h1 hg'.2 e5 hp'⟩

theorem disj_found (hex : ExOk dq Ex ex) {ts ts' : List MTok} {e : MEx} (h : disj res ex ts = some (e, ts')) (hg : e.Good dq) {s : List Char} (hs : At dq s ts) :
    Found env dq Ex 26 [] [] e s ts' := by
  obtain ⟨⟨a, r⟩, h1, h2⟩ := Option.bind_eq_some_iff.1 h
  exact orTail_found res env hex _ h2 hg ((conj_found res env hex h1 (orTail_good res _ h2 hg) hs (Pend.start s)).le env (by decide))

theorem disj_spells {n : Nat} (hex : ExOk dq (SpExpr env n) ex) : ExOk dq (SpExpr env (n + 1)) (disj res ex) := by
  intro ts e ts' h hg s hs
  obtain ⟨d, u, s', t, h1, h2, h3, h4, h5, _, h7, h8⟩ := disj_found res env hex h hg hs
  exact ⟨d, u, s', t.v, h1, h2, h3, Or.inl ⟨t.run, by simpa using h4.run, C70_bracketed_partial h5⟩, h7, h8⟩

theorem expr_spells : ∀ n, ExOk dq (SpExpr env (n + 1)) (expr res n)
  | 0 => disj_spells res env (fun _ _ _ h => by simp at h)
  | n + 1 => disj_spells res env (expr_spells n)

end

end EulerDB.Whole
