/-
C68: what the proxy skips between two tokens is what MySQL skips.

MySQL's side is trusted: reference manual, "Comments": `#` to the end of the line, `--` to the end of the line
if whitespace or a control character (or the end of the text) follows, `/* .. */`, except that the text of
`/*! .. */` is executed; a comment that is not closed is an error.  Whitespace: blank, tab, line feed, vertical
tab, form feed, carriage return.
-/
import Verif.Sql.Scan

namespace EulerDB.Sql

/-! ### What MySQL skips -/

def mwhite (c : Char) : Bool := white c || c == Char.ofNat 11 || c == Char.ofNat 12

def control (c : Char) : Bool := decide (c.toNat < 32) || c == Char.ofNat 127

/-- May follow the dashes of a comment. -/
def dashEnd : List Char → Bool
  | [] => true
  | c :: _ => mwhite c || control c

/-- `none`: a comment is not closed. -/
def mskipM : Mode → List Char → Option (List Char)
  | .code, [] => some []
  | .line, [] => some []
  | _, [] => none
  | .code, c :: r =>
    if mwhite c then mskipM .code r
    else if c = '#' then mskipM .line r
    else if c = '-' ∧ r.head? = some '-' ∧ dashEnd r.tail = true then mskipM .line r
    else if c = '/' ∧ r.head? = some '*' ∧ r.tail.head? ≠ some '!' then mskipM .opening r
    else some (c :: r)
  | .line, c :: r => if c = '\n' then mskipM .code r else mskipM .line r
  | .opening, _ :: r => mskipM .block r
  | .block, c :: r => if c = '*' ∧ r.head? = some '/' then mskipM .closing r else mskipM .block r
  | .closing, _ :: r => mskipM .code r

def mskip (s : List Char) : Option (List Char) := mskipM .code s

/-! ### Where the two agree -/

/-- Walks over what the proxy skips and looks at every place where MySQL may see something else. -/
def agreedM : Mode → List Char → Bool
  | _, [] => true
  | .code, c :: r =>
    if white c then agreedM .code r
    else if c = '#' then agreedM .line r
    else if c = '-' ∧ r.head? = some '-' then dashEnd r.tail && agreedM .line r
    else if c = '/' ∧ r.head? = some '*' then
      if closed r.tail then r.tail.head? != some '!' && agreedM .opening r else r.tail.head? == some '!'
    else !(c == Char.ofNat 11 || c == Char.ofNat 12)
  | .line, c :: r => if c = '\n' then agreedM .code r else agreedM .line r
  | .opening, _ :: r => agreedM .block r
  | .block, c :: r => if c = '*' ∧ r.head? = some '/' then agreedM .closing r else agreedM .block r
  | .closing, _ :: r => agreedM .code r

def agreed (s : List Char) : Bool := agreedM .code s

theorem skipM_length : ∀ (s : List Char) (m : Mode), (skipM m s).length ≤ s.length
  | [], m => by cases m <;> simp [skipM]
  | c :: r, m => by
    have ih := fun m => skipM_length r m
    cases m <;> simp only [skipM, List.length_cons]
    · split
      · have := ih .code; omega
      · split
        · have := ih .line; omega
        · split
          · have := ih .line; omega
          · split
            · have := ih .opening; omega
            · simp
    · split
      · have := ih .code; omega
      · have := ih .line; omega
    · have := ih .block; omega
    · split
      · have := ih .closing; omega
      · have := ih .block; omega
    · have := ih .code; omega

theorem mskipM_length : ∀ (s : List Char) (m : Mode) (t : List Char), mskipM m s = some t → t.length ≤ s.length
  | [], m, t, h => by cases m <;> simp [mskipM] at h <;> simp [← h]
  | c :: r, m, t, h => by
    have ih := fun m h => mskipM_length r m t h
    cases m <;> simp only [mskipM] at h <;> simp only [List.length_cons]
    · split at h
      · have := ih _ h; omega
      · split at h
        · have := ih _ h; omega
        · split at h
          · have := ih _ h; omega
          · split at h
            · have := ih _ h; omega
            · injection h with h; simp [← h]
    · split at h
      · have := ih _ h; omega
      · have := ih _ h; omega
    · have := ih _ h; omega
    · split at h
      · have := ih _ h; omega
      · have := ih _ h; omega
    · have := ih _ h; omega

/-- The modes that need no `*/`, or have one. -/
def safe : Mode → List Char → Prop
  | .code, _ => True
  | .line, _ => True
  | .opening, s => closed s.tail = true
  | .block, s => closed s = true
  | .closing, s => s.head? = some '/'

theorem white_mwhite {c : Char} (h : white c = true) : mwhite c = true := by simp [mwhite, h]

theorem mwhite_of {c : Char} (h : white c = false) (h1 : (c == Char.ofNat 11 || c == Char.ofNat 12) = b) : mwhite c = b := by
  simp only [mwhite, h, Bool.false_or]; exact h1

/-- A comment that is not closed makes MySQL reject the text. -/
theorem mskip_unclosed : ∀ s, closed s = false → mskipM .block s = none
  | [], _ => rfl
  | c :: r, h => by
    simp only [closed, Bool.or_eq_false_iff] at h
    have hne : ¬ (c = '*' ∧ r.head? = some '/') := by
      rintro ⟨rfl, h2⟩
      simp [h2] at h
    rw [mskipM, if_neg hne]
    exact mskip_unclosed r h.2

theorem agree_iff : ∀ (s : List Char) (m : Mode), safe m s → (mskipM m s = some (skipM m s) ↔ agreedM m s = true)
  | [], m, h => by
    cases m
    · simp [mskipM, skipM, agreedM]
    · simp [mskipM, skipM, agreedM]
    · simp [safe, closed] at h
    · simp [safe, closed] at h
    · simp [safe] at h
  | c :: r, m, hs => by
    have ih := fun m => agree_iff r m
    have hlen := fun m => skipM_length r m
    cases m
    · by_cases hw : white c = true
      · have e1 : skipM .code (c :: r) = skipM .code r := by rw [skipM, if_pos hw]
        have e2 : mskipM .code (c :: r) = mskipM .code r := by rw [mskipM, if_pos (white_mwhite hw)]
        have e3 : agreedM .code (c :: r) = agreedM .code r := by rw [agreedM, if_pos hw]
        rw [e1, e2, e3]
        exact ih _ trivial
      · have hw' : white c = false := by simpa using hw
        by_cases hh : c = '#'
        · subst hh
          have e1 : skipM .code ('#' :: r) = skipM .line r := by rw [skipM, if_neg hw, if_pos rfl]
          have e2 : mskipM .code ('#' :: r) = mskipM .line r := by rw [mskipM, if_neg (by decide), if_pos rfl]
          have e3 : agreedM .code ('#' :: r) = agreedM .line r := by rw [agreedM, if_neg hw, if_pos rfl]
          rw [e1, e2, e3]
          exact ih _ trivial
        · by_cases hd : c = '-' ∧ r.head? = some '-'
          · obtain ⟨rfl, hd2⟩ := hd
            have e1 : skipM .code ('-' :: r) = skipM .line r := by rw [skipM, if_neg hw, if_neg hh, if_pos ⟨rfl, hd2⟩]
            have e3 : agreedM .code ('-' :: r) = (dashEnd r.tail && agreedM .line r) := by rw [agreedM, if_neg hw, if_neg hh, if_pos ⟨rfl, hd2⟩]
            by_cases he : dashEnd r.tail = true
            · have e2 : mskipM .code ('-' :: r) = mskipM .line r := by rw [mskipM, if_neg (by decide), if_neg hh, if_pos ⟨rfl, hd2, he⟩]
              rw [e1, e2, e3, he, Bool.true_and]
              exact ih _ trivial
            · have e2 : mskipM .code ('-' :: r) = some ('-' :: r) := by
                rw [mskipM, if_neg (by decide), if_neg hh, if_neg (fun x => he x.2.2), if_neg (by simp)]
              simp only [Bool.not_eq_true] at he
              rw [e1, e2, e3]
              simp only [he, Bool.false_and, Bool.false_eq_true, iff_false, Option.some.injEq]
              intro h
              have h1 := congrArg List.length h
              have h2 := hlen .line
              simp only [List.length_cons] at h1
              omega
          · by_cases hb : c = '/' ∧ r.head? = some '*'
            · obtain ⟨rfl, hb2⟩ := hb
              obtain ⟨r', rfl⟩ : ∃ r', r = '*' :: r' := by
                cases r with
                | nil => simp at hb2
                | cons a r' => exact ⟨r', by simp at hb2; rw [hb2]⟩
              have e3 : agreedM .code ('/' :: '*' :: r') =
                  if closed r' then r'.head? != some '!' && agreedM .opening ('*' :: r') else r'.head? == some '!' := by
                rw [agreedM, if_neg hw, if_neg hh, if_neg (by simp), if_pos ⟨rfl, rfl⟩]; rfl
              have e2 : mskipM .code ('/' :: '*' :: r') = if r'.head? ≠ some '!' then mskipM .opening ('*' :: r') else some ('/' :: '*' :: r') := by
                rw [mskipM, if_neg (by decide), if_neg hh, if_neg (by simp)]; simp
              have e1 : skipM .code ('/' :: '*' :: r') = if closed r' = true then skipM .opening ('*' :: r') else '/' :: '*' :: r' := by
                rw [skipM, if_neg hw, if_neg hh, if_neg (by simp)]; simp
              rw [e1, e2, e3]
              by_cases hc : closed r' = true
              · rw [if_pos hc, if_pos hc]
                by_cases hx : r'.head? = some '!'
                · rw [if_neg (fun x => x hx)]
                  simp only [hx, bne_self_eq_false, Bool.false_and, Bool.false_eq_true, iff_false, Option.some.injEq]
                  intro h
                  have h1 := congrArg List.length h
                  have h2 := hlen .opening
                  simp only [List.length_cons] at h1 h2
                  omega
                · rw [if_pos hx]
                  have : (r'.head? != some '!') = true := by simpa using hx
                  rw [this, Bool.true_and]
                  exact ih .opening (by simpa [safe] using hc)
              · rw [if_neg hc, if_neg hc]
                by_cases hx : r'.head? = some '!'
                · rw [if_neg (fun x => x hx)]
                  simp [hx]
                · rw [if_pos hx]
                  have h1 : mskipM .opening ('*' :: r') = none := by
                    rw [mskipM]; exact mskip_unclosed r' (by simpa using hc)
                  rw [h1]
                  simp [hx]
            · have hb' : ¬ (c = '/' ∧ r.head? = some '*' ∧ closed r.tail = true) := fun x => hb ⟨x.1, x.2.1⟩
              have e1 : skipM .code (c :: r) = c :: r := by rw [skipM, if_neg hw, if_neg hh, if_neg hd, if_neg hb']
              have e3 : agreedM .code (c :: r) = !(c == Char.ofNat 11 || c == Char.ofNat 12) := by
                rw [agreedM, if_neg hw, if_neg hh, if_neg hd, if_neg hb]
              rw [e1, e3]
              by_cases hv : (c == Char.ofNat 11 || c == Char.ofNat 12) = true
              · have e2 : mskipM .code (c :: r) = mskipM .code r := by rw [mskipM, if_pos (mwhite_of hw' hv)]
                rw [e2, hv]
                simp only [Bool.not_true, Bool.false_eq_true, iff_false]
                intro h
                have := mskipM_length r .code _ h
                simp only [List.length_cons] at this
                omega
              · have hv' : (c == Char.ofNat 11 || c == Char.ofNat 12) = false := by simpa using hv
                have e2 : mskipM .code (c :: r) = some (c :: r) := by
                  rw [mskipM, if_neg (by rw [mwhite_of hw' hv']; simp), if_neg hh, if_neg (fun x => hd ⟨x.1, x.2.1⟩), if_neg (fun x => hb ⟨x.1, x.2.1⟩)]
                rw [e2, hv']
                simp
    · simp only [skipM, mskipM, agreedM]
      split
      · exact ih _ trivial
      · exact ih _ trivial
    · simp only [skipM, mskipM, agreedM]
      exact ih .block hs
    · simp only [skipM, mskipM, agreedM]
      split
      · rename_i h
        exact ih .closing h.2
      · rename_i h
        refine ih .block ?_
        simp only [safe, closed, Bool.or_eq_true, Bool.and_eq_true, beq_iff_eq] at hs ⊢
        exact hs.resolve_left h
    · simp only [skipM, mskipM, agreedM]
      exact ih _ trivial

/-- The proxy and MySQL skip the same text exactly when `agreed` says so: dashes are followed by whitespace, a control
character or the end of the text, no comment begins with `/*!`, none is left open, and there is no vertical tab or form
feed. -/
theorem C68_exact_partial (s : List Char) : mskip s = some (skip s) ↔ agreed s = true := agree_iff s .code trivial

/-! ### Texts without traps -/

/-- No suffix of the text begins with dashes that are no comment, with `/*!`, with an open comment, or with a vertical tab or form feed. -/
def NoTrap : List Char → Prop
  | [] => True
  | c :: r => ¬ (c = '-' ∧ r.head? = some '-' ∧ dashEnd r.tail = false) ∧ ¬ (c = '/' ∧ r.head? = some '*' ∧ r.tail.head? = some '!') ∧
      ¬ (c = '/' ∧ r.head? = some '*' ∧ closed r.tail = false) ∧ c ≠ Char.ofNat 11 ∧ c ≠ Char.ofNat 12 ∧ NoTrap r

instance NoTrap.dec : ∀ s, Decidable (NoTrap s)
  | [] => isTrue trivial
  | c :: r => by
    have := NoTrap.dec r
    unfold NoTrap
    infer_instance

theorem agreedM_of_noTrap : ∀ (s : List Char) (m : Mode), NoTrap s → agreedM m s = true
  | [], m, _ => by cases m <;> rfl
  | c :: r, m, h => by
    obtain ⟨h1, h2, h3, h4, h5, h6⟩ := h
    have ih := fun m => agreedM_of_noTrap r m h6
    cases m <;> simp only [agreedM, ih]
    · split
      · rfl
      · split
        · rfl
        · split
          · rename_i _ _ hd
            have : dashEnd r.tail = true := by
              cases hx : dashEnd r.tail with
              | true => rfl
              | false => exact absurd ⟨hd.1, hd.2, hx⟩ h1
            simp [this]
          · split
            · rename_i _ _ _ hb
              have hx : r.tail.head? ≠ some '!' := fun x => h2 ⟨hb.1, hb.2, x⟩
              have hc : closed r.tail = true := by
                cases hx : closed r.tail with
                | true => rfl
                | false => exact absurd ⟨hb.1, hb.2, hx⟩ h3
              rw [if_pos hc]; simpa using hx
            · simp [h4, h5]
    · split <;> rfl
    · split <;> rfl

/-- In a text without traps the two agree wherever a token ends: at every suffix. -/
theorem C68_everywhere_partial (p s : List Char) (h : NoTrap (p ++ s)) : mskip s = some (skip s) := by
  rw [C68_exact_partial]
  apply agreedM_of_noTrap
  induction p with
  | nil => exact h
  | cons c p ih => exact ih h.2.2.2.2.2

/-- A text without dashes, slashes, vertical tabs and form feeds has no traps. -/
theorem noTrap_plain : ∀ s : List Char, (∀ c ∈ s, c ≠ '-' ∧ c ≠ '/' ∧ c ≠ Char.ofNat 11 ∧ c ≠ Char.ofNat 12) → NoTrap s
  | [], _ => trivial
  | c :: r, h => by
    obtain ⟨a, b, d, e⟩ := h c (by simp)
    exact ⟨fun x => a x.1, fun x => b x.1, fun x => b x.1, d, e, noTrap_plain r fun c hc => h c (by simp [hc])⟩

example : NoTrap "SELECT a -- all of it\n FROM t /* the table */ WHERE a - 1 > 2".toList := by
  decide +kernel

/-! ### Where they differ -/

theorem skip_line : ∀ r : List Char, '\n' ∉ r → skipM .line r = []
  | [], _ => rfl
  | c :: r, h => by
    simp only [List.mem_cons, not_or] at h
    rw [skipM, if_neg (fun x => h.1 x.symm)]
    exact skip_line r h.2

/-- To the proxy everything after two dashes is a comment; to MySQL `--1` is twice a minus sign and a number. -/
theorem C68_fails_dashes (c : Char) (r : List Char) (hr : '\n' ∉ c :: r) (hc : dashEnd (c :: r) = false) :
    skip ('-' :: '-' :: c :: r) = [] ∧ mskip ('-' :: '-' :: c :: r) = some ('-' :: '-' :: c :: r) := by
  constructor
  · rw [skip, skipM, if_neg (by decide), if_neg (by decide), if_pos (by simp)]
    exact skip_line _ (by simpa using hr)
  · rw [mskip, mskipM, if_neg (by decide), if_neg (by decide), if_neg (by simp [hc]), if_neg (by simp)]

theorem closed_append (b r : List Char) : closed (b ++ '*' :: '/' :: r) = true := by
  induction b with
  | nil => simp [closed]
  | cons c b ih => simp [closed, ih]

theorem skip_block : ∀ (b r : List Char), closed (b ++ ['*']) = false → skipM .block (b ++ '*' :: '/' :: r) = skip r
  | [], r, _ => by simp [skipM, skip]
  | c :: b, r, h => by
    simp only [List.cons_append, closed, Bool.or_eq_false_iff] at h
    have hne : ¬ (c = '*' ∧ (b ++ '*' :: '/' :: r).head? = some '/') := by
      rintro ⟨rfl, h2⟩
      cases b with
      | nil => simp at h2
      | cons d b =>
        simp only [List.cons_append, List.head?_cons, Option.some.injEq] at h2
        simp [h2] at h
    rw [List.cons_append, skipM, if_neg hne]
    exact skip_block b r h.2

/-- The statement text in `/*! .. */`, which MySQL executes, is skipped by the proxy. -/
theorem C68_fails_executed (b r : List Char) (h : closed (b ++ ['*']) = false) :
    skip ('/' :: '*' :: '!' :: (b ++ '*' :: '/' :: r)) = skip r ∧
      mskip ('/' :: '*' :: '!' :: (b ++ '*' :: '/' :: r)) = some ('/' :: '*' :: '!' :: (b ++ '*' :: '/' :: r)) := by
  have hc : closed ('!' :: (b ++ '*' :: '/' :: r)) = true := by simp [closed, closed_append]
  constructor
  · rw [skip, skipM, if_neg (by decide), if_neg (by decide), if_neg (by simp), if_pos ⟨rfl, rfl, hc⟩, skipM]
    have := skip_block ('!' :: b) r (by simpa [closed] using h)
    simpa using this
  · rw [mskip, mskipM, if_neg (by decide), if_neg (by decide), if_neg (by simp), if_neg (by simp)]

/-- A form feed or vertical tab, which MySQL skips, is a syntax error to the proxy. -/
theorem C68_fails_form_feed (c : Char) (r : List Char) (hc : c = Char.ofNat 11 ∨ c = Char.ofNat 12) :
    skip (c :: r) = c :: r ∧ mskip (c :: r) = mskip r := by
  rcases hc with rfl | rfl
  · exact ⟨by rw [skip, skipM, if_neg (by decide), if_neg (by decide), if_neg (by simp), if_neg (by simp)],
      by rw [mskip, mskipM, if_pos (by decide)]; rfl⟩
  · exact ⟨by rw [skip, skipM, if_neg (by decide), if_neg (by decide), if_neg (by simp), if_neg (by simp)],
      by rw [mskip, mskipM, if_pos (by decide)]; rfl⟩

end EulerDB.Sql
