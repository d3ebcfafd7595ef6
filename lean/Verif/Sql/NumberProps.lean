/-
C69: a number in a statement is read as the number it spells.  The notation is MySQL's ("Numeric Literals"):
digits, digits with a point, and either of them with an exponent; without an exponent the value is exact.
-/
import Verif.Sql.ReadRun
import Mathlib.Tactic.Ring
import Mathlib.Tactic.FieldSimp
import Mathlib.Tactic.NormNum.Prime
import Mathlib.RingTheory.Int.Basic
import Mathlib.Tactic.Positivity

namespace EulerDB.Sql

open EulerDB EulerDB.Parse

/-! ### The number that digits spell -/

theorem natOf_ofDigitChars (l : List Char) (a : Nat) : natOf a l = Nat.ofDigitChars 10 l a := by
  rw [Nat.ofDigitChars_eq_foldl]; rfl

/-- The digits of a number spell it. -/
theorem natOf_natStr (n : Nat) : natOf 0 (Text.natStr n) = n := by
  rw [natOf_ofDigitChars]; exact Nat.ofDigitChars_ten_toDigits

/-- What a decimal number without an exponent is worth in MySQL. -/
def decimal (w f : List Char) : ℚ := natQ w + natQ f / 10 ^ f.length

def Digits (l : List Char) : Prop := ∀ c ∈ l, c.isDigit = true

/-- An operand that begins with a digit or a point is a number. -/
theorem atom_num (env : Env) (ex : List Char → R V) {g s : List Char} {c : Char} (hg : Gap g) (hc : c.isDigit = true ∨ c = '.') :
    atom env ex (g ++ c :: s) = numberAtom env (c :: s) := by
  have hB : Begins noCalls (g ++ c :: s) := by
    refine Begins.gap ?_ hg
    rcases hc with hc | rfl
    · exact begins_digit (by decide +kernel) hc s
    · exact begins_char (by decide) (by decide) (by decide) s
  refine atom_number hB ?_ hc
  rw [hg.skip]
  rcases hc with hc | rfl
  · exact skip_solid (solidChar_of_key (keyChar_digit hc)) s
  · exact skip_solid (by decide) s

theorem atom_digits (env : Env) (ex : List Char → R V) {g ds s : List Char} (hg : Gap g) (hne : ds ≠ []) (hd : Digits ds) :
    atom env ex (g ++ (ds ++ s)) = numberAtom env (ds ++ s) := by
  obtain ⟨c, ds, rfl⟩ := List.exists_cons_of_ne_nil hne
  exact atom_num env ex hg (.inl (hd c (by simp)))

theorem atom_point (env : Env) (ex : List Char → R V) {g w s : List Char} (hg : Gap g) (hw : Digits w) :
    atom env ex (g ++ (w ++ '.' :: s)) = numberAtom env (w ++ '.' :: s) := by
  cases w with
  | nil => exact atom_num env ex hg (.inr rfl)
  | cons c w => exact atom_num env ex hg (.inl (hw c (by simp)))

theorem no_hex {ds r : List Char} (hd : Digits ds) {c : Char} (hr : r.head? = some c) (hc : c ≠ 'x' ∧ c ≠ '0') (u : List Char) :
    ds ++ r ≠ '0' :: 'x' :: u := by
  intro h
  cases ds with
  | nil => simp at h; rw [h] at hr; simp at hr; exact hc.2 hr.symm
  | cons a ds =>
    cases ds with
    | nil => simp at h; rw [h.2] at hr; simp at hr; exact hc.1 hr.symm
    | cons b ds =>
      simp at h
      have := hd b (by simp)
      rw [h.2.1] at this
      exact absurd this (by decide)

theorem no_hex_sep {ds r : List Char} (hd : Digits ds) (hr : Sep .lit r) (u : List Char) : ds ++ r ≠ '0' :: 'x' :: u := by
  cases hrc : r with
  | nil =>
    intro h
    rw [List.append_nil] at h
    have := hd 'x' (by rw [h]; simp)
    exact absurd this (by decide)
  | cons c r' =>
    refine no_hex hd (c := c) rfl ⟨?_, ?_⟩ u
    · rintro rfl; exact absurd (hr.end (by decide) (c := 'x') (by rw [hrc]; rfl)) (by decide)
    · rintro rfl; exact absurd (hr.end (by decide) (c := '0') (by rw [hrc]; rfl)) (by decide)

/-! ### What is read exactly -/

section
variable (env : Env) (ex : List Char → R V) {g r : List Char}

/-- Digits are read as the number they spell, whatever their length (Python 3.11 and later raise beyond 4300 digits, unless configured otherwise). -/
theorem C69_digits_partial {ds : List Char} (hg : Gap g) (hne : ds ≠ []) (hd : Digits ds) (hr : Sep .lit r) :
    atom env ex (g ++ (ds ++ r)) = .ok (.int (natOf 0 ds)) r := by
  rw [atom_digits env ex hg hne hd]
  exact numberAtom_read env (number_int env hne hd hr) (no_hex_sep hd hr) hr

/-- Every natural number is read as itself. -/
theorem C69_whole_partial (n : Nat) (hg : Gap g) (hr : Sep .lit r) : atom env ex (g ++ (Text.natStr n ++ r)) = .ok (.int n) r := by
  have h := C69_digits_partial env ex hg (Text.natStr_ne_nil n) (fun c hc => Text.natStr_digit hc) hr
  rw [natOf_natStr] at h
  exact h

/-- A decimal number is read as the float nearest to it. -/
theorem C69_decimal_partial {w f : List Char} {q : ℚ} (hg : Gap g) (hne : w ++ f ≠ []) (hw : Digits w) (hf : Digits f)
    (hq : env.fl (decimal w f) = some q) (hr : Sep .lit r) : atom env ex (g ++ (w ++ '.' :: (f ++ r))) = .ok (.float q) r := by
  rw [atom_point env ex hg hw]
  refine numberAtom_read env ?_ (no_hex hw (c := '.') rfl ⟨by decide, by decide⟩) hr
  have h := number_real env hne (fun c hc => by rcases List.mem_append.mp hc with h | h; exact hw c h; exact hf c h) hq hr
  simpa using h

/-- The signs of an exponent. -/
def expSigns : List (List Char × Bool) := [([], false), (['+'], false), (['-'], true)]

theorem sign_read {sg : List Char} {neg : Bool} (h : (sg, neg) ∈ expSigns) {ks : List Char} (hk : ks ≠ []) (hd : Digits ks) (r : List Char) :
    signOf (sg ++ (ks ++ r)) = (neg, ks ++ r) := by
  simp only [expSigns, List.mem_cons, Prod.mk.injEq, List.not_mem_nil, or_false] at h
  rcases h with ⟨rfl, rfl⟩ | ⟨rfl, rfl⟩ | ⟨rfl, rfl⟩
  · exact signOf_ne (digits_head hk hd (by decide)) (digits_head hk hd (by decide))
  · rfl
  · rfl

/-- A decimal number with an exponent is read as the float nearest to it. -/
theorem C69_exponent_partial {w f ks sg : List Char} {neg : Bool} {x : Char} {q : ℚ} (hg : Gap g) (hne : w ++ f ≠ []) (hw : Digits w) (hf : Digits f)
    (hx : x = 'e' ∨ x = 'E') (hs : (sg, neg) ∈ expSigns) (hkn : ks ≠ []) (hk : Digits ks)
    (hq : env.fl (decimal w f * (10 : ℚ) ^ (if neg then -(natOf 0 ks : Int) else natOf 0 ks)) = some q) (hr : Sep .lit r) :
    atom env ex (g ++ (w ++ '.' :: (f ++ x :: (sg ++ (ks ++ r))))) = .ok (.float q) r := by
  rw [atom_point env ex hg hw]
  refine numberAtom_read env ?_ (no_hex hw (c := '.') rfl ⟨by decide, by decide⟩) hr
  have hxd : x.isDigit = false := by rcases hx with rfl | rfl <;> decide
  have hh : ∀ y : Char, y.isDigit = false → y ≠ '.' → (w ++ '.' :: (f ++ x :: (sg ++ (ks ++ r)))).head? ≠ some y := by
    intro y hy hy2
    cases w with
    | nil => simpa using hy2.symm
    | cons c w => simpa using digit_ne (hw c (by simp)) hy
  have h1 := signOf_ne (hh '-' (by decide) (by decide)) (hh '+' (by decide) (by decide))
  have h2 := digits_read w ('.' :: (f ++ x :: (sg ++ (ks ++ r)))) hw (by intro c hc; simp at hc; subst hc; decide)
  have h3 := digits_read f (x :: (sg ++ (ks ++ r))) hf (by intro c hc; simp at hc; subst hc; exact hxd)
  have h4 := digits_read ks r hk hr.digit
  have h5 : realExp (x :: (sg ++ (ks ++ r))) = (if neg then -(natOf 0 ks : Int) else natOf 0 ks, r) := by
    rw [realExp, if_pos hx, sign_read hs hkn hk r]
    simp only [h4]
    rw [if_neg hkn]
  have h6 : w ≠ [] ∨ f ≠ [] := by
    cases w with
    | nil => exact .inr (by simpa using hne)
    | cons => exact .inl (by simp)
  have h7 : realNum (w ++ '.' :: (f ++ x :: (sg ++ (ks ++ r)))) = some (⟨false, w, f, if neg then -(natOf 0 ks : Int) else natOf 0 ks⟩, r) := by
    simp only [realNum, h1, h2, h3, h5, true_and]
    rw [if_pos h6]
  have h8 : (Num.mk false w f (if neg then -(natOf 0 ks : Int) else natOf 0 ks)).value =
      decimal w f * (10 : ℚ) ^ (if neg then -(natOf 0 ks : Int) else natOf 0 ks) := by simp [Num.value, decimal]
  rw [number, h7]
  simp only [h8, hq]

theorem intNum_exp {ds ks sg : List Char} {x : Char} (hne : ds ≠ []) (hd : Digits ds) (hx : x = 'e' ∨ x = 'E') (hs : sg = [] ∨ sg = ['+'])
    (hkn : ks ≠ []) (hk : Digits ks) (hr : Sep .lit r) :
    realNum (ds ++ x :: (sg ++ (ks ++ r))) = none ∧ intNum (ds ++ x :: (sg ++ (ks ++ r))) = some ((false, ds, some (natOf 0 ks)), r) := by
  have hxd : x.isDigit = false := by rcases hx with rfl | rfl <;> decide
  have hsm : (sg, false) ∈ expSigns := by rcases hs with rfl | rfl <;> decide
  have h1 := signOf_ne (digits_head (r := x :: (sg ++ (ks ++ r))) hne hd (x := '-') (by decide)) (digits_head hne hd (x := '+') (by decide))
  have h2 := digits_read ds (x :: (sg ++ (ks ++ r))) hd (by intro c hc; simp at hc; subst hc; exact hxd)
  have h4 := digits_read ks r hk hr.digit
  have hm : (sg ++ (ks ++ r)).head? ≠ some '-' := by
    rcases hs with rfl | rfl
    · exact digits_head hkn hk (by decide)
    · simp
  have h5 : intExp (x :: (sg ++ (ks ++ r))) = (some (natOf 0 ks), r) := by
    rw [intExp, if_pos hx, sign_read hsm hkn hk r]
    simp only [h4]
    rw [if_neg (by rintro (h | h); exact hm h; exact hkn h)]
  have hdot : x ≠ '.' := by rcases hx with rfl | rfl <;> decide
  constructor
  · simp only [realNum, h1, h2]
    rw [if_neg (by rintro ⟨h, _⟩; exact hdot h)]
  · simp only [intNum, h1, h2, h5]
    rw [if_neg hne]

/-- Digits with an exponent are read as the integer part of the float nearest to the number. -/
theorem C69_exponent_whole_partial {ds ks sg : List Char} {x : Char} {q : ℚ} (hg : Gap g) (hne : ds ≠ []) (hd : Digits ds)
    (hx : x = 'e' ∨ x = 'E') (hs : sg = [] ∨ sg = ['+']) (hkn : ks ≠ []) (hk : Digits ks)
    (hq : env.fl (natQ ds * (10 : ℚ) ^ natOf 0 ks) = some q) (hr : Sep .lit r) :
    atom env ex (g ++ (ds ++ x :: (sg ++ (ks ++ r)))) = .ok (.int (if 0 ≤ q then ⌊q⌋ else ⌈q⌉)) r := by
  obtain ⟨h1, h2⟩ := intNum_exp (r := r) hne hd hx hs hkn hk hr
  rw [atom_digits env ex hg hne hd]
  refine numberAtom_read env ?_ (no_hex hd (c := x) rfl (by rcases hx with rfl | rfl <;> decide)) hr
  rw [number, h1, h2]
  simp only [Bool.false_eq_true, if_false, one_mul, hq]

/-- With an exponent too large for a float the parser raises. -/
theorem C69_fails_overflow {ds ks sg : List Char} {x : Char} (hg : Gap g) (hne : ds ≠ []) (hd : Digits ds)
    (hx : x = 'e' ∨ x = 'E') (hs : sg = [] ∨ sg = ['+']) (hkn : ks ≠ []) (hk : Digits ks)
    (hq : env.fl (natQ ds * (10 : ℚ) ^ natOf 0 ks) = none) (hr : Sep .lit r) :
    atom env ex (g ++ (ds ++ x :: (sg ++ (ks ++ r)))) = .crash := by
  obtain ⟨h1, h2⟩ := intNum_exp (r := r) hne hd hx hs hkn hk hr
  have hn : number env (ds ++ x :: (sg ++ (ks ++ r))) = .crash := by
    rw [number, h1, h2]
    simp only [Bool.false_eq_true, if_false, one_mul, hq]
  rw [atom_digits env ex hg hne hd, numberAtom, hexNum_none (no_hex hd (c := x) rfl (by rcases hx with rfl | rfl <;> decide)), hn]

/-- `0x1F` and `HEX(1F)` are the same to all that follows. -/
theorem C69_fails_hex (s : String) : scrub (.hex s) = scrub (.call "hex" [.name s]) := rfl

/-! ### What is not -/

/-- The numbers that a binary float can be. -/
def Dyadic (q : ℚ) : Prop := ∃ (z : Int) (k : Nat), q = z / 2 ^ k

theorem decimal_eq (w f : List Char) : decimal w f = (natOf 0 (w ++ f) : ℚ) / 10 ^ f.length := by
  have h : natOf 0 (w ++ f) = natOf 0 w * 10 ^ f.length + natOf 0 f := by
    simp only [natOf_ofDigitChars, Nat.ofDigitChars_append]
    rw [Nat.ofDigitChars_eq_ofDigitChars_zero]
    ring
  rw [decimal, natQ, natQ, h]
  push_cast
  field_simp

/-- A decimal number whose last digit is neither 0 nor 5 is no binary float: MySQL takes it exactly, the proxy
does not. -/
theorem C69_fails_inexact {w f : List Char} {c : Char} (hfl : ∀ x q, env.fl x = some q → Dyadic q) (hc : digitVal c % 5 ≠ 0) :
    env.fl (decimal w (f ++ [c])) ≠ some (decimal w (f ++ [c])) := by
  intro h
  obtain ⟨z, k, hz⟩ := hfl _ _ h
  have hN : natOf 0 (w ++ (f ++ [c])) = 10 * natOf 0 (w ++ f) + digitVal c := by
    rw [← List.append_assoc, natOf, List.foldl_append]; rfl
  have hlen : (f ++ [c]).length = f.length + 1 := by simp
  rw [decimal_eq, hlen] at hz
  have h1 : ((natOf 0 (w ++ (f ++ [c])) : Int) : ℚ) * 2 ^ k = z * 10 ^ (f.length + 1) := by
    have h2 : (2 : ℚ) ^ k ≠ 0 := by positivity
    have h3 : (10 : ℚ) ^ (f.length + 1) ≠ 0 := by positivity
    rw [div_eq_div_iff h3 h2] at hz
    exact_mod_cast hz
  have h2 : (natOf 0 (w ++ (f ++ [c])) : Int) * 2 ^ k = z * 10 ^ (f.length + 1) := by exact_mod_cast h1
  have h5 : (5 : Int) ∣ (natOf 0 (w ++ (f ++ [c])) : Int) * 2 ^ k := by
    rw [h2, pow_succ]
    exact ⟨z * 10 ^ f.length * 2, by ring⟩
  have hp : Prime (5 : Int) := by norm_num
  rcases hp.dvd_or_dvd h5 with h | h
  · rw [hN] at h
    omega
  · have := hp.dvd_of_dvd_pow h
    omega

example : digitVal '1' % 5 ≠ 0 := by decide

/-- `0.1` as it is in binary64. -/
example : ((3602879701896397 : ℚ) / 2 ^ 55) ≠ decimal ['0'] ['1'] ∧ Dyadic ((3602879701896397 : ℚ) / 2 ^ 55) :=
  ⟨by norm_num [decimal, natQ, show natOf 0 ['0'] = 0 from rfl, show natOf 0 ['1'] = 1 from rfl], 3602879701896397, 55, by norm_num⟩

example : Digits "2025".toList ∧ Sep .lit " AND".toList ∧ Sep .name ([] : List Char) :=
  ⟨fun c hc => by revert hc; revert c; decide, fun c hc => by simp at hc; subst hc; exact ⟨by decide, fun _ => by decide, by simp⟩, fun c hc => by simp at hc⟩

/-- `2e-3` is read as twice the column `e`, and the 3 is left over .. -/
theorem exponent_atom {ds : List Char} {x y : Char} (u : List Char) (hg : Gap g) (hne : ds ≠ []) (hd : Digits ds) (hx : x = 'e' ∨ x = 'E')
    (hy : y.isDigit = true) (hp : lit "(" ('-' :: y :: u) = none) :
    atom env ex (g ++ (ds ++ x :: '-' :: y :: u)) = .ok (.call "mul" [.int (natOf 0 ds), .name (strOf [x])]) ('-' :: y :: u) := by
  have hxd : x.isDigit = false := by rcases hx with rfl | rfl <;> decide
  have h1 := signOf_ne (digits_head (r := x :: '-' :: y :: u) hne hd (x := '-') (by decide)) (digits_head hne hd (x := '+') (by decide))
  have h2 := digits_read ds (x :: '-' :: y :: u) hd (by intro c hc; simp at hc; subst hc; exact hxd)
  have hdot : x ≠ '.' := by rcases hx with rfl | rfl <;> decide
  have h3 : realNum (ds ++ x :: '-' :: y :: u) = none := by
    simp only [realNum, h1, h2]
    rw [if_neg (by rintro ⟨h, _⟩; exact hdot h)]
  have h4 : intExp (x :: '-' :: y :: u) = (none, x :: '-' :: y :: u) := by
    rw [intExp, if_pos hx, if_pos (by simp)]
  have h5 : intNum (ds ++ x :: '-' :: y :: u) = some ((false, ds, none), x :: '-' :: y :: u) := by
    simp only [intNum, h1, h2, h4]
    rw [if_neg hne]
  have h6 : number env (ds ++ x :: '-' :: y :: u) = .ok (.int (natOf 0 ds)) (x :: '-' :: y :: u) := by
    rw [number, h3, h5]; simp
  have hs : simple (x :: '-' :: y :: u) = .ok [x] ('-' :: y :: u) := by
    have : simpleTail x ('-' :: y :: u) = ([], '-' :: y :: u) := by
      rw [simpleTail, if_neg (by decide), if_neg (by simp [dashSide, hy])]
    rw [simple, if_pos (by rcases hx with rfl | rfl <;> decide), this]
    simp
  have h7 : identAt (x :: '-' :: y :: u) = .ok [x] ('-' :: y :: u) := by
    rw [identAt, part, if_neg (by rcases hx with rfl | rfl <;> decide), if_neg (by rcases hx with rfl | rfl <;> decide), hs]
    simp only
    rw [show ('-' :: y :: u).length = (y :: u).length + 1 from rfl, moreParts]
    have : skipWhite ('-' :: y :: u) = '-' :: y :: u := by rw [skipWhite]; simp [Sql.white]
    rw [this]
    rfl
  rw [atom_digits env ex hg hne hd, numberAtom, hexNum_none (no_hex hd (c := x) rfl (by rcases hx with rfl | rfl <;> decide)), h6]
  simp only [h7, hp]
  rfl

end

/-- .. and subtracted: a number with a negative exponent is read as a product and a difference. -/
theorem C69_fails_exponent (env : Env) (n : Nat) {g ds ks r : List Char} {x : Char} (hg : Gap g) (hne : ds ≠ []) (hd : Digits ds)
    (hx : x = 'e' ∨ x = 'E') (hkn : ks ≠ []) (hk : Digits ks) (hr : Fin .lit r) :
    expr env (n + 1) (g ++ (ds ++ x :: '-' :: (ks ++ r))) =
      .ok (.call "sub" [.call "mul" [.int (natOf 0 ds), .name (strOf [x])], .int (natOf 0 ks)]) r := by
  obtain ⟨c, ds', rfl⟩ := List.exists_cons_of_ne_nil hne
  have hc := hd c (by simp)
  obtain ⟨y, ks', rfl⟩ := List.exists_cons_of_ne_nil hkn
  have hy := hk y (by simp)
  have hskip : skip (g ++ (c :: ds' ++ x :: '-' :: (y :: ks' ++ r))) = c :: (ds' ++ x :: '-' :: (y :: ks' ++ r)) := by
    rw [hg.skip]; exact skip_solid (solidChar_of_key (keyChar_digit hc)) _
  have hpre : ∀ n, prefixes n (g ++ (c :: ds' ++ x :: '-' :: (y :: ks' ++ r))) = ([], g ++ (c :: ds' ++ x :: '-' :: (y :: ks' ++ r)))
    | 0 => rfl
    | n + 1 => by
      have hB : Begins ["not"] (g ++ (c :: ds' ++ x :: '-' :: (y :: ks' ++ r))) := (begins_digit (by decide) hc _).gap hg
      rw [prefixes, lit_ne "-" (d := '-') (l := []) rfl hskip (digit_ne hc (by decide)),
        lit_ne "~" (d := '~') (l := []) rfl hskip (digit_ne hc (by decide)), hB.kw (by decide) (by decide)]
  have hyj : ∀ c, (y :: ks' ++ r).head? = some c → c ∉ joiners := by
    intro c hc hm
    simp at hc
    subst hc
    have : ∀ c ∈ joiners, c.isDigit = false := by decide
    rw [this _ hm] at hy
    cases hy
  have hyd : (y :: ks' ++ r).head? ≠ some '-' := by simpa using digit_ne hy (by decide)
  have hstop : Stop .lit ('-' :: (y :: ks' ++ r)) :=
    sym_stop (w := "-") (o := .bin .sub) (by decide) (g := []) .nil (by intro c hc; simp at hc; subst hc; exact ⟨by decide, fun _ => by decide, by simp⟩) hyj (fun _ => hyd)
  have hnext : opNext ('-' :: (y :: ks' ++ r)) = some (.bin .sub, y :: ks' ++ r) :=
    sym_next (w := "-") (o := .sub) (by decide) (g := []) .nil hyj (fun _ => hyd)
  have hm : modified env (expr env n) (y :: ks' ++ r) = .ok [.val (.int (natOf 0 (y :: ks')))] r :=
    modified_read (good env n) (SpOperand.atom (g := []) .nil (SpAtom.int hkn hk)) hr.toStop
  have ha := exponent_atom env (expr env n) (ks' ++ r) hg hne hd hx hy hstop.par
  rw [expr, lit_ne "*" (d := '*') (l := []) rfl hskip (digit_ne hc (by decide))]
  simp only
  rw [run, modified, hpre]
  simp only [List.cons_append] at ha ⊢
  rw [ha]
  simp only [List.cons_append] at hstop hnext hm
  simp only [hstop.suf, List.length_cons, Bool.false_eq_true, if_false, List.map_nil, List.nil_append]
  rw [runTail, hnext]
  simp only [hm]
  have htail : ∀ k, runTail env (expr env n) k r = .ok [] r := by
    intro k
    cases k with
    | zero => rfl
    | succ k => rw [runTail, hr.op]
  rw [htail]
  rfl

end EulerDB.Sql
