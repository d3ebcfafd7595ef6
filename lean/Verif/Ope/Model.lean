import Verif.Py
import Mathlib.Algebra.Order.Floor.Ring
import Mathlib.Data.Rat.Floor

/-!
# Order-preserving encryption (scheduler/crypto/ope/)

A branch-by-branch model of `OPE.encrypt`, `OPE.decrypt`, `sample_hgd`, `sample_uniform` and the
hypergeometric samplers.

The key enters the code only through `tape_gen`, which turns an integer label into an infinite bit string
(ope.py 164-186).  So a key is modelled as two functions of the label: `coin label i`, the `i`-th bit, used by
`sample_uniform`, and `rhyper label kk nn1 nn2`, the outcome of `HGD.rhyper` on that tape.  The
theorems quantify over all such functions, hence over all keys.
-/

namespace EulerDB.Ope

open EulerDB

/-- `ValueRange`, ope.py 23-79: consecutive integers, both bounds inclusive. -/
structure Range where
  start : Int
  end_ : Int
  deriving DecidableEq, Repr

/-- `ValueRange.__init__`, ope.py 26-37 (the two type checks cannot fail on `Int`). -/
def mkRange (start end_ : Int) : Except PyErr Range :=
  if start > end_ then .error .invalidRange else .ok ⟨start, end_⟩

/-- `ValueRange.size`, ope.py 65-67. -/
def Range.size (r : Range) : Int := r.end_ - r.start + 1

/-- `ValueRange.contains`, ope.py 73-75. -/
def Range.contains (r : Range) (n : Int) : Bool := decide (r.start ≤ n ∧ n ≤ r.end_)

/-- What the key determines: the bit tape and the sampler run on it (`tape_gen`, ope.py 164-186). -/
structure Key where
  /-- `coin label i`: bit `i` of `tape_gen(label)` (`true` is bit 1). -/
  coin : Int → Nat → Bool
  /-- `rhyper label kk nn1 nn2`: outcome of `HGD.rhyper(kk, nn1, nn2, tape_gen(label))`. -/
  rhyper : Int → Int → Int → Int → Except PyErr Int

/-- CPython's conversion of a non-negative integer to a float: round to 53 significant bits, ties to even.
The result of the conversion is again an integer, which is what is returned. -/
def toFloat (n : Nat) : Nat :=
  if n.log2 < 53 then n
  else
    let s := n.log2 - 52
    let q := n / 2 ^ s
    let r := n % 2 ^ s
    if r < 2 ^ (s - 1) ∨ (r = 2 ^ (s - 1) ∧ q % 2 = 0) then q * 2 ^ s else (q + 1) * 2 ^ s

/-- Floats end below `2^1024`. -/
@[irreducible] def floatLimit : Nat := 2 ^ 1024

/-- `int(math.ceil(out_size / 2.0))`, ope.py 113 and 143.  `out_size` is converted to a float (OverflowError
from 2^1024 on), halved exactly, and rounded up. -/
def halfCeil (n : Int) : Except PyErr Int :=
  if floatLimit ≤ toFloat n.toNat then .error .overflow
  else .ok (((toFloat n.toNat + 1) / 2 : Nat) : Int)

/-- The loop of `sample_uniform`, stat.py 33-47, on the bit tape `coin` from position `i`.
`fuel` bounds the number of iterations (`nonterm` when exhausted); the branches "`bit is None`" and "other
coin" of the code are unreachable because `tape_gen` yields only 0 and 1. -/
def uniformLoop (coin : Nat → Bool) : Nat → Nat → Int → Int → Except PyErr Int
  | 0, _, s, e => if e - s + 1 > 1 then .error .nonterm else
      if e - s + 1 = 1 then .ok s else .error .assertion
  | fuel + 1, i, s, e =>
      if e - s + 1 > 1 then
        let mid := (s + e) / 2
        if coin i then uniformLoop coin fuel (i + 1) (mid + 1) e
        else uniformLoop coin fuel (i + 1) s mid
      else if e - s + 1 = 1 then .ok s else .error .assertion

/-- `sample_uniform`, stat.py 28-47. -/
def sampleUniform (r : Range) (coin : Nat → Bool) : Except PyErr Int :=
  if r.size = 0 then .error .assertion
  else uniformLoop coin r.size.toNat 0 r.start r.end_

/-- `sample_hgd`, stat.py 5-25.  `nsample` is also the label of the coin tape (ope.py 119-120, 153-154). -/
def sampleHgd (k : Key) (inR outR : Range) (nsample : Int) : Except PyErr Int :=
  let inSize := inR.size
  let outSize := outR.size
  if ¬ (inSize > 0 ∧ outSize > 0) then .error .assertion
  else if ¬ (inSize ≤ outSize) then .error .assertion
  else if ¬ (outR.contains nsample) then .error .assertion
  else
    let idx := nsample - outR.start + 1
    if inSize = outSize then .ok (inR.start + idx - 1)
    else
      match k.rhyper nsample idx inSize (outSize - inSize) with
      | .error e => .error e
      | .ok n =>
        if n = 0 then .ok inR.start
        else
          let s := inR.start + n - 1
          if inR.contains s then .ok s else .error .assertion

/-- `OPE.encrypt_recursive`, ope.py 108-128.  `fuel` bounds the recursion depth. -/
def encRec (k : Key) (plaintext : Int) : Nat → Range → Range → Except PyErr Int
  | 0, _, _ => .error .nonterm
  | fuel + 1, inR, outR =>
    let inSize := inR.size
    let outSize := outR.size
    let inEdge := inR.start - 1
    let outEdge := outR.start - 1
    match halfCeil outSize with
    | .error e => .error e
    | .ok h =>
      let mid := outEdge + h
      if ¬ (inSize ≤ outSize) then .error .assertion
      else if inSize = 1 then sampleUniform outR (k.coin plaintext)
      else
        match sampleHgd k inR outR mid with
        | .error e => .error e
        | .ok x =>
          if plaintext ≤ x then
            match mkRange (inEdge + 1) x with
            | .error e => .error e
            | .ok inR' =>
              match mkRange (outEdge + 1) mid with
              | .error e => .error e
              | .ok outR' => encRec k plaintext fuel inR' outR'
          else
            match mkRange (x + 1) (inEdge + inSize) with
            | .error e => .error e
            | .ok inR' =>
              match mkRange (mid + 1) (outEdge + outSize) with
              | .error e => .error e
              | .ok outR' => encRec k plaintext fuel inR' outR'

/-- `OPE.decrypt_recursive`, ope.py 138-162. -/
def decRec (k : Key) (ciphertext : Int) : Nat → Range → Range → Except PyErr Int
  | 0, _, _ => .error .nonterm
  | fuel + 1, inR, outR =>
    let inSize := inR.size
    let outSize := outR.size
    let inEdge := inR.start - 1
    let outEdge := outR.start - 1
    match halfCeil outSize with
    | .error e => .error e
    | .ok h =>
      let mid := outEdge + h
      if ¬ (inSize ≤ outSize) then .error .assertion
      else if inSize = 1 then
        match sampleUniform outR (k.coin inR.start) with
        | .error e => .error e
        | .ok sampled => if sampled = ciphertext then .ok inR.start else .error .invalidCiphertext
      else
        match sampleHgd k inR outR mid with
        | .error e => .error e
        | .ok x =>
          if ciphertext ≤ mid then
            match mkRange (inEdge + 1) x with
            | .error e => .error e
            | .ok inR' =>
              match mkRange (outEdge + 1) mid with
              | .error e => .error e
              | .ok outR' => decRec k ciphertext fuel inR' outR'
          else
            match mkRange (x + 1) (inEdge + inSize) with
            | .error e => .error e
            | .ok inR' =>
              match mkRange (mid + 1) (outEdge + outSize) with
              | .error e => .error e
              | .ok outR' => decRec k ciphertext fuel inR' outR'

/-- An `OPE` object: key and ranges (ope.py 82-98).  The constructor's check `in size <= out size`
is `Obj.valid`. -/
structure Obj where
  key : Key
  inRange : Range
  outRange : Range

/-- What `ValueRange.__init__` and `OPE.__init__` (ope.py 33-34, 97-98) guarantee of an object. -/
def Obj.valid (o : Obj) : Prop :=
  o.inRange.start ≤ o.inRange.end_ ∧ o.outRange.start ≤ o.outRange.end_ ∧
  o.inRange.size ≤ o.outRange.size

/-- `OPE.encrypt`, ope.py 100-106.  The recursion gets fuel for one level per element of the output range. -/
def Obj.encrypt (o : Obj) (plaintext : Int) : Except PyErr Int :=
  if ¬ o.inRange.contains plaintext then .error .outOfRange
  else encRec o.key plaintext o.outRange.size.toNat o.inRange o.outRange

/-- `OPE.decrypt`, ope.py 130-136. -/
def Obj.decrypt (o : Obj) (ciphertext : Int) : Except PyErr Int :=
  if ¬ o.outRange.contains ciphertext then .error .outOfRange
  else decRec o.key ciphertext o.outRange.size.toNat o.inRange o.outRange

/-- The ranges used when none are given, ope.py 17-20, 89-95. -/
def defaultRange : Range := ⟨-2 ^ 63, 2 ^ 63 - 1⟩

/-- `OPECipher`, encrypt.py 263-275: always the default ranges. -/
def opeCipher (k : Key) : Obj := ⟨k, defaultRange, defaultRange⟩

/-! ### The hypergeometric samplers (hgd.py) -/

/-- `PRNG.draw`, hgd.py 11-19: the 32 bits from position `32 * i`, most significant first, over `2^32 - 1`.
The float division is taken as exact. -/
def draw (coin : Nat → Bool) (i : Nat) : ℚ :=
  ((((List.range 32).map fun j => coin (32 * i + j)).foldl (fun out b => 2 * out + b.toNat) 0 : Nat) : ℚ) /
    (2 ^ 32 - 1)

/-- The loop of `hypergeometric_hyp`, hgd.py 58-65, on the draws `U`.  `K` counts the remaining draws; the loop
is left when `Y <= 0` or when `K` reaches 0.  (`K = 0` on entry cannot happen: `sample >= 1`.)  Floats are exact
rationals; the sizes involved are below 21. -/
def hypLoop (d1 : Int) (U : Nat → ℚ) : Nat → Nat → Int → Int
  | 0, _, Y => Y
  | K + 1, i, Y =>
    if Y > 0 then
      let Y' := Y - ⌊U i + (Y : ℚ) / ((d1 : ℚ) + ((K + 1 : Nat) : ℚ))⌋
      if K = 0 then Y' else hypLoop d1 U K (i + 1) Y'
    else Y

/-- `hypergeometric_hyp`, hgd.py 53-69. -/
def hyp (U : Nat → ℚ) (good bad sample : Int) : Int :=
  let d1 := bad + good - sample
  let d2 := min bad good
  let Y := hypLoop d1 U sample.toNat 0 d2
  let Z := d2 - Y
  if good > bad then sample - Z else Z

/-- The float arithmetic of one HRUA run, left arbitrary: the bound `d11`, and for each round the
candidate `W` and the outcomes of the three acceptance comparisons (hgd.py 84-116).  Nothing is assumed of it. -/
structure Hrua where
  d11 : ℚ
  W : Nat → ℚ
  fastAccept : Nat → Int → Bool
  fastReject : Nat → Int → Bool
  accept : Nat → Int → Bool

/-- The loop of `hypergeometric_hrua`, hgd.py 94-116; round `i` uses the draws `X = draw (2i)`, `Y = draw (2i+1)`.
A zero `X` raises ZeroDivisionError in line 97.  `loggam` of a non-positive integer reaches `math.log(0.0)` (lines
161-164) and raises ValueError: that is the check of the four arguments of line 104. -/
def hruaLoop (coin : Nat → Bool) (h : Hrua) (m mn mx : Int) : Nat → Nat → Except PyErr Int
  | 0, _ => .error .nonterm
  | fuel + 1, i =>
    if draw coin (2 * i) = 0 then .error .zeroDivision
    else
      let W := h.W i
      if W < 0 ∨ W ≥ h.d11 then hruaLoop coin h m mn mx fuel (i + 1)
      else
        let Z := ⌊W⌋
        if Z + 1 ≤ 0 ∨ mn - Z + 1 ≤ 0 ∨ m - Z + 1 ≤ 0 ∨ mx - m + Z + 1 ≤ 0 then .error .mathDomain
        else if h.fastAccept i Z then .ok Z
        else if h.fastReject i Z then hruaLoop coin h m mn mx fuel (i + 1)
        else if h.accept i Z then .ok Z
        else hruaLoop coin h m mn mx fuel (i + 1)

/-- `hypergeometric_hrua`, hgd.py 71-126. -/
def hrua (coin : Nat → Bool) (h : Hrua) (loops : Nat) (good bad sample : Int) : Except PyErr Int :=
  let mn := min good bad
  let pop := good + bad
  let mx := max good bad
  let m := min sample (pop - sample)
  match hruaLoop coin h m mn mx loops 0 with
  | .error e => .error e
  | .ok Z =>
    let Z1 := if good > bad then m - Z else Z
    .ok (if m < sample then good - Z1 else Z1)

/-- `HGD.rhyper`, hgd.py 45-51, on the bit tape `coin`. -/
def rhyper (coin : Nat → Bool) (h : Hrua) (loops : Nat) (kk nn1 nn2 : Int) : Except PyErr Int :=
  if kk > 10 then hrua coin h loops nn1 nn2 kk else .ok (hyp (draw coin) nn1 nn2 kk)

/-- A key whose sampler is the code's own `rhyper` on the tape of the label.  `h` is the (arbitrary) float arithmetic of
the runs, `loops` bounds the rejection loop. -/
def codeKey (coin : Int → Nat → Bool) (h : Int → Int → Int → Int → Hrua) (loops : Nat) : Key where
  coin := coin
  rhyper := fun label kk nn1 nn2 => rhyper (coin label) (h label kk nn1 nn2) loops kk nn1 nn2

end EulerDB.Ope
