import Verif.Text
import Mathlib.FieldTheory.Finite.Basic
import Mathlib.Data.Rat.Floor

/-!
# The homomorphic cipher (scheduler/crypto/encrypt.py 303-336) and its use in the backend

`phe` is not part of the repository; the functions used from it (`PaillierPublicKey.encrypt`, `PaillierPrivateKey.decrypt`, version 1.4/1.5)
are written out here.  `p`, `q` are the two numbers of `homomorphic_key`, `n = p * q`.
-/

namespace EulerDB.Paillier

open EulerDB EulerDB.Text

/-- phe `PaillierPublicKey.max_int`. -/
def maxInt (n : Nat) : Nat := n / 3 - 1

/-- phe `EncodedNumber.encode` for an integer: ValueError outside `+-max_int`, negatives wrap around. -/
def encodeInt (n : Nat) (z : Int) : Except PyErr Nat :=
  if z.natAbs > maxInt n then .error .valueError else .ok (z % (n : Int)).toNat

/-- phe `PaillierPublicKey.raw_encrypt` with the random number `r`.  (For the upper third of the plaintexts the library computes the same
residue through a modular inverse.) -/
def rawEncrypt (n m r : Nat) : Nat := (n * m + 1) % n ^ 2 * (r ^ n % n ^ 2) % n ^ 2

/-- `HomomorphicCipher.encrypt`, encrypt.py 315-316, before `str`. -/
def encryptInt (n : Nat) (z : Int) (r : Nat) : Except PyErr Nat :=
  match encodeInt n z with
  | .error e => .error e
  | .ok m => .ok (rawEncrypt n m r)

/-- phe `l_function`. -/
def lFun (x p : Nat) : Nat := (x - 1) / p

/-- phe `invert`. -/
def invert (a m : Nat) : Nat := ((a : ZMod m)⁻¹).val

/-- phe `h_function`. -/
def hFun (p n : Nat) : Nat := invert (lFun ((n + 1) ^ (p - 1) % p ^ 2) p) p

/-- phe `raw_decrypt`, the half modulo `p`. -/
def rawDecryptMod (p n c : Nat) : Nat := lFun (c ^ (p - 1) % p ^ 2) p * hFun p n % p

/-- phe `raw_decrypt` with `crt`. -/
def rawDecrypt (p q c : Nat) : Int :=
  let mp : Int := rawDecryptMod p (p * q) c
  let mq : Int := rawDecryptMod q (p * q) c
  let u := (mq - mp) * (invert p q : Int) % (q : Int)
  mp + u * p

/-- phe `EncodedNumber.decode` with exponent 0. -/
def decodeInt (n : Nat) (m : Int) : Except PyErr Int :=
  if m ≤ maxInt n then .ok m
  else if m ≥ (n : Int) - maxInt n then .ok (m - n)
  else .error .overflow

/-- phe `PaillierPrivateKey.decrypt` of an `EncryptedNumber` made of the integer `c`. -/
def decryptNum (p q c : Nat) : Except PyErr Int := decodeInt (p * q) (rawDecrypt p q c)

/-- `reduce(lambda x, y: (x * y) % n_square, values, 1)`, encrypt.py 323 and 327. -/
def foldMul (nsq : Nat) (cs : List Nat) : Nat := cs.foldl (fun x y => x * y % nsq) 1

/-- `map(int, values)`, encrypt.py 323. -/
def parseAll : List (List Char) → Except PyErr (List Nat)
  | [] => .ok []
  | s :: r =>
    match parseNat s with
    | .error e => .error e
    | .ok n =>
      match parseAll r with
      | .error e => .error e
      | .ok ns => .ok (n :: ns)

/-- Python's `round` to an integer: nearest, ties to even. -/
def roundHalfEven (x : ℚ) : Int :=
  let f := ⌊x⌋
  let d := x - f
  if d < 1 / 2 then f
  else if d > 1 / 2 then f + 1
  else if f % 2 = 0 then f else f + 1

/-- `round(x, 4)` (exact rationals for floats). -/
def round4 (x : ℚ) : ℚ := (roundHalfEven (x * 10 ^ 4) : ℚ) / 10 ^ 4

/-- `HomomorphicCipher.decrypt`, encrypt.py 318-336. -/
def decrypt (p q : Nat) (enc : List Char) : Except PyErr ℚ :=
  let parts := split ',' enc
  let values := parts.dropLast
  let agg := parts.getLastD []
  let nsq := (p * q) ^ 2
  if agg = ['S', 'U', 'M'] then
    match parseAll values with
    | .error e => .error e
    | .ok cs =>
      match decryptNum p q (foldMul nsq cs) with
      | .error e => .error e
      | .ok z => .ok (z : ℚ)
  else if agg = ['A', 'V', 'G'] then
    match parseAll values with
    | .error e => .error e
    | .ok cs =>
      match decryptNum p q (foldMul nsq cs) with
      | .error e => .error e
      | .ok z => if values.length = 0 then .error .zeroDivision else .ok ((z : ℚ) / (values.length : ℚ))
  else
    match parts with
    | [c] =>
      match parseNat c with
      | .error e => .error e
      | .ok c =>
        match decryptNum p q c with
        | .error e => .error e
        | .ok z => .ok (z : ℚ)
    | [c, num] =>
      match parseNat c with
      | .error e => .error e
      | .ok c =>
        match decryptNum p q c with
        | .error e => .error e
        | .ok z =>
          match parseNat num with
          | .error e => .error e
          | .ok k => if k = 0 then .error .zeroDivision else .ok (round4 ((z : ℚ) / (k : ℚ)))
    | _ => .error .valueError

/-! ### The running product in the backend (schema/metadata.py 170-183) -/

/-- MySQL's exact numbers have 65 digits; a product beyond is an error. -/
def decimalLimit : Nat := 10 ^ 65

/-- `@sum := (@sum * col) % n_square` for one row; `none` is SQL NULL. -/
def serverStep (nsq : Nat) (acc : Option Nat) (row : Option Nat) : Except PyErr (Option Nat) :=
  match acc, row with
  | some a, some c => if a * c ≥ decimalLimit then .error .dbError else .ok (some (a * c % nsq))
  | _, _ => .ok none

/-- All rows, starting from `SET @sum=1`. -/
def serverFold (nsq : Nat) : Option Nat → List (Option Nat) → Except PyErr (Option Nat)
  | acc, [] => .ok acc
  | acc, row :: rows =>
    match serverStep nsq acc row with
    | .error e => .error e
    | .ok acc' => serverFold nsq acc' rows

/-- `Delta.set_sum_feature`, metadata.py 170-179: the value of `@sum<feature>`; the subquery over an empty table yields no row, so NULL. -/
def serverSum (nsq : Nat) (rows : List (Option Nat)) : Except PyErr (Option Nat) :=
  if rows = [] then .ok none else serverFold nsq (some 1) rows

/-- `concat(@sum, ',', @numTotalFeature)`, metadata.py 181-183 and 249-255: NULL if the sum is NULL; the count is `count(*)`. -/
def serverAvg (nsq : Nat) (rows : List (Option Nat)) : Except PyErr (Option (List Char)) :=
  match serverSum nsq rows with
  | .error e => .error e
  | .ok none => .ok none
  | .ok (some c) => .ok (some (natStr c ++ ',' :: natStr rows.length))

end EulerDB.Paillier
