import Verif.Py
import Mathlib.Data.Rat.Floor
import Mathlib.Tactic.Linarith
import Mathlib.Tactic.NormNum

/-!
# Encoding of numbers before encryption (scheduler/crypto/encrypt.py 35-85)

Python floats are taken as exact rationals.  (With IEEE doubles the products and quotients are rounded as well; the properties below
are about the arithmetic the code intends.)
-/

namespace EulerDB.Codec

open EulerDB

/-- `stretch` for a value that is not negative, encrypt.py 39-46.  Above `10**65` the Python function falls off the end and
returns None; every caller multiplies or negates the result, which raises TypeError, so TypeError is the outcome here. -/
def stretchPos (val : ℚ) : Except PyErr ℚ :=
  if 10 ^ 15 ≥ val ∧ val ≥ 0 then .ok val
  else if 10 ^ 42 ≥ val ∧ val > 10 ^ 15 then
    .ok ((val - 10 ^ 15) / (10 ^ 42 - 10 ^ 15) * (10 ^ 19 - 10 ^ 15) + 10 ^ 15)
  else if 10 ^ 56 ≥ val ∧ val > 10 ^ 42 then
    .ok ((val - 10 ^ 42) / (10 ^ 56 - 10 ^ 42) * (10 ^ 22 - 10 ^ 19) + 10 ^ 19)
  else if 10 ^ 65 ≥ val ∧ val > 10 ^ 56 then
    .ok ((val - 10 ^ 56) / (10 ^ 65 - 10 ^ 56) * (10 ^ 24 - 10 ^ 22) + 10 ^ 22)
  else .error .typeError

/-- `stretch`, encrypt.py 35-46. -/
def stretch (val : ℚ) : Except PyErr ℚ :=
  if val < 0 then
    match stretchPos (-val) with
    | .error e => .error e
    | .ok x => .ok (-x)
  else stretchPos val

/-- `inverse_stretch`, encrypt.py 49-60.  The branch for negative values calls `stretch`, not itself (line 52). -/
def inverseStretch (val : ℚ) : Except PyErr ℚ :=
  if val < 0 then
    match stretch (-val) with
    | .error e => .error e
    | .ok x => .ok (-x)
  else if 10 ^ 15 ≥ val ∧ val ≥ 0 then .ok val
  else if 10 ^ 19 ≥ val ∧ val > 10 ^ 15 then
    .ok ((val - 10 ^ 15) / (10 ^ 19 - 10 ^ 15) * (10 ^ 42 - 10 ^ 15) + 10 ^ 15)
  else if 10 ^ 22 ≥ val ∧ val > 10 ^ 19 then
    .ok ((val - 10 ^ 19) / (10 ^ 22 - 10 ^ 19) * (10 ^ 56 - 10 ^ 42) + 10 ^ 42)
  else if 10 ^ 24 ≥ val ∧ val > 10 ^ 22 then
    .ok ((val - 10 ^ 22) / (10 ^ 24 - 10 ^ 22) * (10 ^ 65 - 10 ^ 56) + 10 ^ 56)
  else .error .typeError

/-- Python's `int(x)`: truncation towards zero. -/
def trunc (x : ℚ) : Int := if x < 0 then -⌊-x⌋ else ⌊x⌋

/-- The column types `encode` and `decode` distinguish. -/
inductive ValType where
  | int | float | double | other
  deriving DecidableEq, Repr

/-- `encode(val, 'float')`, encrypt.py 64-65. -/
def encodeFloat (val : ℚ) : Int := trunc (val * 10 ^ 12)

/-- `encode(val, 'double')`, encrypt.py 66-68. -/
def encodeDouble (val : ℚ) : Except PyErr Int :=
  match stretch val with
  | .error e => .error e
  | .ok x => .ok (trunc (x * 10 ^ 12))

/-- `decode(val, 'float')`, encrypt.py 80-81; `val` is the decrypted integer (its decimal text is read back by `eval`, line 75). -/
def decodeFloat (val : Int) : ℚ := (val : ℚ) / 10 ^ 12

/-- `decode(val, 'double')`, encrypt.py 82-84. -/
def decodeDouble (val : Int) : Except PyErr ℚ :=
  match inverseStretch val with
  | .error e => .error e
  | .ok x => .ok (x / 10 ^ 12)

end EulerDB.Codec
