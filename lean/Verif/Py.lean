import Mathlib.Tactic.Common

/-!
# Python values shared by the whole model

Python exceptions become the values of `PyErr`; a function that may raise returns
`Except PyErr α`.  `nonterm` is not a Python exception: it marks a loop of the model that ran
out of fuel, i.e. an execution that has not finished.
-/

namespace EulerDB

/-- The exceptions the modelled code can raise.  One constructor per exception class that the
theorems need to tell apart; messages are not modelled. -/
inductive PyErr where
  | assertion          -- AssertionError
  | outOfRange         -- scheduler/crypto/ope/errors.py OutOfRangeError
  | invalidRange       -- scheduler/crypto/ope/errors.py InvalidRangeLimitsError
  | invalidCiphertext  -- scheduler/crypto/ope/errors.py InvalidCiphertextError
  | zeroDivision       -- ZeroDivisionError
  | mathDomain         -- ValueError: math domain error
  | overflow           -- OverflowError
  | keyError           -- KeyError
  | typeError          -- TypeError
  | indexError         -- IndexError
  | valueError         -- ValueError
  | attributeError     -- AttributeError
  | unicodeError       -- UnicodeDecodeError / UnicodeEncodeError
  | notImplemented     -- NotImplementedError
  | generic            -- Exception(...)
  | dbError            -- an error raised by the database driver
  | tooMany            -- dbutils/pooled_db.py TooManyConnections
  | notSupported       -- dbutils/pooled_db.py NotSupportedError
  | nonterm            -- the execution has not finished
  deriving DecidableEq, Repr, Inhabited

end EulerDB
