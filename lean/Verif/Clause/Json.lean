import Verif.Meta
import Verif.Delta.Model
import Verif.Text
import Verif.Aes.Model
import Verif.Ope.Model
import Verif.Fuzzy.Model
import Verif.Codec.Model

/-!
# The parsed statements

What `sql_parsing.parse_mysql` returns: nested Python dicts, lists, strings and numbers.  The grammar itself is not modelled; the theorems hold
for every value of this type.
-/

namespace EulerDB

/-- A Python value as the parser builds it.  (Python's booleans do not occur: the grammar turns TRUE and FALSE into
values this model leaves out.) -/
inductive Json where
  | null
  | int (z : Int)
  | float (q : ℚ)
  | str (s : String)
  | list (l : List Json)
  | dict (d : List (String × Json))

namespace Json

/-- A string literal as the parser returns it. -/
def lit (s : String) : Json := .dict [("literal", .str s)]

/-- `x.get(k)` on a dict. -/
def get? : Json → String → Option Json
  | .dict d, k => Dict.get? d k
  | _, _ => none

end Json

namespace Clause

open EulerDB EulerDB.Delta

/-- The ciphers: AES per passphrase, the order-preserving key per passphrase, CPython's alphanumeric characters, the Paillier ciphertext
(as text) chosen for an integer, and `repr` of a float. -/
structure Crypto where
  aes : String → Aes.Block
  ope : String → Ope.Key
  alnum : Char → Bool
  hom : Nat × Nat → Int → String
  floatRepr : ℚ → String

/-- `AESCipher(key).encrypt(s)`. -/
def Crypto.sym (c : Crypto) (key s : String) : Except PyErr String := (Aes.encrypt (c.aes key) s.toList).map String.ofList

/-- `AESCipher(key).decrypt(s)`. -/
def Crypto.symDec (c : Crypto) (key s : String) : Except PyErr String := (Aes.decrypt (c.aes key) s.toList).map String.ofList

/-- `FuzzyCipher(key).encrypt(s)`. -/
def Crypto.fuzzy (c : Crypto) (key s : String) : Except PyErr String := (Fuzzy.fuzzyEncrypt c.alnum (c.aes key) s.toList).map String.ofList

/-- The rewritten LIKE pattern, sql_where.py 57-68, 75-86. -/
def Crypto.like (c : Crypto) (key s : String) : Except PyErr String := (Fuzzy.likeRewrite c.alnum (c.aes key) s.toList).map String.ofList

/-- `OPECipher(key).encrypt(z)`. -/
def Crypto.opeEnc (c : Crypto) (key : String) (z : Int) : Except PyErr Int := (Ope.opeCipher (c.ope key)).encrypt z

/-- `OPECipher(key).decrypt(z)`. -/
def Crypto.opeDec (c : Crypto) (key : String) (z : Int) : Except PyErr Int := (Ope.opeCipher (c.ope key)).decrypt z

/-- `str(z)`. -/
def intText (z : Int) : String := String.ofList (Text.intStr z)

/-- The metadata of one database. -/
abbrev Db := DbMeta ColMeta

/-- `db_meta[t]`. -/
def tableOf (db : Db) (t : String) : Except PyErr (TableMeta ColMeta) := Dict.getItem db t

/-- `db_meta[x]` for a value that need not be a string: a dict or a list is unhashable, other values are no keys. -/
def tableOfJson (db : Db) : Json → Except PyErr (TableMeta ColMeta)
  | .str t => tableOf db t
  | .list _ => .error .typeError
  | .dict _ => .error .typeError
  | _ => .error .keyError

/-- `cols[x]` for a value that need not be a string. -/
def colOfJson (cols : Dict String ColMeta) : Json → Except PyErr ColMeta
  | .str c => Dict.getItem cols c
  | .list _ => .error .typeError
  | .dict _ => .error .typeError
  | _ => .error .keyError

/-- `s.split(".")`. -/
def splitDot (s : String) : List String := (Text.split '.' s.toList).map String.ofList

/-- `Rewriter.split_table_col`, clause/rewriter.py 9-11: the first two parts; a further part is dropped. -/
def splitTableCol : Json → Except PyErr (String × String)
  | .str s =>
    match splitDot s with
    | a :: b :: _ => .ok (a, b)
    | _ => .error .indexError
  | _ => .error .attributeError

end Clause

end EulerDB
