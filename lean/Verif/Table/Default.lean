import Verif.Table.Model
import Verif.Aes.Model

/-!
# DEFAULT clauses of CREATE TABLE (scheduler/handers/table.py 43-50, 68-74)

`Table/Model.lean` leaves the encryption of a default open (`Env.encDefault`).  Here the clause is followed from what the user wrote, through the parser's
value, to the text sent to the backend, with AESCipher (`Aes/Model.lean`) for the symmetric and order-preserving columns.  The other ciphers stay open.
-/

namespace EulerDB.Table

open EulerDB EulerDB.Delta

/-- What a user writes after DEFAULT: NULL, a bare word (CURRENT_TIMESTAMP), a quoted string, an integer, TRUE or FALSE, or another expression such as
`NOW()`. -/
inductive Written where
  | null
  | word (w : String)
  | text (s : String)
  | num (z : Int)
  | bool (b : Bool)
  | expr (e : String)
  deriving DecidableEq, Repr

/-- The parser's value as `col.get('default')` sees it (sql_parsing/types.py 213; table.py 43, 68): `0` and `False` are falsy, so the test fails and the
clause is treated as absent; strings arrive as `{'literal': ..}`, expressions as other dicts, and numbers and `True` as themselves. -/
def Written.parsed : Written → Option DefaultVal
  | .null => some .null
  | .word w => some (.word w)
  | .text _ => some .otherwise
  | .num z => if z = 0 then none else some .otherwise
  | .bool b => if b then some .otherwise else none
  | .expr _ => some .otherwise

/-- `default_value` handed to the cipher, table.py 69-72: the word, or the string `NULL ` for null.  `none`: a dict, a number or a bool. -/
def DefaultVal.raw : DefaultVal → Option (List Char)
  | .word s => some s.toList
  | .null => some "NULL ".toList
  | .otherwise => none

/-- `encrypt.AESCipher(key).encrypt(default_value)`, table.py 74 and encrypt.py 177-182: a value without `.encode` raises AttributeError. -/
def aesDefault (A : Aes.Block) (d : DefaultVal) : Except PyErr String :=
  match d.raw with
  | none => .error .attributeError
  | some r =>
    match Aes.encrypt A r with
    | .error e => .error e
    | .ok c => .ok (String.ofList c)

/-- `Env.encDefault` with AESCipher for the columns of `element_type`; `aes key` is AES under the hash of the key. -/
def encDefault (aes : String → Aes.Block) (rest : String → EncOpt → DefaultVal → Except PyErr String) (cipher : String) (o : EncOpt) (d : DefaultVal) :
    Except PyErr String :=
  if cipher = "symmetric" then aesDefault (aes o.key) d else rest cipher o d

end EulerDB.Table
