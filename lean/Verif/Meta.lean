import Verif.Dict

/-! # The description of a column in the metadata -/

namespace EulerDB

/-- The value of `meta[db][table]['columns'][col]` as built by `rewrite_table`, scheduler/handers/table.py 29-36, 52-54, 92, 106-107, 121-125. -/
structure ColMeta where
  plaintext : Bool
  type : String
  key : String
  encCols : Dict String String
  homKey : Option (Nat × Nat) := none
  sm4Key : Option String := none
  comment : Option String := none
  deriving DecidableEq, Repr

end EulerDB
