import Verif.Clause.Rewriter

/-!
# Lists shown and forms read by the handlers (handler.py)

`SchemaHandler.format_result` 759-793, `QueryHandler.format_result` 275-302 and `CreateHandler.generate_table` 587-611.  The final `json.dumps` is left out: results
are the values that are dumped.
-/

namespace EulerDB.Web

open EulerDB EulerDB.Clause

/-! ### The schema -/

/-- The JSON type a column is shown with. -/
inductive JType where
  | varchar
  | integer
  deriving DecidableEq, Repr

/-- A shown column: `none` is the empty dict `{}`. -/
abbrev ShownCol := Option (String × JType)

/-- What the listing needs of a column of the metadata. -/
structure ColInfo where
  type : String
  plaintext : Bool
  deriving DecidableEq, Repr

/-- A row `(table_name, col_info)` of the metadata, `col_info` parsed. -/
abbrev SchemaRow := String × Dict String ColInfo

/-- handler.py 763, 769-783: the last column of the dict with a known type. -/
def formatCol : Dict String ColInfo → ShownCol → ShownCol
  | [], acc => acc
  | (k, v) :: r, acc =>
    let name := if v.plaintext then k else k ++ " *"
    if v.type = "varchar" then formatCol r (some (name, .varchar))
    else if v.type = "int" then formatCol r (some (name, .integer))
    else formatCol r acc

/-- A listed table: `none` is the empty dict. -/
abbrev ShownTable := Option (String × List ShownCol)

/-- The loop, handler.py 762-790; the state is the list `res` and the current `table`. -/
def schemaLoop : List SchemaRow → List ShownTable → ShownTable → List ShownTable
  | [], res, table => res ++ [table]
  | row :: r, res, table =>
    let table := table.getD (row.1, [])
    let col := formatCol row.2 none
    if row.1 = table.1 then schemaLoop r res (some (table.1, table.2 ++ [col]))
    else schemaLoop r (res ++ [some table]) (some (row.1, [col]))

/-- `SchemaHandler.format_result`. -/
def schemaFormat (rows : List SchemaRow) : List ShownTable := schemaLoop rows [] none

/-- The rows `SchemaHandler.get` selects, handler.py 749-753: those stored under the rest of the connection URL.  `stored` are the rows of `p_db_meta` with their
database names. -/
def schemaRows (stored : List (List Char × SchemaRow)) (url : List Char) : List SchemaRow :=
  (stored.filter fun e => e.1 = url.drop 13).map Prod.snd

/-! ### Query results -/

/-- `build_columns`, handler.py 614-626. -/
def buildCol (k v : String) : String × JType := (k, if v = "varchar" then .varchar else .integer)

/-- `"null" + str(i)`. -/
def nullName (i : Nat) : String := "null" ++ String.ofList (Text.natStr i)

/-- `isinstance(v, int)`. -/
def isInt : OutVal → Bool
  | .int _ => true
  | _ => false

/-- The dict of one row, handler.py 297-299. -/
def formatRow : List (String × OutVal) → Dict String OutVal → Dict String OutVal
  | [], d => d
  | (k, v) :: r, d => formatRow r (Dict.set d k v)

/-- `QueryHandler.format_result`, handler.py 275-302: `none` is `{}`. -/
def formatResult (names types : List String) (result : List (List OutVal)) : Option (List (String × JType) × List (Dict String OutVal)) :=
  match result with
  | [] => none
  | first :: _ =>
    let pairs := names.zip types
    let order := pairs.map Prod.fst
    let wide := order.length < first.length
    let order' := if wide then (List.range first.length).map nullName else order
    let cols := if wide then (order'.zip first).map fun e => buildCol e.1 (if isInt e.2 then "int" else "varchar") else pairs.map fun e => buildCol e.1 e.2
    some (cols, result.map fun row => formatRow (order'.zip row) [])

/-! ### The creation form -/

/-- One line of the form. -/
structure FormCol where
  name : List Char
  type : List Char
  length : List Char
  encryption : List Char
  fuzzy : List Char
  token : List Char
  deriving DecidableEq, Repr

/-- `s.lower() == w` for the words compared with here: no character outside ASCII has one of their letters as its lower case. -/
def lowerIs (s w : List Char) : Bool := s.map Char.toLower == w

/-- The options of an encrypted column. -/
structure FormOpt where
  fuzzy : Bool
  key : List Char
  deriving DecidableEq, Repr

/-- The definition of a column, handler.py 594-597.  `int(col['length'])` is the parameter `toInt`. -/
def formPart (toInt : List Char → Except PyErr Int) (c : FormCol) : Except PyErr (List Char) :=
  match toInt c.length with
  | .error e => .error e
  | .ok n => .ok (if 0 < n ∧ lowerIs c.type "int".toList = false then c.name ++ ' ' :: c.type ++ '(' :: c.length ++ [')'] else c.name ++ ' ' :: c.type)

/-- The loop over `range(size)`, handler.py 592-608; `columns[i]` raises when the list is too short. -/
def formLoop (toInt : List Char → Except PyErr Int) : Nat → List FormCol → List (List Char) → Dict (List Char) FormOpt → Except PyErr (List (List Char) × Dict (List Char) FormOpt)
  | 0, _, parts, opts => .ok (parts, opts)
  | _ + 1, [], _, _ => .error .indexError
  | n + 1, c :: r, parts, opts =>
    match formPart toInt c with
    | .error e => .error e
    | .ok p =>
      formLoop toInt n r (parts ++ [p])
        (if lowerIs c.encryption "true".toList then Dict.set opts c.name ⟨lowerIs c.fuzzy "true".toList, c.token⟩ else opts)

/-- `", ".join(l)`. -/
def commaJoin : List (List Char) → List Char
  | [] => []
  | [w] => w
  | w :: ws => w ++ ',' :: ' ' :: commaJoin ws

/-- `generate_table`, handler.py 587-611. -/
def generateTable (toInt : List Char → Except PyErr Int) (columns : List FormCol) (size : Nat) (table : List Char) : Except PyErr (List Char × Dict (List Char) FormOpt) :=
  match formLoop toInt size columns [] [] with
  | .error e => .error e
  | .ok (parts, opts) => .ok ("create table if not exists ".toList ++ table ++ '(' :: commaJoin parts ++ [')'], opts)

end EulerDB.Web
