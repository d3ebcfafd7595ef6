import Verif.Clause.Rewriter

/-!
# Batch insert

`RemoteExecutor.batch_insert` and `batch_enc`, remote_executor.py 127-176.  The file is read by `pandas.read_csv(..., chunksize=20000, header=None)`: fields are
texts, each chunk guesses the type of each of its columns, and `chunk.values` is one array.  What pandas takes for a number or for a missing value is the
parameter `Csv`.  Rows have equal widths (pandas refuses or pads others).
-/

namespace EulerDB.Batch

open EulerDB EulerDB.Delta EulerDB.Clause

/-- An element of the array of a chunk. -/
inductive Cell where
  | int (z : Int)
  | float (q : ℚ)
  | nan
  | text (s : String)
  deriving DecidableEq, Repr

/-- How pandas reads fields: integers, floating-point numbers, missing values, and the conversion of integers to floats. -/
structure Csv where
  int? : String → Option Int
  float? : String → Option ℚ
  isNa : String → Bool
  toFloat : Int → ℚ

/-- The type guessed for a column of a chunk and its elements: all integers, all numbers or missing, else texts (missing ones become NaN). -/
def inferCol (p : Csv) (fields : List String) : List Cell :=
  if fields.all fun f => (p.int? f).isSome then fields.map fun f => match p.int? f with | some z => .int z | none => .nan
  else if fields.all fun f => p.isNa f || (p.float? f).isSome then
    fields.map fun f => if p.isNa f then .nan else match p.float? f with | some q => .float q | none => .nan
  else fields.map fun f => if p.isNa f then .nan else .text f

def isText : Cell → Bool
  | .text _ => true
  | _ => false

def isFloat : Cell → Bool
  | .float _ => true
  | .nan => true
  | _ => false

def toFloatCell (p : Csv) : Cell → Cell
  | .int z => .float (p.toFloat z)
  | c => c

/-- `chunk.values` for the columns of a chunk: with a text column the array has Python objects, otherwise with a float column all numbers are floats. -/
def valuesOf (p : Csv) (cols : List (List Cell)) : List (List Cell) :=
  if cols.any fun c => c.any isText then cols
  else if cols.any fun c => c.any isFloat then cols.map fun c => c.map (toFloatCell p)
  else cols

/-- `int(x)` for an element. -/
def cellInt : Cell → Except PyErr Int
  | .int z => .ok z
  | .float q => .ok (Codec.trunc q)
  | .nan => .error .valueError
  | .text s => Text.parseInt s.toList

/-- `str(x)` for an element. -/
def cellStr (c : Crypto) : Cell → String
  | .int z => intText z
  | .float q => c.floatRepr q
  | .nan => "nan"
  | .text s => s

/-- One backend column, remote_executor.py 145-162: `none` for a cipher without a branch. -/
def encCell (c : Crypto) (cm : ColMeta) (enc : String) : Option (Cell → Except PyErr Cell) :=
  if enc = "order-preserving" then some fun x =>
    match cellInt x with
    | .error e => .error e
    | .ok z => (c.opeEnc cm.key z).map .int
  else if enc = "symmetric" then some fun x => (c.sym cm.key (cellStr c x)).map .text
  else if enc = "fuzzy" then some fun x => (c.fuzzy cm.key (cellStr c x)).map .text
  else none

/-- The columns of `enc_data`: which element of the row each is computed from, and how. -/
abbrev Plan := List (Nat × (Cell → Except PyErr Cell))

/-- The plan of one column of the table. -/
def colPlan (c : Crypto) (cm : ColMeta) (i : Nat) : Plan :=
  if cm.plaintext then [(i, .ok)] else cm.encCols.filterMap fun e => (encCell c cm e.1).map fun f => (i, f)

/-- The backend names of one column, remote_executor.py 135-140. -/
def colNames (cm : ColMeta) (col : String) : List String := if cm.plaintext then [col] else cm.encCols.map Prod.snd

/-- Both for all columns. -/
def planOf (c : Crypto) (cols : Dict String ColMeta) : List String → Nat → Except PyErr (Plan × List String)
  | [], _ => .ok ([], [])
  | col :: r, i =>
    match Dict.getItem cols col with
    | .error e => .error e
    | .ok cm =>
      match planOf c cols r (i + 1) with
      | .error e => .error e
      | .ok (p, n) => .ok (colPlan c cm i ++ p, colNames cm col ++ n)

/-- A loop that stops at the first exception. -/
def mapE {α β : Type} (f : α → Except PyErr β) : List α → Except PyErr (List β)
  | [] => .ok []
  | a :: r =>
    match f a with
    | .error e => .error e
    | .ok b =>
      match mapE f r with
      | .error e => .error e
      | .ok l => .ok (b :: l)

/-- `func(input_type(data[idx][j]))`. -/
def cellAt (row : List Cell) (e : Nat × (Cell → Except PyErr Cell)) : Except PyErr Cell :=
  match row[e.1]? with
  | none => .error .indexError
  | some x => e.2 x

/-- `enc_data`: column after column. -/
def encColumns (plan : Plan) (rows : List (List Cell)) : Except PyErr (List (List Cell)) := mapE (fun e => mapE (fun row => cellAt row e) rows) plan

/-- `np.transpose(..)` of `n` rows. -/
def transposed (n : Nat) (cols : List (List Cell)) : List (List Cell) := (List.range n).map fun j => cols.filterMap fun c => c[j]?

/-- `np.asarray` of columns of strings and columns of numbers: all become strings.  (If a plaintext column comes from an array of Python objects they stay as they
are; to the database a number and its text are the same.) -/
def mix (c : Crypto) (cols : List (List Cell)) : List (List Cell) :=
  if cols.any fun l => l.any isText then cols.map fun l => l.map fun x => .text (cellStr c x) else cols

/-- One chunk: the rows given to `cursor.execute`; a tuple shorter than the number of `%s` is refused by the driver. -/
def encChunk (c : Crypto) (plan : Plan) (names : List String) (rows : List (List Cell)) : Except PyErr (List (List Cell)) :=
  match encColumns plan rows with
  | .error e => .error e
  | .ok cols =>
    if cols.length = names.length then .ok (transposed rows.length (mix c cols)) else .error .generic

/-- What a batch leaves behind: the committed rows, and the exception if one was raised. -/
structure Outcome where
  stored : List (List Cell)
  error : Option PyErr
  deriving DecidableEq, Repr

/-- The loop over the chunks, remote_executor.py 143-168: a commit after each chunk. -/
def loadChunks (c : Crypto) (plan : Plan) (names : List String) : List (List (List Cell)) → List (List Cell) → Outcome
  | [], acc => ⟨acc, none⟩
  | ch :: r, acc =>
    match encChunk c plan names ch with
    | .error e => ⟨acc, some e⟩
    | .ok rows => loadChunks c plan names r (acc ++ rows)

/-- The chunks of a list, by fuel. -/
def chunksGo {α : Type} (n : Nat) : Nat → List α → List (List α)
  | 0, _ => []
  | _ + 1, [] => []
  | f + 1, a :: r => (a :: r).take n :: chunksGo n f ((a :: r).drop n)

/-- `chunksize=n`. -/
def chunks {α : Type} (n : Nat) (l : List α) : List (List α) := chunksGo n l.length l

def chunkSize : Nat := 20000

/-- The rows of a chunk as an array: the columns are guessed one by one. -/
def readChunk (p : Csv) (fields : List (List String)) : List (List Cell) :=
  let w := (fields.head?.map List.length).getD 0
  let cols := (List.range w).map fun i => inferCol p (fields.filterMap fun r => r[i]?)
  transposed fields.length (valuesOf p cols)

/-- `batch_insert`: the backend names and what is stored.  (A table or column that is unknown raises KeyError before anything is sent.) -/
def batchInsert (c : Crypto) (p : Csv) (tm : TableMeta ColMeta) (columns : List String) (file : List (List String)) : Except PyErr (List String × Outcome) :=
  match planOf c tm.columns columns 0 with
  | .error e => .error e
  | .ok (plan, names) => .ok (names, loadChunks c plan names ((chunks chunkSize file).map (readChunk p)) [])

end EulerDB.Batch
