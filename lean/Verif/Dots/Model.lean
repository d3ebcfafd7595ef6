/-
Model of nested data with dotted paths.

Code: /repo/dots/datas.py `Data.__getitem__` 100-129, `Data.__setitem__` 131-173, `Data.items` 291-297,
`leaves` 416-435, `_split_field` 438-442;
/repo/dots/nones.py `NullType.__getitem__` 175-187, `NullType.__setitem__` 213-226, `_assign_to_null` 250-283,
`_split_field` 286-293;
/repo/dots/__init__.py `literal_field` 103-110, `concat_field` 194-204, `relative_field` 228-247,
`_getdefault` 359-390, `_leaves_to_data` 602-650.

Simplifications:
  * a value is nothing, an atom (a number or a text), a list or a dict whose keys are texts;
    `Data`, `FlatList` and `Null` are the dict, the list and nothing they wrap;
  * what an atom answers when it is asked for a key (a character of a text, an attribute, `Null`) is a parameter;
  * the attempts of `_getdefault` with numbers (379-383) find nothing in a dict, whose keys are texts;
  * assigning to a key of an atom raises whatever attributes are on the way;
  * assigning through a list is left out (`notSupported`), and so is a key of `_leaves_to_data` that begins with two
    dots, which makes keys that are numbers;
  * a failed assignment ends with an exception (the import of `mo_logs` in the handler, datas.py 170-173).
-/
import Verif.Dict
import Verif.Format.Dots

namespace EulerDB.Dots

open EulerDB.Format EulerDB.Text

abbrev Name := List Char

inductive Value (α : Type)
  | null
  | atom (a : α)
  | list (l : List (Value α))
  | dict (d : List (Name × Value α))

variable {α : Type}

abbrev Obj (α : Type) := Dict Name (Value α)

def Value.isNull : Value α → Bool
  | .null => true
  | _ => false

/-- `literal_field`. -/
def literal (n : Name) : List Char := unfold' '.' n

/-- `_split_field` of nones.py 286-293: `"\b"` is not looked for. -/
def splitNull (n : List Char) : List Name :=
  if n = ['.'] then [] else (split '.' (fold markA n)).map (swap markA '.')

/-! ### Reading -/

mutual
/-- `_getdefault(value, n)`, and the steps of `__getitem__` 113-121; `ask` is the answer of an atom. -/
def step (ask : α → Name → Value α) (n : Name) : Value α → Value α
  | .null => .null
  | .atom a => ask a n
  | .list l => .list (steps ask n l)
  | .dict d => (Dict.get? d n).getD .null
def steps (ask : α → Name → Value α) (n : Name) : List (Value α) → List (Value α)
  | [] => []
  | v :: r => step ask n v :: steps ask n r
end

def walk (ask : α → Name → Value α) (v : Value α) (p : List Name) : Value α := p.foldl (fun v n => step ask n v) v

/-- `Data.__getitem__`. -/
def getItem (ask : α → Name → Value α) (d : Obj α) (key : List Char) : Value α :=
  if key = ['.'] then .dict d
  else if '.' ∈ key then walk ask (.dict d) (parts key)
  else (Dict.get? d key).getD .null

/-! ### Writing -/

/-- Dicts one in the other. -/
def nest (v : Value α) : List Name → Value α
  | [] => v
  | n :: r => .dict [(n, nest v r)]

/-- The names under which `_assign_to_null` puts a value, when the names `p` follow a name that is missing: the last is
made literal and split again (datas.py 163), those before are split (nones.py 183-187). -/
def missingNames (p : List Name) : List Name :=
  p.dropLast.flatMap splitNull ++ (p.getLast?.map fun n => splitNull (literal n)).getD []

/-- Lines 153-169 of `Data.__setitem__`. -/
def setPath (d : Obj α) : List Name → Value α → Except PyErr (Obj α)
  | [], _ => .error .indexError
  | [n], v => .ok (if v.isNull then Dict.erase d n else Dict.set d n v)
  | n :: m :: r, v =>
    match Dict.get? d n with
    | some (.dict e) =>
      match setPath e (m :: r) v with
      | .error e => .error e
      | .ok e' => .ok (Dict.set d n (.dict e'))
    | none => .ok (if v.isNull then d else Dict.set d n (nest v (missingNames (m :: r))))
    | some .null =>
      if v.isNull then .ok d
      else if r = [] then .error .typeError
      else if r.dropLast.flatMap splitNull = [] then .ok d
      else .error .attributeError
    | some (.atom _) => if v.isNull then .ok d else .error .typeError
    | some (.list _) => .error .notSupported

/-- `Data.__setitem__` for a key other than `.`. -/
def setItem (d : Obj α) (key : List Char) (v : Value α) : Except PyErr (Obj α) :=
  if key = [] then .error .generic
  else if '.' ∈ key then setPath d (parts key) v
  else .ok (if v.isNull then Dict.erase d key else Dict.set d key v)

/-! ### Leaves -/

mutual
/-- `leaves(d, prefix)` with the items of a `Data`, which are not nothing. -/
def leaves (pre : List Char) : List (Name × Value α) → List (List Char × Value α)
  | [] => []
  | (k, v) :: r => leavesOf pre k v ++ leaves pre r
def leavesOf (pre : List Char) (k : Name) : Value α → List (List Char × Value α)
  | .null => []
  | .dict e => leaves (pre ++ literal k ++ ['.']) e
  | .atom a => [(pre ++ literal k, .atom a)]
  | .list l => [(pre ++ literal k, .list l)]
end

/-- Lines 632-643 of `_leaves_to_data`. -/
def putAt (d : Obj α) : List Name → Value α → Except PyErr (Obj α)
  | [], _ => .error .indexError
  | [n], v => .ok (if v.isNull then Dict.erase d n else Dict.set d n v)
  | n :: m :: r, v =>
    match (Dict.get? d n).getD .null with
    | .null =>
      match putAt [] (m :: r) v with
      | .error e => .error e
      | .ok e' => .ok (Dict.set d n (.dict e'))
    | .dict e =>
      match putAt e (m :: r) v with
      | .error e => .error e
      | .ok e' => .ok (Dict.set d n (.dict e'))
    | _ => if r = [] then .error .typeError else .error .attributeError

/-- Lines 620-643: one key of the dict. -/
def putLeaf (d : Obj α) (key : List Char) (v : Value α) : Except PyErr (Obj α) :=
  if key = [] then .error .generic
  else if '.' ∈ key then
    if (splitField key).ups = 0 then putAt d (splitField key).names v else .error .notSupported
  else .ok (if v.isNull then Dict.erase d key else Dict.set d key v)

mutual
/-- `_leaves_to_data`. -/
def fromLeaves : Value α → Except PyErr (Value α)
  | .null => .ok .null
  | .atom a => .ok (.atom a)
  | .list l =>
    match fromLeavesList l with
    | .error e => .error e
    | .ok l' => .ok (.list l')
  | .dict d =>
    match fromLeavesDict [] d with
    | .error e => .error e
    | .ok d' => .ok (.dict d')
def fromLeavesList : List (Value α) → Except PyErr (List (Value α))
  | [] => .ok []
  | v :: r =>
    match fromLeaves v with
    | .error e => .error e
    | .ok v' =>
      match fromLeavesList r with
      | .error e => .error e
      | .ok r' => .ok (v' :: r')
def fromLeavesDict (out : Obj α) : List (Name × Value α) → Except PyErr (Obj α)
  | [] => .ok out
  | (k, v) :: r =>
    match fromLeaves v with
    | .error e => .error e
    | .ok v' =>
      match putLeaf out k v' with
      | .error e => .error e
      | .ok out' => fromLeavesDict out' r
end

/-! ### Relative paths -/

/-- `path[:-back]` for `1 ≤ back`, the parent steps before the names. -/
def Path.cut (p : Path) (back : Nat) : Path :=
  if back ≤ p.names.length then ⟨p.ups, p.names.take (p.names.length - back)⟩
  else ⟨p.ups - (back - p.names.length), []⟩

/-- `concat_field`. -/
def concatField (pre suf : List Char) : List Char :=
  if ['.', '.'].isPrefixOf suf then
    let remainder := suf.dropWhile (· == '.')
    let back := suf.length - remainder.length - 1
    let p := splitField pre
    if back ≤ p.ups + p.names.length then
      joinField ⟨(Path.cut p back).ups, (Path.cut p back).names ++ (splitField remainder).names⟩
    else List.replicate (back - (p.ups + p.names.length)) '.' ++ '.' :: remainder
  else joinField ⟨(splitField pre).ups, (splitField pre).names ++ (splitField suf).names⟩

/-- The steps of a path, as `split_field` lists them. -/
def Path.steps (p : Path) : List (Option Name) := List.replicate p.ups none ++ p.names.map some

/-- How many steps at the beginning are equal, lines 237-241. -/
def common : List (Option Name) → List (Option Name) → Nat
  | a :: r, b :: s => if a = b then common r s + 1 else 0
  | _, _ => 0

/-- `path[n:]`. -/
def Path.from (p : Path) (n : Nat) : Path :=
  if n ≤ p.ups then ⟨p.ups - n, p.names⟩ else ⟨0, p.names.drop (n - p.ups)⟩

/-- `relative_field`. -/
def relativeField (field parent : List Char) : List Char :=
  if parent = ['.'] then field
  else
    let f := splitField field
    let p := splitField parent
    let c := common (Path.steps f) (Path.steps p)
    if (Path.steps p).length = c then joinField (Path.from f c)
    else List.replicate ((Path.steps p).length - c) '.' ++ '.' :: joinField (Path.from f c)

end EulerDB.Dots
