import Verif.Dict
import Verif.Py

/-!
# Decrypting an exported file (scheduler/utils/decrypt_support.py 65-118)

A cell of the file is a `C`, `key.decrypt` gives an `R` and `encrypt.decode` a `V`; the array a mode returns holds `V`s or undecoded `R`s.
pandas, multiprocessing and Spark are parameters.
-/

namespace EulerDB.Offline

open EulerDB

variable {C R V : Type}

/-- `[f(i) for i in l]` where `f` may raise. -/
def mapE {α β : Type} (f : α → Except PyErr β) : List α → Except PyErr (List β)
  | [] => .ok []
  | a :: r =>
    match f a with
    | .error e => .error e
    | .ok b =>
      match mapE f r with
      | .error e => .error e
      | .ok l => .ok (b :: l)

/-- An element of the returned array. -/
inductive Cell (R V : Type) where
  | raw (r : R)
  | decoded (v : V)
  deriving DecidableEq, Repr

/-- `encrypt.decode(key.decrypt(i), data_type)`. -/
def decodeOne (dec : C → Except PyErr R) (decode : R → Except PyErr V) (c : C) : Except PyErr (Cell R V) :=
  match dec c with
  | .error e => .error e
  | .ok r =>
    match decode r with
    | .error e => .error e
    | .ok v => .ok (.decoded v)

/-- `key.decrypt(i)` alone. -/
def rawOne (dec : C → Except PyErr R) (c : C) : Except PyErr (Cell R V) :=
  match dec c with
  | .error e => .error e
  | .ok r => .ok (.raw r)

/-- `single_decrypt`, 107-109. -/
def single (dec : C → Except PyErr R) (decode : R → Except PyErr V) (data : List C) : Except PyErr (List (Cell R V)) := mapE (decodeOne dec decode) data

/-- `pool_decrypt`, 101-105, with `pool_run`, 17-26.  `sendable` says whether multiprocessing can pickle the function `decrypt` defined inside `pool_decrypt`; it
cannot (a local function has no importable name), and then `get` raises AttributeError for the first task. -/
def pool (sendable : Bool) (dec : C → Except PyErr R) (decode : R → Except PyErr V) (data : List C) : Except PyErr (List (Cell R V)) :=
  if sendable || data.isEmpty then mapE (decodeOne dec decode) data else .error .attributeError

/-- The Spark cluster: not configured, failing, or working with the data cut into partitions by `cut n`. -/
inductive Spark (C : Type) where
  | absent
  | failing
  | working (cut : Nat → List C → List (List C))

/-- `cal_fun_support_spark`, 45-62, on a working cluster: the function is run on every partition, the results are collected in order; an exception in one
partition fails the job. -/
def collect (f : List C → Except PyErr (List (Cell R V))) : List (List C) → Except PyErr (List (Cell R V))
  | [] => .ok []
  | p :: ps =>
    match f p with
    | .error e => .error e
    | .ok a =>
      match collect f ps with
      | .error e => .error e
      | .ok b => .ok (a ++ b)

/-- `distributed_decrypt`, 84-99: 100 partitions or as many as there are values; without Spark, or after any exception, the values are decrypted but not
decoded. -/
def distributed (sp : Spark C) (dec : C → Except PyErr R) (decode : R → Except PyErr V) (data : List C) : Except PyErr (List (Cell R V)) :=
  match sp with
  | .absent => mapE (rawOne dec) data
  | .failing => mapE (rawOne dec) data
  | .working cut =>
    match collect (mapE (decodeOne dec decode)) (cut (min 100 data.length) data) with
    | .error _ => mapE (rawOne dec) data
    | .ok r => .ok r

/-- The modes of `decrypt_file`; `decrypt_dict[decrypt_type]` raises KeyError for another name. -/
inductive Mode where
  | single | pool | distributed
  deriving DecidableEq, Repr

/-- The mode really used, 72-78. -/
def chosen (rows num : Nat) (m : Mode) : Mode := if rows < num then (if m = .distributed then .single else m) else m

/-- The metadata of a column that `decrypt_file` uses, 80 and 113-114; keys are texts. -/
structure Col where
  type : String
  key : String
  homKey : Option (Nat × Nat)
  deriving DecidableEq, Repr

/-- A decrypter, 115-117: HomomorphicCipher may be built without key and then has no key attributes. -/
inductive Decrypter where
  | aes (key : String)
  | ope (key : String)
  | hom (key : Option (Nat × Nat))
  deriving DecidableEq, Repr

/-- `get_feature_key`, 111-118. -/
def featureKey (cols : Dict String Col) (name state : String) : Except PyErr Decrypter :=
  match Dict.get? cols name with
  | none => .error .keyError
  | some c =>
    if state = "symmetric" then .ok (.aes c.key)
    else if state = "order-preserving" then .ok (.ope c.key)
    else if state = "arithmetic" then .ok (.hom c.homKey)
    else .error .keyError

/-- The ways a column is decrypted, given the outside world. -/
structure World (C R V : Type) where
  sendable : Bool
  spark : Spark C
  dec : Decrypter → C → Except PyErr R
  decode : String → R → Except PyErr V
  /-- Whether `df.columns` can be called (70).  It is an Index object, which cannot: TypeError. -/
  callable : Bool

/-- One column, 80-81. -/
def column (w : World C R V) (m : Mode) (cols : Dict String Col) (name state : String) (data : List C) : Except PyErr (List (Cell R V)) :=
  match Dict.get? cols name with
  | none => .error .keyError
  | some c =>
    match featureKey cols name state with
    | .error e => .error e
    | .ok d =>
      match m with
      | .single => single (w.dec d) (w.decode c.type) data
      | .pool => pool w.sendable (w.dec d) (w.decode c.type) data
      | .distributed => distributed w.spark (w.dec d) (w.decode c.type) data

/-- `decrypt_file`, 67-82, after the CSV was read into named columns; `zip` stops at the shorter list. -/
def decryptFile (w : World C R V) (cols : Dict String Col) (file : List (String × List C)) (rows : Nat) (states : List String) (m : Mode) (num : Nat) :
    Except PyErr (List (List (Cell R V))) :=
  if w.callable then mapE (fun x => column w (chosen rows num m) cols x.1.1 x.2 x.1.2) (file.zip states) else .error .typeError

end EulerDB.Offline
