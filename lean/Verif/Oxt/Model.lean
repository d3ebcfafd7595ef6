import Verif.Dict
import Mathlib.Data.Int.GCD

/-!
# The searchable index (sql_research/pysse/oxt.py)

Simplifications: the keyed hash (`OXTRandom.prf`, 72-74, MD5 of key and word) is one function per key; the AES encryption of a row number under the key of a word
(21, 34) is a function `enc`; a Python set is a list of its elements in some order; words are byte strings (the UTF-8 encoding of a text, 94-95, is
applied before) and only the bytes of blank, comma and full stop separate them (115).
-/

namespace EulerDB.Oxt

open EulerDB

/-- `mod_p`, oxt.py 9. -/
def modP : Nat := 74253941

/-- The keyed hashes under k_x, k_i, k_z, k_t, and the encryption of a row number under the key of a word. -/
structure Env (γ : Type) where
  x : Nat → Nat
  i : Nat → Nat
  z : Nat → Nat
  t : Nat → Nat
  enc : Nat → Nat → γ

variable {γ : Type}

/-- `OXTRandom.inverse`, 84-86: `gmpy2.invert` raises ZeroDivisionError if there is no inverse. -/
def inverse (z : Nat) : Except PyErr Nat :=
  if Nat.gcd z modP = 1 then .ok ((Nat.gcdA z modP % (modP : Int)).toNat) else .error .zeroDivision

/-- `x_ind`, 27. -/
def Env.xInd (e : Env γ) (ind : Nat) : Nat := e.i ind % modP

/-- `prf(k_x, word) * x_ind % mod_p`, 32. -/
def Env.xTag (e : Env γ) (w ind : Nat) : Nat := e.x w * e.xInd ind % modP

/-- The inner loop, 23-35: the entries of a word and the elements added to `x_set`. -/
def entries (e : Env γ) (w : Nat) : List Nat → Except PyErr (List (γ × Nat) × List Nat)
  | [] => .ok ([], [])
  | ind :: r =>
    match inverse (e.z w % modP) with
    | .error er => .error er
    | .ok iz =>
      match entries e w r with
      | .error er => .error er
      | .ok (t, xs) => .ok ((e.enc w ind, e.xInd ind * iz % modP) :: t, e.xTag w ind :: xs)

/-- `setup_edb`, 19-40, from given `t_dict` and `x_set`. -/
def setupFrom (e : Env γ) : List (Nat × List Nat) → Dict Nat (List (γ × Nat)) → List Nat → Except PyErr (Dict Nat (List (γ × Nat)) × List Nat)
  | [], td, xs => .ok (td, xs)
  | (w, inds) :: r, td, xs =>
    match entries e w inds with
    | .error er => .error er
    | .ok (t, xs') => setupFrom e r (Dict.set td (e.t w) t) (xs ++ xs')

def setup (e : Env γ) (index : List (Nat × List Nat)) : Except PyErr (Dict Nat (List (γ × Nat)) × List Nat) := setupFrom e index [] []

/-- `build_index`, 43-51. -/
def buildIndex (e : Env γ) (first : Nat) (rest : List Nat) : Nat × List Nat :=
  (e.t first, rest.map fun w => (e.z first % modP) * e.x w % modP)

/-- `search_encryption`, 54-63. -/
def searchEnc (stag : Nat) (tokens : List Nat) (td : Dict Nat (List (γ × Nat))) (xs : List Nat) : Except PyErr (List γ) :=
  match Dict.get? td stag with
  | none => .error .keyError
  | some t => .ok ((t.filter fun p => tokens.all fun j => decide (j * p.2 % modP ∈ xs)).map Prod.fst)

/-- The whole search, as in the example at the end of the file, 144-148. -/
def search (e : Env γ) (index : List (Nat × List Nat)) (first : Nat) (rest : List Nat) : Except PyErr (List γ) :=
  match setup e index with
  | .error er => .error er
  | .ok (td, xs) => searchEnc (buildIndex e first rest).1 (buildIndex e first rest).2 td xs

/-! ### The index in clear -/

/-- `inverted_index[keyword].add(ind)`, 110. -/
def addWord (ind : Nat) (d : Dict Nat (List Nat)) (w : Nat) : Dict Nat (List Nat) :=
  let old := (Dict.get? d w).getD []
  Dict.set d w (if ind ∈ old then old else old ++ [ind])

/-- `build_inverted_index`, 106-111. -/
def invert (forward : List (Nat × List Nat)) : Dict Nat (List Nat) :=
  forward.foldl (fun d e => e.2.foldl (addWord e.1) d) []

/-- `search_keyword`, 122-129: `inverted_index` is a defaultdict. -/
def searchPlain (forward : Dict Nat (List Nat)) (first : Nat) (rest : List Nat) : Except PyErr (List Nat) :=
  ((Dict.get? (invert forward) first).getD []).foldr
    (fun ind acc =>
      match acc with
      | .error er => .error er
      | .ok l =>
        match Dict.getItem forward ind with
        | .error er => .error er
        | .ok ws => .ok (if rest.all (fun w => decide (w ∈ ws)) then ind :: l else l)) (.ok [])

/-- `int(bytes.hex(), 16)`, 94-95. -/
def encodeWord : List UInt8 → Except PyErr Nat
  | [] => .error .valueError
  | bs => .ok (bs.foldl (fun n b => n * 256 + b.toNat) 0)

def isSep (b : UInt8) : Bool := b == 32 || b == 44 || b == 46

/-- `re.split('[ ,.]+', text + ' ')[:-1]`, 115: the pieces between runs of separators; `cur` is the piece being read. -/
def pieces : List UInt8 → List UInt8 → List (List UInt8)
  | cur, [] => [cur]
  | cur, b :: r => if isSep b then cur :: (if r.all isSep then [] else pieces [] (r.dropWhile isSep)) else pieces (cur ++ [b]) r
termination_by _ l => l.length
decreasing_by
  · have : (r.dropWhile isSep).length ≤ r.length := (List.dropWhile_sublist _).length_le
    simp; omega
  · simp

def encodeAll : List (List UInt8) → Except PyErr (List Nat)
  | [] => .ok []
  | w :: r =>
    match encodeWord w with
    | .error er => .error er
    | .ok n =>
      match encodeAll r with
      | .error er => .error er
      | .ok l => .ok (n :: l)

/-- `split_raw_text_into_keywords`, 114-119. -/
def keywords (text : List UInt8) : Except PyErr (List Nat) := encodeAll (pieces [] text)

/-- `build_forward_index`, 97-103, with the numbers from `n`. -/
def forwardFrom (n : Nat) : List (List UInt8) → Except PyErr (List (Nat × List Nat))
  | [] => .ok []
  | text :: r =>
    match keywords text with
    | .error er => .error er
    | .ok ws =>
      match forwardFrom (n + 1) r with
      | .error er => .error er
      | .ok l => .ok ((n, ws) :: l)

def forwardIndex (texts : List (List UInt8)) : Except PyErr (List (Nat × List Nat)) := forwardFrom 1 texts

end EulerDB.Oxt
