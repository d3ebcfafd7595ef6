import Verif.Aes.Base64

/-!
# The AES string cipher (scheduler/crypto/encrypt.py 157-189)

The block cipher is a parameter: any pair of functions on 16-byte blocks with `D (E b) = b`.
So the theorems hold for AES-256 under every key (`key = sha256(passphrase)`, line 162), and for any other block cipher.
-/

namespace EulerDB.Aes

open EulerDB

/-- AES under one key (encrypt.py 161-162; package `cryptography`): a permutation of the 16-byte blocks. -/
structure Block where
  E : List UInt8 → List UInt8
  D : List UInt8 → List UInt8
  E_length : ∀ b, b.length = 16 → (E b).length = 16
  D_E : ∀ b, b.length = 16 → D (E b) = b

/-- `str.encode('utf8')`.  `Char` has no surrogates, so encoding cannot fail; a Python string with a lone surrogate is rejected
by `encode` and is outside the model. -/
def utf8 (s : List Char) : List UInt8 := s.flatMap String.utf8EncodeChar

/-- `bytes.decode('utf8')`. -/
def utf8Decode (bs : List UInt8) : Except PyErr (List Char) :=
  match bs.toByteArray.utf8Decode? with
  | some a => .ok a.toList
  | none => .error .unicodeError

/-- `AESCipher.pad`, encrypt.py 165-171 (`BLOCK_SIZE = 16`, line 29). -/
def zeroPad (bs : List UInt8) : List UInt8 :=
  if bs.length % 16 ≠ 0 then bs ++ List.replicate (16 - bs.length % 16) 0
  else bs ++ List.replicate 0 0

/-- `str.rstrip("\0")`. -/
def rstripNul (s : List Char) : List Char := (s.reverse.dropWhile (· = '\x00')).reverse

/-- ECB on the first `n` blocks. -/
def ecbBlocks (f : List UInt8 → List UInt8) : Nat → List UInt8 → List UInt8
  | 0, _ => []
  | n + 1, bs => f (bs.take 16) ++ ecbBlocks f n (bs.drop 16)

/-- `cipher.update(x) + cipher.finalize()` in ECB mode: ValueError when the length is no multiple of 16. -/
def ecb (f : List UInt8 → List UInt8) (bs : List UInt8) : Except PyErr (List UInt8) :=
  if bs.length % 16 ≠ 0 then .error .valueError else .ok (ecbBlocks f (bs.length / 16) bs)

/-- `AESCipher.encrypt`, encrypt.py 177-182. -/
def encrypt (A : Block) (raw : List Char) : Except PyErr (List Char) :=
  match ecb A.E (zeroPad (utf8 raw)) with
  | .error e => .error e
  | .ok c => .ok (b64encode c)

/-- `AESCipher.unpad`, encrypt.py 173-175. -/
def unpad (bs : List UInt8) : Except PyErr (List Char) :=
  match utf8Decode bs with
  | .error e => .error e
  | .ok s => .ok (rstripNul s)

/-- `AESCipher.decrypt`, encrypt.py 184-189. -/
def decrypt (A : Block) (enc : List Char) : Except PyErr (List Char) :=
  match b64decode enc with
  | .error e => .error e
  | .ok c =>
    match ecb A.D c with
    | .error e => .error e
    | .ok m => unpad m

/-- `get_type_and_len` for `char` and `varchar`, schema/metadata.py 44-51: the type and width of the symmetric column.
`isChar` says whether the declared type is `char`; the result says the same of the generated type. -/
def typeAndLen (isChar : Bool) (t : Nat) : Bool × Nat :=
  let i := if (t / 16 + 1) % 3 = 0 then 0 else 1
  let n := (((t / 16 + 1) * 16) / 3 + i) * 4
  (if n > 254 then false else isChar, n)

end EulerDB.Aes
