import Verif.Aes.Model
import Verif.Aes.Base64

/-!
# The byte ciphers of scheduler/crypto/encrypt.py: AESCrypto, SM4CipherBytes, AESCipherBytes

A Python value handed to them is text or bytes (`Data`).
-/

namespace EulerDB.Bytes

open EulerDB EulerDB.Aes

/-- A `str` or a `bytes` object. -/
inductive Data where
  | str (s : List Char)
  | bytes (b : List UInt8)
  deriving DecidableEq, Repr

/-- `if not isinstance(data, bytes): data = data.encode()`, encrypt.py 106-107, 117-118, 131-132, 199-203. -/
def Data.raw : Data → List UInt8
  | .str s => utf8 s
  | .bytes b => b

/-! ## AESCrypto: CBC with a fixed key and IV -/

/-- Byte-wise exclusive or. -/
def xor (a b : List UInt8) : List UInt8 := List.zipWith (· ^^^ ·) a b

/-- `padding.PKCS7(128).padder()` with update and finalize, encrypt.py 105-113. -/
def pkcs7 (b : List UInt8) : List UInt8 := b ++ List.replicate (16 - b.length % 16) (UInt8.ofNat (16 - b.length % 16))

/-- CBC encryption of the first `n` blocks. -/
def cbcEnc (E : List UInt8 → List UInt8) : Nat → List UInt8 → List UInt8 → List UInt8
  | 0, _, _ => []
  | n + 1, iv, b =>
    let c := E (xor iv (b.take 16))
    c ++ cbcEnc E n c (b.drop 16)

/-- CBC decryption of the first `n` blocks. -/
def cbcDec (D : List UInt8 → List UInt8) : Nat → List UInt8 → List UInt8 → List UInt8
  | 0, _, _ => []
  | n + 1, iv, c => xor iv (D (c.take 16)) ++ cbcDec D n (c.take 16) (c.drop 16)

/-- `cbc_encrypt`, encrypt.py 116-127.  `encryptor.update` emits the complete blocks; there is no `finalize`. -/
def cbcEncrypt (A : Block) (iv : List UInt8) (d : Data) : List UInt8 :=
  let p := pkcs7 d.raw
  cbcEnc A.E (p.length / 16) iv p

/-- `pkcs7_unpadding`, encrypt.py 145-154 (package `cryptography`): the length must be a positive multiple of 16, the last byte `k` in 1..16 and the last `k`
bytes equal to it; otherwise `finalize` raises ValueError, which becomes a plain Exception. -/
def unpkcs7 (p : List UInt8) : Except PyErr (List UInt8) :=
  match p.getLast? with
  | none => .error .generic
  | some k =>
    if p.length % 16 = 0 ∧ 1 ≤ k.toNat ∧ k.toNat ≤ 16 ∧ p.drop (p.length - k.toNat) = List.replicate k.toNat k then
      .ok (p.take (p.length - k.toNat))
    else .error .generic

/-- `cbc_decrypt`, encrypt.py 130-142: `decryptor.update` decrypts the complete blocks and keeps the rest back; the bytes are decoded as UTF-8. -/
def cbcDecrypt (A : Block) (iv : List UInt8) (d : Data) : Except PyErr (List Char) :=
  match unpkcs7 (cbcDec A.D (d.raw.length / 16) iv d.raw) with
  | .error e => .error e
  | .ok b => utf8Decode b

/-! ## AESCipherBytes -/

/-- `pad`, encrypt.py 31, on text: counts characters. -/
def padText (s : List Char) : List Char := s ++ List.replicate (16 - s.length % 16) (Char.ofNat (16 - s.length % 16))

/-- `unpad`, encrypt.py 32, on bytes: `s[:-ord(s[-1:])]`.  `ord(b'')` raises TypeError; `s[:-0]` is empty. -/
def unpadBytes (b : List UInt8) : Except PyErr (List UInt8) :=
  match b.getLast? with
  | none => .error .typeError
  | some k => .ok (if k.toNat = 0 then [] else b.take (b.length - k.toNat))

/-- `AESCipherBytes.encrypt`, encrypt.py 223-230. -/
def bytesEncrypt (A : Block) (d : Data) : Except PyErr (List UInt8) :=
  let raw := match d with | .str s => s | .bytes b => b64encode b
  ecb A.E (utf8 (padText raw))

/-- `b64decode` of bytes: bytes above 127 are outside the alphabet and skipped like any other. -/
def b64decodeBytes (b : List UInt8) : Except PyErr (List UInt8) := b64loop (b.map fun x => Char.ofNat x.toNat) 0 0 0

/-- `AESCipherBytes.decrypt`, encrypt.py 232-236; the result is bytes. -/
def bytesDecrypt (A : Block) (c : List UInt8) : Except PyErr Data :=
  match ecb A.D c with
  | .error e => .error e
  | .ok m =>
    match unpadBytes m with
    | .error e => .error e
    | .ok p =>
      match b64decodeBytes p with
      | .error e => .error e
      | .ok b => .ok (.bytes b)

/-! ## SM4CipherBytes -/

/-- SM4 in ECB mode with its padding, as gmssl provides it under one key. -/
structure Sm4 where
  enc : List UInt8 → List UInt8
  dec : List UInt8 → List UInt8
  dec_enc : ∀ b, dec (enc b) = b

/-- The hexadecimal digit of a number below 16, as `bytes.hex` prints it. -/
def hexDigit (n : Nat) : Char := "0123456789abcdef".toList.getD n '?'

/-- `bytes.hex()`. -/
def hex (b : List UInt8) : List Char := b.flatMap fun x => [hexDigit (x.toNat / 16), hexDigit (x.toNat % 16)]

/-- The value of a hexadecimal digit (both cases). -/
def hexVal (c : Char) : Option Nat :=
  match "0123456789abcdef".toList.idxOf? c with
  | some n => some n
  | none => "0123456789ABCDEF".toList.idxOf? c

/-- ASCII whitespace, which `bytes.fromhex` skips between pairs. -/
def isSpace (c : Char) : Bool := c = ' ' || c = '\t' || c = '\n' || c = '\r' || c = '\x0b' || c = '\x0c'

/-- `bytes.fromhex(str)`. -/
def fromhex : List Char → Except PyErr (List UInt8)
  | [] => .ok []
  | [c] => if isSpace c then .ok [] else .error .valueError
  | c :: d :: r =>
    if isSpace c then fromhex (d :: r)
    else
      match hexVal c, hexVal d with
      | some a, some b =>
        match fromhex r with
        | .error e => .error e
        | .ok bs => .ok (UInt8.ofNat (16 * a + b) :: bs)
      | _, _ => .error .valueError

/-- `SM4CipherBytes.encrypt`, encrypt.py 198-206, on text or bytes (another value is first turned into its `str`). -/
def sm4Encrypt (S : Sm4) (d : Data) : List Char := hex (S.enc d.raw)

/-- `SM4CipherBytes.decrypt`, encrypt.py 208-215. -/
def sm4Decrypt (S : Sm4) (d : Data) : Except PyErr (List Char) :=
  match d with
  | .bytes b => utf8Decode (S.dec b)
  | .str s =>
    match fromhex s with
    | .error e => .error e
    | .ok b => utf8Decode (S.dec b)

end EulerDB.Bytes
