import Verif.Py

/-!
# Base 64 as in Python's `base64` module

`b64encode` and `b64decode` (both used with default arguments in scheduler/crypto/encrypt.py 16-17, 179, 182).
The decoder follows CPython's `binascii.a2b_base64` in non-strict mode: characters outside the alphabet are skipped, and a
completed padding sequence ends the input.
-/

namespace EulerDB.Aes

open EulerDB

/-- The base 64 alphabet. -/
def alphabet : List Char :=
  "ABCDEFGHIJKLMNOPQRSTUVWXYZabcdefghijklmnopqrstuvwxyz0123456789+/".toList

/-- The character of a 6-bit number. -/
def b64Char (n : Nat) : Char := alphabet.getD n '?'

/-- The 6-bit number of a character of the alphabet. -/
def b64Val (c : Char) : Option Nat := alphabet.idxOf? c

/-- `base64.b64encode(bytes).decode('utf8')`. -/
def b64encode : List UInt8 → List Char
  | [] => []
  | [a] => [b64Char (a.toNat / 4), b64Char (a.toNat % 4 * 16), '=', '=']
  | [a, b] => [b64Char (a.toNat / 4), b64Char (a.toNat % 4 * 16 + b.toNat / 16), b64Char (b.toNat % 16 * 4), '=']
  | a :: b :: c :: r =>
    b64Char (a.toNat / 4) :: b64Char (a.toNat % 4 * 16 + b.toNat / 16) ::
      b64Char (b.toNat % 16 * 4 + c.toNat / 64) :: b64Char (c.toNat % 64) :: b64encode r

/-- The loop of `binascii.a2b_base64`: position in the group of four, left-over bits, number of pads seen. -/
def b64loop : List Char → Nat → Nat → Nat → Except PyErr (List UInt8)
  | [], q, _, _ => if q = 0 then .ok [] else .error .valueError
  | c :: r, q, left, pads =>
    if c = '=' then
      if 2 ≤ q ∧ 4 ≤ q + (pads + 1) then .ok []
      else b64loop r q left (if 2 ≤ q then pads + 1 else pads)
    else
      match b64Val c with
      | none => b64loop r q left pads
      | some v =>
        match q with
        | 0 => b64loop r 1 v 0
        | 1 =>
          match b64loop r 2 (v % 16) 0 with
          | .error e => .error e
          | .ok bs => .ok (UInt8.ofNat (left * 4 + v / 16) :: bs)
        | 2 =>
          match b64loop r 3 (v % 4) 0 with
          | .error e => .error e
          | .ok bs => .ok (UInt8.ofNat (left * 16 + v / 4) :: bs)
        | _ =>
          match b64loop r 0 0 0 with
          | .error e => .error e
          | .ok bs => .ok (UInt8.ofNat (left * 64 + v) :: bs)

/-- `base64.b64decode(str)`: a string with a non-ASCII character is refused (`_bytes_from_decode_data`). -/
def b64decode (s : List Char) : Except PyErr (List UInt8) :=
  if s.any (fun c => decide (128 ≤ c.toNat)) then .error .valueError else b64loop s 0 0 0

/-! ### Lemmas -/

theorem b64Char_facts : ∀ n : Fin 64, b64Val (b64Char n.1) = some n.1 ∧ b64Char n.1 ≠ '=' ∧
    (b64Char n.1).toNat < 128 ∧ b64Char n.1 ≠ '%' ∧ b64Char n.1 ≠ '_' ∧ b64Char n.1 ≠ '\\' ∧ b64Char n.1 ≠ '\'' := by
  decide +kernel

theorem b64loop_char {n : Nat} (hn : n < 64) (r : List Char) (q left pads : Nat) :
    b64loop (b64Char n :: r) q left pads =
      (match q with
        | 0 => b64loop r 1 n 0
        | 1 =>
          match b64loop r 2 (n % 16) 0 with
          | .error e => .error e
          | .ok bs => .ok (UInt8.ofNat (left * 4 + n / 16) :: bs)
        | 2 =>
          match b64loop r 3 (n % 4) 0 with
          | .error e => .error e
          | .ok bs => .ok (UInt8.ofNat (left * 16 + n / 4) :: bs)
        | _ =>
          match b64loop r 0 0 0 with
          | .error e => .error e
          | .ok bs => .ok (UInt8.ofNat (left * 64 + n) :: bs)) := by
  have h := b64Char_facts ⟨n, hn⟩
  simp only at h
  conv_lhs => unfold b64loop
  rw [if_neg h.2.1, h.1]

theorem ofNat_toNat_eq (a : UInt8) (n : Nat) (h : n = a.toNat) : UInt8.ofNat n = a := by
  subst h; exact UInt8.ofNat_toNat

theorem b64loop_encode : ∀ bs : List UInt8, b64loop (b64encode bs) 0 0 0 = .ok bs
  | [] => by simp [b64encode, b64loop]
  | [a] => by
    have ha := a.toNat_lt
    unfold b64encode
    rw [b64loop_char (by omega)]
    simp only
    rw [b64loop_char (by omega)]
    simp only
    rw [b64loop, if_pos rfl, if_neg (by omega), b64loop, if_pos rfl, if_pos (by simp)]
    simp only
    rw [ofNat_toNat_eq a _ (by omega)]
  | [a, b] => by
    have ha := a.toNat_lt
    have hb := b.toNat_lt
    unfold b64encode
    rw [b64loop_char (by omega)]
    simp only
    rw [b64loop_char (by omega)]
    simp only
    rw [b64loop_char (by omega)]
    simp only
    rw [b64loop, if_pos rfl, if_pos (by omega)]
    simp only
    rw [ofNat_toNat_eq a _ (by omega), ofNat_toNat_eq b _ (by omega)]
  | a :: b :: c :: r => by
    have ha := a.toNat_lt
    have hb := b.toNat_lt
    have hc := c.toNat_lt
    unfold b64encode
    rw [b64loop_char (by omega)]
    simp only
    rw [b64loop_char (by omega)]
    simp only
    rw [b64loop_char (by omega)]
    simp only
    rw [b64loop_char (by omega)]
    simp only [b64loop_encode r]
    rw [ofNat_toNat_eq a _ (by omega), ofNat_toNat_eq b _ (by omega), ofNat_toNat_eq c _ (by omega)]

/-- Every character of an encoding is of the alphabet or the pad. -/
theorem b64encode_mem : ∀ (bs : List UInt8) (c : Char), c ∈ b64encode bs → c = '=' ∨ ∃ n, n < 64 ∧ c = b64Char n
  | [], c, h => by simp [b64encode] at h
  | [a], c, h => by
    have ha := a.toNat_lt
    simp only [b64encode, List.mem_cons, List.not_mem_nil, or_false] at h
    rcases h with h | h | h | h
    · exact Or.inr ⟨_, by omega, h⟩
    · exact Or.inr ⟨_, by omega, h⟩
    · exact Or.inl h
    · exact Or.inl h
  | [a, b], c, h => by
    have ha := a.toNat_lt
    have hb := b.toNat_lt
    simp only [b64encode, List.mem_cons, List.not_mem_nil, or_false] at h
    rcases h with h | h | h | h
    · exact Or.inr ⟨_, by omega, h⟩
    · exact Or.inr ⟨_, by omega, h⟩
    · exact Or.inr ⟨_, by omega, h⟩
    · exact Or.inl h
  | a :: b :: d :: r, c, h => by
    have ha := a.toNat_lt
    have hb := b.toNat_lt
    have hd := d.toNat_lt
    simp only [b64encode, List.mem_cons] at h
    rcases h with h | h | h | h | h
    · exact Or.inr ⟨_, by omega, h⟩
    · exact Or.inr ⟨_, by omega, h⟩
    · exact Or.inr ⟨_, by omega, h⟩
    · exact Or.inr ⟨_, by omega, h⟩
    · exact b64encode_mem r c h

theorem b64encode_ascii (bs : List UInt8) (c : Char) (h : c ∈ b64encode bs) : c.toNat < 128 := by
  rcases b64encode_mem bs c h with rfl | ⟨n, hn, rfl⟩
  · decide
  · exact (b64Char_facts ⟨n, hn⟩).2.2.1

/-- Decoding inverts encoding. -/
theorem b64decode_encode (bs : List UInt8) : b64decode (b64encode bs) = .ok bs := by
  unfold b64decode
  rw [if_neg, b64loop_encode]
  simp only [List.any_eq_true, decide_eq_true_eq, not_exists, not_and, Nat.not_le]
  exact fun c hc => b64encode_ascii bs c hc

theorem b64encode_inj {a b : List UInt8} (h : b64encode a = b64encode b) : a = b := by
  have ha := b64loop_encode a
  rw [h, b64loop_encode b] at ha
  injection ha with ha
  exact ha.symm

theorem b64encode_length : ∀ bs : List UInt8, (b64encode bs).length = 4 * ((bs.length + 2) / 3)
  | [] => by simp [b64encode]
  | [a] => by simp [b64encode]
  | [a, b] => by simp [b64encode]
  | a :: b :: c :: r => by
    simp only [b64encode, List.length_cons, b64encode_length r]
    omega

end EulerDB.Aes
