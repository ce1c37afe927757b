import Verif.Model.Basic
/-!
# Byte strings

`BytesSerializer` (strong_typing/serializer.py:78-80) calls `base64.b64encode`; `BytesDeserializer`
(strong_typing/deserializer.py:143-149) calls `base64.b64decode(data, validate=True)`.  Both are modelled after CPython 3.11:
`base64.py:58-88` and the C function `binascii.a2b_base64` in strict mode.
-/
namespace Verif

/-- A byte of a Python `bytes` object. -/
abbrev Byte := Fin 256

/-- Byte with the value `n` modulo 256 (C cast to `unsigned char`). -/
def byte (n : Nat) : Byte := ⟨n % 256, Nat.mod_lt _ (by decide)⟩

/-- `table_b2a_base64`. -/
def b64Char (v : Nat) : Char :=
  if v < 26 then Char.ofNat (65 + v)
  else if v < 52 then Char.ofNat (97 + (v - 26))
  else if v < 62 then Char.ofNat (48 + (v - 52))
  else if v = 62 then '+' else '/'

/-- `table_a2b_base64`; `none` for characters outside the alphabet. -/
def b64Val (c : Char) : Option Nat :=
  let n := c.toNat
  if 65 ≤ n ∧ n ≤ 90 then some (n - 65)
  else if 97 ≤ n ∧ n ≤ 122 then some (n - 97 + 26)
  else if 48 ≤ n ∧ n ≤ 57 then some (n - 48 + 52)
  else if n = 43 then some 62
  else if n = 47 then some 63
  else none

/-- `base64.b64encode(data).decode("ascii")`, serializer.py:80. -/
def b64Encode : List Byte → Str
  | [] => []
  | [a] => [b64Char (a / 4), b64Char (a % 4 * 16), '=', '=']
  | [a, b] => [b64Char (a / 4), b64Char (a % 4 * 16 + b / 16), b64Char (b % 16 * 4), '=']
  | a :: b :: c :: r =>
    b64Char (a / 4) :: b64Char (a % 4 * 16 + b / 16) :: b64Char (b % 16 * 4 + c / 64) :: b64Char (c % 64) :: b64Encode r

/-- The loop of `binascii.a2b_base64(s, strict_mode=True)`: `quad` is the position in the group of four, `left` the
bits carried over, `pads` the number of padding characters seen, `started` whether padding has started.  Padding
characters after a complete group of four are skipped, as in CPython 3.11 (later versions reject them).
Every error is a `binascii.Error`, a subclass of `ValueError`. -/
def b64Loop : Nat → Nat → Nat → Bool → Str → Res (List Byte)
  | quad, _, _, _, [] => if quad ≠ 0 then .error .valueError else .ok []
  | quad, left, pads, started, c :: r =>
    if c = '=' then
      if 2 ≤ quad ∧ 4 ≤ quad + (pads + 1) then (if r ≠ [] then .error .valueError else .ok [])
      else b64Loop quad left (if 2 ≤ quad then pads + 1 else pads) true r
    else
      match b64Val c with
      | none => .error .valueError
      | some v =>
        if started then .error .valueError
        else match quad with
          | 0 => b64Loop 1 v 0 started r
          | 1 => (b64Loop 2 (v % 16) 0 started r).map (byte (left * 4 + v / 16) :: ·)
          | 2 => (b64Loop 3 (v % 4) 0 started r).map (byte (left * 16 + v / 4) :: ·)
          | _ => (b64Loop 0 0 0 started r).map (byte (left * 64 + v) :: ·)

/-- `base64.b64decode(data, validate=True)` on a `str`, deserializer.py:149.  A padding character in front is rejected.
Non-ASCII characters raise `ValueError` before decoding; the loop raises the same class for them. -/
def b64Decode (s : Str) : Res (List Byte) :=
  if s.head? = some '=' then .error .valueError else b64Loop 0 0 0 false s

end Verif
