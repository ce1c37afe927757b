import Verif.Model.Basic
/-!
# Floating-point numbers

Python `float` (IEEE 754 binary64) as exact binary fractions.
-/
namespace Verif

/-- A Python `float`.  `fin neg m e` is `(-1)^neg * m * 2^e`; the canonical form has `m` odd, or `m = 0` and `e = 0`. -/
inductive PyFloat where
  | nan
  | inf (neg : Bool)
  | fin (neg : Bool) (m : Nat) (e : Int)
  deriving DecidableEq, Repr

/-- Removes factors of two from `m` (canonical form); `m` steps of fuel suffice. -/
def oddPart : Nat → Nat → Nat → Nat × Nat
  | 0, m, e => (m, e)
  | f + 1, m, e => if m % 2 = 0 then oddPart f (m / 2) (e + 1) else (m, e)

/-- The canonical float with the exact value `± m * 2^e`, `m < 2^54`. -/
def mkFin (neg : Bool) (m e : Nat) : PyFloat :=
  if m = 0 then .fin neg 0 0 else .fin neg (oddPart 64 m e).1 (oddPart 64 m e).2

/-- Division by `2^k` rounded to the nearest integer, ties to even. -/
def roundShift (n k : Nat) : Nat :=
  let q := n / 2 ^ k
  let r := n % 2 ^ k
  if 2 * r < 2 ^ k ∨ (2 * r = 2 ^ k ∧ q % 2 = 0) then q else q + 1

/-- Python `float(i)` for an integer: rounding to the nearest binary64 number, ties to even; `OverflowError` if the
rounded number is not representable (CPython `PyLong_AsDouble`). -/
def intToFloat (i : Int) : Res PyFloat :=
  let n := i.natAbs
  let len := Nat.log2 n + 1
  if n < 2 ^ 53 then .ok (mkFin (i < 0) n 0)
  else
    let q := roundShift n (len - 53)
    if 2 ^ 1024 ≤ q * 2 ^ (len - 53) then .error .overflow
    else .ok (mkFin (i < 0) q (len - 53))

/-- Python `==` on two floats (canonical forms). -/
def floatEq : PyFloat → PyFloat → Bool
  | .inf a, .inf b => a = b
  | .fin a m e, .fin b n f => (m = 0 && n = 0) || (a = b && m = n && e = f)
  | _, _ => false

/-- Python `==` of a float (canonical form) and an integer: exact comparison. -/
def floatEqInt : PyFloat → Int → Bool
  | .fin neg m e, i =>
    if m = 0 then i = 0
    else if e < 0 then false
    else (if neg then -(m * 2 ^ e.toNat : Int) else m * 2 ^ e.toNat) = i
  | _, _ => false

end Verif
