import Verif.Spec.JsonSchema
/-!
# What annotations say about a number or text
-/
namespace Verif

/-- The last value that a function gives on a list. -/
def lastSome (f : α → Option β) : List α → Option β
  | [] => none
  | x :: xs => match lastSome f xs with | some b => some b | none => f x

/-- Bounds in an annotation. -/
def Meta.range? : Meta → Option (Int × Int)
  | .intRange lo hi => some (lo, hi)
  | _ => none

/-- Significant and decimal digits in an annotation. -/
def Meta.precision? : Meta → Option (Nat × Nat)
  | .precision s d => some (s, d)
  | _ => none

/-- Least length in an annotation. -/
def Meta.minLength? : Meta → Option Nat
  | .minLength n => some n
  | _ => none

/-- Greatest length in an annotation. -/
def Meta.maxLength? : Meta → Option Nat
  | .maxLength n => some n
  | _ => none

/-- The JSON value is a number. -/
def Json.IsNumber : Json → Prop
  | .int _ | .float _ => True
  | _ => False

/-- The JSON value is the number `i`, written as an integer or as a float. -/
def Json.IsInt (v : Json) (i : Int) : Prop :=
  v = .int i ∨ ∃ f a b, v = .float f ∧ f.frac = some (a, b) ∧ a = i * b

end Verif
