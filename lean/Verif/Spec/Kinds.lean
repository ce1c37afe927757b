import Verif.Model.Core
/-!
# Kinds of JSON values and the values of floats
-/
namespace Verif

/-- Kinds of JSON values as Python sees them; numbers are split into integers and floats. -/
inductive Kind where
  | null | bool | int | float | str | arr | obj
  deriving DecidableEq, Repr

/-- Kind of a JSON value. -/
def Json.kind : Json → Kind
  | .null => .null
  | .bool _ => .bool
  | .int _ => .int
  | .float _ => .float
  | .str _ => .str
  | .arr _ => .arr
  | .obj _ => .obj

/-- The scalar types. -/
def scalarTys : List Ty :=
  [.none, .bool, .int, .float, .str, .bytes, .datetime, .date, .time, .timedelta, .uuid, .ipv4, .ipv6]

/-- JSON kinds that the documentation maps to a scalar type (docstring of `create_deserializer` and of the deserializer
classes). -/
def documentedKinds : Ty → List Kind
  | .none => [.null]
  | .bool => [.bool]
  | .int => [.int]
  | .float => [.int, .float]
  | _ => [.str]

/-- The float `f` is the number `i`. -/
def FloatIs (f : PyFloat) (i : Int) : Prop :=
  ∃ (neg : Bool) (m k : Nat), f = .fin neg m k ∧ (if neg then -(m * 2 ^ k : Int) else m * 2 ^ k) = i

end Verif
