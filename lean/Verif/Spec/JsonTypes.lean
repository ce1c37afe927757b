import Verif.Spec.ClassBuild
import Verif.Spec.Annotations
import Verif.Spec.Env
/-!
# JSON values as Python objects
-/
namespace Verif

mutual
/-- The Python object that represents a JSON value (what `json.loads` returns). -/
def Json.asVal : Json → Val
  | .null => .none
  | .bool b => .bool b
  | .int i => .int i
  | .float f => .float f
  | .str s => .str s
  | .arr xs => .list (Json.asVals xs)
  | .obj kvs => .dict (Json.asPairs kvs)
/-- Items. -/
def Json.asVals : List Json → List Val
  | [] => []
  | x :: xs => x.asVal :: Json.asVals xs
/-- Properties. -/
def Json.asPairs : List (Str × Json) → List (Key × Val)
  | [] => []
  | (k, x) :: r => (.str k, x.asVal) :: Json.asPairs r
end

/-- There is a `null` in the JSON value. -/
def Json.HasNull (j : Json) : Prop := Json.Within .null j

/-- There is a whole number in the JSON value, written as an integer or as a float (such as `1.0`). -/
def Json.HasWhole (j : Json) : Prop := ∃ x i, Json.Within x j ∧ Json.IsInt x i

end Verif
