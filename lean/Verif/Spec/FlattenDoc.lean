import Verif.Spec.SameDoc
import Verif.Spec.Flatten
/-!
# Schemas as trees of objects and leaves
-/
namespace Verif

/-- The schema is of type `object`. -/
def objectType (kvs : List (Str × Json)) : Bool :=
  match lookupKey c!"type" kvs with
  | some (.str s) => s = c!"object"
  | _ => false

/-- The keywords that flattening changes. -/
def flatKeywords : List Str := [c!"properties", c!"additionalProperties", c!"required"]

/-- The keywords that flattening copies. -/
def otherKeywords (kvs : List (Str × Json)) : List (Str × Json) := kvs.filter fun p => p.1 ∉ flatKeywords

/-- A truth value. -/
def truthValue : Option Json → Option Bool
  | some (.bool b) => some b
  | _ => none

/-- A list of texts. -/
def textList : Option Json → Option (List Str)
  | some (.arr xs) => some (xs.filterMap fun x => match x with | .str s => some s | _ => none)
  | _ => none

mutual
/-- A schema as a tree. -/
def docNode : Json → SNode
  | .obj kvs =>
    if objectType kvs then
      .object (docProps kvs) (truthValue (lookupKey c!"additionalProperties" kvs)) (textList (lookupKey c!"required" kvs))
        (.obj (otherKeywords kvs))
    else .leaf (.obj kvs)
  | j => .leaf j
/-- The keyword `properties`. -/
def docProps : List (Str × Json) → Option (List (Str × SNode))
  | [] => none
  | (k, x) :: r => if k = c!"properties" then docDict x else docProps r
/-- An object whose values are schemas. -/
def docDict : Json → Option (List (Str × SNode))
  | .obj kvs => some (docNodes kvs)
  | _ => none
/-- Schemas with their names. -/
def docNodes : List (Str × Json) → List (Str × SNode)
  | [] => []
  | (k, x) :: r => (k, docNode x) :: docNodes r
end

/-- Two trees say the same: leaves and other keywords say the same, and the rest is identical. -/
inductive SameNode : SNode → SNode → Prop
  | leaf {a b} : SameDoc false false a b → SameNode (.leaf a) (.leaf b)
  | none {a r x y} : SameRecord false false x y → SameNode (.object none a r (.obj x)) (.object none a r (.obj y))
  | some {l l' a r x y} : l.map Prod.fst = l'.map Prod.fst →
      (∀ (i : Nat) n m, l[i]? = some n → l'[i]? = some m → SameNode n.2 m.2) → SameRecord false false x y →
      SameNode (.object (some l) a r (.obj x)) (.object (some l') a r (.obj y))

/-- The schema has a property with this name and schema. -/
def HasProperty (j : Json) (name : Str) (x : Json) : Prop :=
  ∃ kvs xs, j = .obj kvs ∧ lookupKey c!"properties" kvs = some (.obj xs) ∧ (name, x) ∈ xs

/-- The schema requires the property. -/
def Requires (j : Json) (name : Str) : Prop :=
  ∃ kvs xs, j = .obj kvs ∧ lookupKey c!"required" kvs = some (.arr xs) ∧ Json.str name ∈ xs

end Verif
