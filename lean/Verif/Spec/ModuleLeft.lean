import Verif.Spec.ModuleTypes
import Verif.Spec.Buildable
/-!
# Schemas for which no class and no enumeration is made
-/
namespace Verif

/-- There are no objects and no enumerations in the schema. -/
def MakesNothing (s : Json) : Prop :=
  ∀ kvs, (Json.obj kvs).Within s → ¬ HasType c!"object" kvs ∧ Absent c!"enum" kvs

/-- There are no definitions, and no objects and enumerations among the properties. -/
def FlatDocument (schema : Json) : Prop :=
  schemaDefs schema = [] ∧ ∀ kvs xs, schema = .obj kvs → lookupKey c!"properties" kvs = some (.obj xs) → ∀ x ∈ xs, MakesNothing x.2

end Verif
