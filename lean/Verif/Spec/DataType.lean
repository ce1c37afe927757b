import Verif.Model.DataType
import Verif.Spec.NoType
import Verif.Spec.Typing
import Verif.Model.Serializer
/-!
# Specification: declarations of data classes
-/
namespace Verif

/-- Names of fields that a data class can have: identifiers that are not keywords, all different. -/
structure FieldNames (cfg : BuildCfg) (fields : List (Str × Ty)) : Prop where
  names : ∀ f ∈ fields, ¬ BadName cfg f.1
  distinct : (fields.map (·.1)).Nodup

/-- No field has a name that starts with two underscores. -/
def NoDunder (ds : List (Str × List (Str × Ty))) : Prop := ∀ d ∈ ds, ∀ f ∈ d.2, isDunderName f.1 = false

/-- A declaration of a class that can be made. -/
def Declarable (cfg : BuildCfg) (d : Str × List (Str × Ty)) : Prop := FieldNames cfg d.2 ∧ '\x00' ∉ d.1

/-- Fields that are written under different names, none of which is `None` without being optional. -/
structure PlainFields (env : Env) (fields : List (Str × Ty)) : Prop where
  distinct : (fields.map fun f => fieldToProperty f.1 f.2.alias).Nodup
  optional : ∀ f ∈ fields, HasTy env .none f.2 → f.2.isOptional = true

/-- There are serializers for the types of the fields of each class, in the program that has the classes declared before it. -/
def SerializableFields (env : Env) (ds : List (Str × List (Str × Ty))) : Prop :=
  ∀ pre d post, ds = pre ++ d :: post → ∀ f ∈ d.2,
    serCreate { env with classes := env.classes ++ pre.map fun d => dataTypeOf d.1 d.2 } f.2 = .ok ()

end Verif
