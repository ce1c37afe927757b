import Verif.Model.Serializer
import Verif.Model.Deserializer
import Verif.Spec.JsonText
/-!
# Objects stored as JSON text
-/
namespace Verif

/-- `s` is the text of the object. -/
def Stored (env : Env) (io : FloatIO) (v : Val) (s : Str) : Prop :=
  ∃ j, objectToJson env v = .ok j ∧ jsonDumpString io j = .ok s

/-- Reading the text as a value of the type gives the object. -/
def Restored (env : Env) (io : FloatIO) (skip : Bool) (t : Ty) (s : Str) (v : Val) : Prop :=
  ∃ j, jsonLoads io s = .ok j ∧ loads env skip t j = .ok v

/-- A number (`N` tells the documents in which it occurs) occurs in the value, as the value of an enumeration member, or in what a
`to_json` method returns. -/
inductive Holds (env : Env) (N : Json → Prop) : Val → Prop
  | scalar {v s} : v.scalar = some s → N s.toJson → Holds env N v
  | member {e m ed name s} : env.enums[e]? = some ed → ed.members[m]? = some (name, s) → N s.toJson → Holds env N (.enum e m)
  | enumHook {e m ed f j} : ed ∈ env.enums → ed.toJson = some f → f m = .ok j → N j → Holds env N (.enum e m)
  | hook {cd f v j} : cd ∈ env.classes → cd.toJson = some f → f v = .ok j → N j → Holds env N v
  | list {vs v} : v ∈ vs → Holds env N v → Holds env N (.list vs)
  | set {vs v} : v ∈ vs → Holds env N v → Holds env N (.set vs)
  | tuple {vs v} : v ∈ vs → Holds env N v → Holds env N (.tuple vs)
  | dict {kvs kv} : kv ∈ kvs → Holds env N kv.2 → Holds env N (.dict kvs)
  | field {c fs kv} : kv ∈ fs → Holds env N kv.2 → Holds env N (.obj c fs)

/-- The numbers of the value can be written: integers have at most 4300 digits, and floats are read back from their text. -/
structure Storable (env : Env) (io : FloatIO) (v : Val) : Prop where
  ints : ∀ i, Holds env (Json.HasInt i) v → i.natAbs < 10 ^ 4300
  floats : ∀ neg m e, Holds env (Json.HasFloat (.fin neg m e)) v → io.Faithful (.fin neg m e)

/-- `object_to_json` and `json_dump` for each object in turn: the content of the file. -/
def dumpAll (env : Env) (io : FloatIO) : List Val → Str → Res Str
  | [], file => .ok file
  | v :: vs, file => match objectToJson env v with
    | .error e => .error e
    | .ok j => match jsonDump io j file with
      | .error e => .error e
      | .ok file' => dumpAll env io vs file'

end Verif
