import Verif.Model.Core
/-!
# Objects that cannot be members of a set
-/
namespace Verif

/-- Lists, dictionaries, sets, instances of data classes that are not frozen, and tuples, named tuples and instances of frozen data
classes with such a member. -/
inductive Unhashable (env : Env) : Val → Prop
  | list {vs} : Unhashable env (.list vs)
  | dict {kvs} : Unhashable env (.dict kvs)
  | set {vs} : Unhashable env (.set vs)
  | mutable {c cd fs} : env.classes[c]? = some cd → cd.kind = .dataclass false → Unhashable env (.obj c fs)
  | tuple {vs v} : v ∈ vs → Unhashable env v → Unhashable env (.tuple vs)
  | member {c cd fs n v} : env.classes[c]? = some cd → cd.kind ≠ .plain → (n, v) ∈ fs → Unhashable env v → Unhashable env (.obj c fs)

end Verif
