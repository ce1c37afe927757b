import Verif.Model.Deserializer
/-!
# Well-formed programs
-/
namespace Verif

/-- A deserializer can be created for the type. -/
def Supported (env : Env) (t : Ty) : Prop := ∃ d, compile env t = .ok d

/-- Members of an enumeration have pairwise different values; Python treats a repeated value as an alias, which is not
a member of its own. -/
def EnumDef.Ok (ed : EnumDef) : Prop := ed.members.Pairwise (fun a b => a.2.pyEq b.2 = false)

/-- `__module__` and `__name__` identify classes and enumerations, and names of fields are unique in their class.
(Python allows to break the former, for example by classes defined in functions.) -/
structure Env.Ok (env : Env) : Prop where
  keys : (env.enums.map EnumDef.key ++ env.classes.map ClassDef.key).Nodup
  enums : ∀ ed ∈ env.enums, ed.Ok
  fields : ∀ cd ∈ env.classes, (cd.fields.map (·.name)).Nodup
  setOrder : ∀ l, (env.setOrder l).Perm l

/-- A JSON value as it can exist in Python: the keys of every `dict` are distinct. -/
inductive Json.Wf : Json → Prop
  | null : Json.Wf .null
  | bool {b} : Json.Wf (.bool b)
  | int {i} : Json.Wf (.int i)
  | float {f} : Json.Wf (.float f)
  | str {s} : Json.Wf (.str s)
  | arr {xs} : (∀ x ∈ xs, Json.Wf x) → Json.Wf (.arr xs)
  | obj {kvs} : (kvs.map (·.1)).Nodup → (∀ kv ∈ kvs, Json.Wf kv.2) → Json.Wf (.obj kvs)

end Verif
