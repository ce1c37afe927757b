import Verif.Spec.Env
import Verif.Spec.DateTime
import Verif.Spec.All2
import Verif.Props.C09_Ip
/-!
# When a Python value is a value of a type

Stated by recursion on values and types, independently of serializers and deserializers.  `bool` is not regarded as a
subtype of `int`.
-/
namespace Verif

/-- Dictionary keys of a key type. -/
def KeyHasTy (env : Env) : Key → KeyTy → Prop
  | .str _, .str => True
  | .enum e m, .enum f => e = f ∧ ∃ ed, env.enums[e]? = some ed ∧ m < ed.members.length
  | _, _ => False

/-- `v` is a value of type `t`: the values that Python can represent, containers with members of the declared types,
sets and dictionaries with distinct hashable members or keys, enumeration members that exist, class instances with all
annotated attributes. -/
inductive HasTy (env : Env) : Val → Ty → Prop
  | none : HasTy env .none .none
  | bool {b} : HasTy env (.bool b) .bool
  | int {i} : HasTy env (.int i) .int
  | float {f} : HasTy env (.float f) .float
  | str {s} : HasTy env (.str s) .str
  | bytes {b} : HasTy env (.bytes b) .bytes
  | datetime {d} : d.Valid → HasTy env (.datetime d) .datetime
  | date {d} : d.Valid → HasTy env (.date d) .date
  | time {t} : t.Valid → HasTy env (.time t) .time
  | timedelta {d} : d.Valid → HasTy env (.timedelta d) .timedelta
  | uuid {n} : n < 2 ^ 128 → HasTy env (.uuid n) .uuid
  | ipv4 {n} : n < 2 ^ 32 → HasTy env (.ipv4 n) .ipv4
  | ipv6 {n s} : n < 2 ^ 128 → ValidScope s → HasTy env (.ipv6 n s) .ipv6
  | bareList {vs} : HasTy env (.list vs) .bareList
  | bareSet {vs} : HasTy env (.set vs) .bareSet
  | bareTuple {vs} : HasTy env (.tuple vs) .bareTuple
  | bareDict {kvs} : HasTy env (.dict kvs) .bareDict
  | list {vs t} : (∀ v ∈ vs, HasTy env v t) → HasTy env (.list vs) (.list t)
  | set {vs t} : (∀ v ∈ vs, HasTy env v t) → (∀ v ∈ vs, hashable env v = true) →
      vs.Pairwise (fun a b => valEq env b a = false) → HasTy env (.set vs) (.set t)
  | tuple {vs ts} : vs.length = ts.length →
      (∀ (i : Nat) v t, vs[i]? = some v → ts[i]? = some t → HasTy env v t) → HasTy env (.tuple vs) (.tuple ts)
  | dict {kvs k t} : (kvs.map Prod.fst).Nodup → (∀ kv ∈ kvs, KeyHasTy env kv.1 k) → (∀ kv ∈ kvs, HasTy env kv.2 t) →
      HasTy env (.dict kvs) (.dict k t)
  | union {v ts t} : t ∈ ts → HasTy env v t → HasTy env v (.union ts)
  | annotated {v t ms} : HasTy env v t → HasTy env v (.annotated t ms)
  | literal {v ls l} : l ∈ ls → v = l.toVal → HasTy env v (.literal ls)
  | enum {e m ed} : env.enums[e]? = some ed → m < ed.members.length → HasTy env (.enum e m) (.enum e)
  /-- an instance of a class: an attribute for each field, of the declared type unless the class has no annotations -/
  | cls {c cd fs} : env.classes[c]? = some cd → fs.map Prod.fst = cd.fields.map FieldDef.name →
      (∀ (i : Nat) f w, cd.hints[i]? = some f → fs[i]? = some w → HasTy env w.2 f.ty) → HasTy env (.obj c fs) (.cls c)
  /-- an instance of a class without annotations may have any attributes -/
  | untyped {c cd fs} : env.classes[c]? = some cd → cd.kind = .plain → cd.fields = [] → HasTy env (.obj c fs) (.cls c)

/-- Class definitions are well typed: defaults have the type of their field, and the result of `from_json` is an
instance of the class. -/
structure Env.Typed (env : Env) : Prop where
  dflt : ∀ cd ∈ env.classes, ∀ f ∈ cd.fields, ∀ v, (f.dflt = .value v ∨ f.dflt = .factory v) → HasTy env v f.ty
  hook : ∀ c cd f j v, env.classes[c]? = some cd → cd.fromJson = some f → f j = .ok v → HasTy env v (.cls c)

end Verif
