import Verif.Spec.ClassRead
import Verif.Props.C22_C23_Tagged
import Verif.Props.C24_C25_LiteralEnum
/-!
# Two versions of a program, the later of which has more fields
-/
namespace Verif

/-- Values without instances of classes. -/
inductive Flat : Val → Prop
  | scalar {v} : (∀ c fs, v ≠ .obj c fs) → (∀ vs, v ≠ .list vs) → (∀ vs, v ≠ .tuple vs) → (∀ kvs, v ≠ .dict kvs) →
      (∀ vs, v ≠ .set vs) → Flat v
  | list {vs} : (∀ v ∈ vs, Flat v) → Flat (.list vs)
  | set {vs} : (∀ v ∈ vs, Flat v) → Flat (.set vs)
  | tuple {vs} : (∀ v ∈ vs, Flat v) → Flat (.tuple vs)
  | dict {kvs} : (∀ kv ∈ kvs, Flat kv.2) → Flat (.dict kvs)

/-! ### Programs -/

/-- A class in its earlier version `cd` and its later version `cd'`: all fields are kept,
their defaults have no instances of classes inside, and each new field may be absent, is
read from a property of its own, and is no `Literal`. -/
structure ClassExtends (cd cd' : ClassDef) : Prop where
  module : cd'.module = cd.module
  name : cd'.name = cd.name
  kind : cd'.kind = cd.kind
  typed : cd.kind ≠ .namedTuple false
  old : cd.custom = false
  new : cd'.custom = false
  kept : ∀ f ∈ cd.fields, f ∈ cd'.fields
  flat : ∀ f ∈ cd.fields, ∀ v, absentValue cd.kind f = some v → Flat v
  added : ∀ f ∈ cd'.fields, f ∈ cd.fields ∨
    ¬ IsRequired cd'.kind f ∧ f.ty.litArgs = none ∧ ∀ g ∈ cd.fields, fieldProp cd'.kind f ≠ fieldProp cd.kind g

/-- Two versions of a program with the same enumerations and with classes in the same order.  The iteration order of sets may
differ, as it does from one run of the interpreter to the next. -/
structure NewVersion (env env' : Env) : Prop where
  enums : env'.enums = env.enums
  classes : All2 ClassExtends env.classes env'.classes

/-! ### Types -/

/-- Types without classes. -/
inductive ClassFree (env : Env) : Ty → Prop
  | leaf {t} : t ∈ [Ty.none, .bool, .int, .float, .str, .bytes, .datetime, .date, .time, .timedelta, .uuid, .ipv4, .ipv6] →
      ClassFree env t
  | literal {ls} : SameType ls → (∀ e m, Lit.enum e m ∉ ls) → ClassFree env (.literal ls)
  | enum {e ed} : env.enums[e]? = some ed → ClassFree env (.enum e)
  | annotated {t ms} : ClassFree env t → ClassFree env (.annotated t ms)
  | list {t} : ClassFree env t → ClassFree env (.list t)
  | set {t} : ClassFree env t → ClassFree env (.set t)
  | union {ts} : (∀ t ∈ ts, ClassFree env t) → ClassFree env (.union ts)

/-- Types for which the claim is made.  Left out are sets with classes inside, and unions with classes unless these are told
apart by a tag that is read under its own name. -/
inductive Steady (env : Env) : Ty → Prop
  | free {t} : ClassFree env t → Steady env t
  | annotated {t ms} : Steady env t → Steady env (.annotated t ms)
  | list {t} : Steady env t → Steady env (.list t)
  | tuple {ts} : (∀ t ∈ ts, Steady env t) → Steady env (.tuple ts)
  | dictStr {t} : Steady env t → Steady env (.dict .str t)
  | dictEnum {e ed t} : env.enums[e]? = some ed → ed.strValued = true → Steady env t → Steady env (.dict (.enum e) t)
  | tagged {ts} : (∃ p, IsTag env ts p) → ¬ Ambiguous env ts →
      (∀ p c cd f, IsTag env ts p → Ty.cls c ∈ ts → env.classes[c]? = some cd → f ∈ cd.hints → f.name = p →
        fieldProp cd.kind f = p) → Steady env (.union ts)
  | cls {c cd} : env.classes[c]? = some cd → Steady env (.cls c)

/-- Two versions of a program for which the claim is made. -/
structure Versions (env env' : Env) : Prop where
  ext : NewVersion env env'
  ok : env.Ok
  ok' : env'.Ok
  steady : ∀ cd ∈ env.classes, ∀ f ∈ cd.fields, Steady env (fieldTy cd.kind f)
  supported : ∀ cd ∈ env'.classes, ∀ f ∈ cd.fields, Supported env' (fieldTy cd.kind f)

/-! ### Values -/

/-- `Grown I v v'`: the value `v'` is `v` save that instances of classes may have more fields.  Field `n` of class number `c`
that only `v'` has, has a value `w` with `I c n w`. -/
inductive Grown (I : Nat → Str → Val → Prop) : Val → Val → Prop
  | flat {v} : Flat v → Grown I v v
  | list {vs vs'} : vs.length = vs'.length → (∀ (i : Nat) v v', vs[i]? = some v → vs'[i]? = some v' → Grown I v v') →
      Grown I (.list vs) (.list vs')
  | tuple {vs vs'} : vs.length = vs'.length → (∀ (i : Nat) v v', vs[i]? = some v → vs'[i]? = some v' → Grown I v v') →
      Grown I (.tuple vs) (.tuple vs')
  | dict {kvs kvs'} : kvs.map (·.1) = kvs'.map (·.1) →
      (∀ (i : Nat) k v v', kvs[i]? = some (k, v) → kvs'[i]? = some (k, v') → Grown I v v') → Grown I (.dict kvs) (.dict kvs')
  | obj {c fs fs'} : (∀ n ∈ fs.map (·.1), n ∈ fs'.map (·.1)) → (∀ n v v', (n, v) ∈ fs → (n, v') ∈ fs' → Grown I v v') →
      (∀ n v', (n, v') ∈ fs' → n ∉ fs.map (·.1) → I c n v') → Grown I (.obj c fs) (.obj c fs')

/-- The value that the later program gives to a field whose property is absent. -/
def Initial (env : Env) (c : Nat) (n : Str) (w : Val) : Prop :=
  ∃ cd f, env.classes[c]? = some cd ∧ f ∈ cd.fields ∧ f.name = n ∧ absentValue cd.kind f = some w

end Verif
