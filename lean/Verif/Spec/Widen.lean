import Verif.Spec.Admits
/-!
# Two versions of a program, for the schemas of which the later one has more optional properties
-/
namespace Verif

/-- A class in its earlier and later version: all fields are kept, and each new field is of an optional type and has a property
of its own.  A class without fields stays so, since its schema is that of any object. -/
structure ClassWidens (cd cd' : ClassDef) : Prop where
  kept : ∀ f ∈ cd.hints, f ∈ cd'.hints
  added : ∀ f ∈ cd'.hints, f ∈ cd.hints ∨ (f.ty.isOptional = true ∧ ∀ g ∈ cd.hints, jsonName f ≠ jsonName g)
  empty : cd.hints = [] → cd'.hints = []

/-- Two versions of a program, with the same enumerations. -/
structure Widens (env env' : Env) : Prop where
  enums : env'.enums = env.enums
  classes : All2 ClassWidens env.classes env'.classes

/-- Types in which the members of unions exclude each other: no JSON value is of two of them. -/
inductive Exclusive (vc : ValidatorCfg) (cfg : SchemaCfg) (env : Env) : Ty → Prop
  | leaf {t} : t ∈ [Ty.none, .bool, .int, .float, .str, .bytes, .datetime, .date, .time, .timedelta, .uuid, .ipv4, .ipv6,
      .bareList, .bareDict, .bareSet, .bareTuple] → Exclusive vc cfg env t
  | literal {ls} : Exclusive vc cfg env (.literal ls)
  | enum {e} : Exclusive vc cfg env (.enum e)
  | cls {c} : Exclusive vc cfg env (.cls c)
  | annotated {t ms} : Exclusive vc cfg env t → Exclusive vc cfg env (.annotated t ms)
  | list {t} : Exclusive vc cfg env t → Exclusive vc cfg env (.list t)
  | set {t} : Exclusive vc cfg env t → Exclusive vc cfg env (.set t)
  | tuple {ts} : (∀ t ∈ ts, Exclusive vc cfg env t) → Exclusive vc cfg env (.tuple ts)
  | dict {k t} : Exclusive vc cfg env t → Exclusive vc cfg env (.dict k t)
  | union {ts} : (∀ t ∈ ts, Exclusive vc cfg env t) →
      (∀ (i k : Nat) t u, i ≠ k → ts[i]? = some t → ts[k]? = some u → ∀ j : Json, j.Wf →
        ¬ (Admits vc cfg env t j ∧ Admits vc cfg env u j)) → Exclusive vc cfg env (.union ts)

/-- The same for the fields of all classes. -/
def AllExclusive (vc : ValidatorCfg) (cfg : SchemaCfg) (env env' : Env) : Prop :=
  ∀ cd ∈ env.classes, ∀ f ∈ cd.hints, Exclusive vc cfg env' f.ty.required

end Verif
