import Verif.Spec.ClassBuild
import Verif.Spec.ClassRead
import Verif.Spec.SchemaValid
/-!
# Types whose schema admits only data that can be read
-/
namespace Verif

/-- Types for which the claim is made.  Left out are `None` (in literals and enumerations, too), `bytes`, `IPv4Address`,
`IPv6Address` and containers without parameters; sets whose members may not be hashable; dictionaries whose keys are integers,
or of an enumeration with many members; unions without tag in which a member other than the last raises errors that the union
does not catch; unions whose tag has an alias or a default. -/
inductive Dependable (env : Env) : Ty → Prop
  | leaf {t} : t ∈ [Ty.bool, .int, .float, .str, .datetime, .date, .time, .timedelta, .uuid] → Dependable env t
  | literal {l} : (∀ e m, l ≠ Lit.enum e m) → l ≠ .none → Dependable env (.literal [l])
  | enum {e ed} : env.enums[e]? = some ed → (∀ m ∈ ed.members, m.2 ≠ .none) → Dependable env (.enum e)
  | annotated {t ms} : Dependable env t → Dependable env (.annotated t ms)
  | list {t} : Dependable env t → Dependable env (.list t)
  | set {t} : setItem t = true → Dependable env t → Dependable env (.set t)
  | tuple {ts} : (∀ t ∈ ts, Dependable env t) → Dependable env (.tuple ts)
  | dictStr {t} : Dependable env t → Dependable env (.dict .str t)
  | dictEnum {e ed t} : env.enums[e]? = some ed → ed.members ≠ [] → ed.members.length ≤ enumExpansionLimit →
      (∀ m ∈ ed.members, ∃ s, m.2 = .str s) → Dependable env t → Dependable env (.dict (.enum e) t)
  | untagged {ts t} : Untagged env (ts ++ [t]) → (∀ u ∈ ts ++ [t], Dependable env u) → (∀ u ∈ ts, Calm env u) →
      Dependable env (.union (ts ++ [t]))
  | tagged {ts} : (∃ p, IsTag env ts p) → ¬ Ambiguous env ts → (∀ t ∈ ts, Dependable env t) →
      (∀ p c cd f, IsTag env ts p → Ty.cls c ∈ ts → env.classes[c]? = some cd → f ∈ cd.hints → f.name = p →
        fieldProp cd.kind f = p ∧ IsRequired cd.kind f) → Dependable env (.union ts)
  | cls {c cd} : env.classes[c]? = some cd → Dependable env (.cls c)

/-- Classes for which the claim is made: with fields, without `from_json`, read under the names that the schema has, and with
a value for each property that the schema does not require. -/
structure ClassReads (env : Env) (cd : ClassDef) : Prop where
  fields : cd.hints ≠ []
  standard : cd.custom = false
  names : ∀ f ∈ cd.hints, fieldProp cd.kind f = jsonName f
  absent : ∀ f ∈ cd.hints, f.ty.isOptional = true → ¬ IsRequired cd.kind f
  types : ∀ f ∈ cd.hints, Dependable env f.ty.required

end Verif
