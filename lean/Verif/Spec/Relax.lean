import Verif.Spec.RoundTrip
/-!
# Two versions of a program, the later of which has wider types
-/
namespace Verif

/-- Types whose refusal of a JSON value can be told from the kind of the value (`rejectKinds`). -/
inductive Told (env : Env) : Ty → Prop
  | scalar {t} : t ∈ scalarTys → Told env t
  | list {t} : Supported env t → Told env (.list t)
  | set {t} : Supported env t → Told env (.set t)
  | tuple {ts} : (∀ t ∈ ts, Supported env t) → Told env (.tuple ts)
  | dict {k t} : Supported env (.dict k t) → Told env (.dict k t)
  | annotated {t ms} : Told env t → Told env (.annotated t ms)
  | literal {ls} : SameType ls → (∀ e m, Lit.enum e m ∉ ls) → Told env (.literal ls)
  | cls {c cd} : Readable env c cd → Told env (.cls c)

/-- No JSON value is accepted both as `t` by the earlier program and as `p` by the later one, and the refusal can be told from
the kind of the value. -/
def Aside (env env' : Env) (t p : Ty) : Prop :=
  Told env t ∧ Told env' p ∧ ∀ k : Kind, k ∈ rejectKinds env t ∨ k ∈ rejectKinds env' p

/-- Types that do not refer to a class or an enumeration. -/
inductive Rootless : Ty → Prop
  | scalar {t} : t ∈ scalarTys → Rootless t
  | literal {ls} : SameType ls → (∀ e m, Lit.enum e m ∉ ls) → Rootless (.literal ls)
  | annotated {t ms} : Rootless t → Rootless (.annotated t ms)
  | list {t} : Rootless t → Rootless (.list t)
  | union {ts} : (∀ t ∈ ts, Rootless t) → Rootless (.union ts)

/-- `Relaxed env env' t u`: the type `u` of the later program accepts at least what the type `t` of the earlier program does. -/
inductive Relaxed (env env' : Env) : Ty → Ty → Prop
  | scalar {t} : t ∈ scalarTys → Relaxed env env' t t
  /-- `Literal` with more values -/
  | literal {ls ls'} : SameType ls' → (∀ e m, Lit.enum e m ∉ ls') → ls ≠ [] → (∀ l ∈ ls, l ∈ ls') →
      Relaxed env env' (.literal ls) (.literal ls')
  /-- the type of the values instead of a `Literal` -/
  | unlisted {ls t} : ls ≠ [] → (∀ l ∈ ls, l.ty = t) → t ∈ scalarTys → Relaxed env env' (.literal ls) t
  /-- an enumeration with more members at its end -/
  | enum {e ed ed'} : env.enums[e]? = some ed → env'.enums[e]? = some ed' → ed.members <+: ed'.members →
      Relaxed env env' (.enum e) (.enum e)
  | annotatedL {t u ms} : Relaxed env env' t u → Relaxed env env' (.annotated t ms) u
  | annotatedR {t u ms} : Relaxed env env' t u → Relaxed env env' t (.annotated u ms)
  | list {t u} : Relaxed env env' t u → Relaxed env env' (.list t) (.list u)
  | set {t u} : Relaxed env env' t u → Relaxed env env' (.set t) (.set u)
  | tuple {ts us} : ts.length = us.length →
      (∀ (i : Nat) t u, ts[i]? = some t → us[i]? = some u → Relaxed env env' t u) → Relaxed env env' (.tuple ts) (.tuple us)
  | dictStr {t u} : Relaxed env env' t u → Relaxed env env' (.dict .str t) (.dict .str u)
  | dictEnum {e ed ed' t u} : env.enums[e]? = some ed → env'.enums[e]? = some ed' → ed.members <+: ed'.members →
      ed.strValued = true → ed'.strValued = true → Relaxed env env' t u →
      Relaxed env env' (.dict (.enum e) t) (.dict (.enum e) u)
  | cls {c cd} : env.classes[c]? = some cd → Relaxed env env' (.cls c) (.cls c)
  /-- a union without tag, of which one member accepts what `t` does, and the members before it nothing of that -/
  | member {t u us} {i : Nat} : Untagged env' us → (∀ p ∈ us, Supported env' p) → us[i]? = some u → Relaxed env env' t u →
      (∀ (k : Nat) p, k < i → us[k]? = some p → Aside env env' t p) → Relaxed env env' t (.union us)
  /-- all members of a union without tag -/
  | union {ts u} : Untagged env ts → ts ≠ [] → (∀ t ∈ ts, Relaxed env env' t u) → Relaxed env env' (.union ts) u
  /-- more members at the end of a union -/
  | append {ts more} : (∀ t ∈ ts, Rootless t) → Untagged env' (ts ++ more) → (∀ t ∈ more, Supported env' t) →
      Relaxed env env' (.union ts) (.union (ts ++ more))
  /-- more members of a union that are told apart by a tag, which is read under its own name -/
  | tagged {ts us} : (∃ p, IsTag env ts p) → ¬ Ambiguous env ts → ¬ Ambiguous env' us → (∀ t ∈ ts, t ∈ us) →
      (∀ p, IsTag env ts p → IsTag env' us p) →
      (∀ q c cd f ls, IsTag env' us q → Ty.cls c ∈ us → env'.classes[c]? = some cd → f ∈ cd.hints → f.name = q →
        fieldProp cd.kind f = q ∧ (f.ty.litArgs = some ls → SameType ls ∧ ∀ e m, Lit.enum e m ∉ ls)) →
      Relaxed env env' (.union ts) (.union us)

/-- A field whose type is widened.  It has the same name in Python and in JSON, and if its property might be absent, it still
may, and then has the same value. -/
structure FieldRelaxes (env env' : Env) (kind : ClassKind) (f f' : FieldDef) : Prop where
  name : f'.name = f.name
  prop : fieldProp kind f' = fieldProp kind f
  ty : Relaxed env env' (fieldTy kind f) (fieldTy kind f')
  absent : ∀ v, absentValue kind f = some v → absentValue kind f' = some v

/-- A class whose fields have wider types in the later version. -/
structure ClassRelaxes (env env' : Env) (cd cd' : ClassDef) : Prop where
  kind : cd'.kind = cd.kind
  typed : cd.kind ≠ .namedTuple false
  old : cd.custom = false
  new : cd'.custom = false
  fields : All2 (FieldRelaxes env env' cd.kind) cd.fields cd'.fields

/-- Two versions of a program, with classes in the same order, the later of which has wider types.  (A class that only the
later version has counts as a class of the earlier version that is not used.) -/
structure Relaxation (env env' : Env) : Prop where
  ok : env.Ok
  ok' : env'.Ok
  classes : All2 (ClassRelaxes env env') env.classes env'.classes

end Verif
