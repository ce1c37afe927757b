import Verif.Spec.SchemaValid
/-!
# For which types there is a schema

`HasSchema` says when `type_to_schema` returns, without saying what.  It is the least relation closed under its rules, so that a
class which has to be written out within itself is not among them.
-/
namespace Verif

/-- Is the annotation of the field a string?  Only the annotations of data-classes are left as they are. -/
def FieldDef.IsString (kind : ClassKind) (f : FieldDef) : Prop := f.strAnn = true ∧ ∃ fr, kind = .dataclass fr

/-- Are there names of classes in the annotation of the field? -/
def FieldDef.HasNames (kind : ClassKind) (f : FieldDef) : Prop := f.fwd = true ∧ ∃ fr, kind = .dataclass fr

/-- The name of the class or of the enumeration is known. -/
inductive IsDefined (env : Env) : RegKey → Prop
  | enum {e ed} : env.enums[e]? = some ed → IsDefined env (.enum e)
  | cls {c cd} : env.classes[c]? = some cd → IsDefined env (.cls c)

/-- A class attribute with the name of the field whose value becomes the default in the schema. -/
def FieldDef.Shows (kind : ClassKind) (f : FieldDef) (v : Val) : Prop :=
  f.dflt = .value v ∧ (∀ typed, kind ≠ .namedTuple typed) ∧
    ((∃ b, v = .bool b) ∨ (∃ i, v = .int i) ∨ (∃ x, v = .float x) ∨ (∃ s, v = .str s) ∨ (∃ e m, v = .enum e m) ∨
      (∃ x, v = .datetime x) ∨ (∃ x, v = .date x) ∨ (∃ x, v = .time x) ∨ ∃ x, v = .timedelta x)

/-- `HasSchema env cat named alone t`: there is a schema for `t`.  `named` tells that classes and enumerations are given by name,
`alone` that `t` itself is not looked up among the registered types. -/
inductive HasSchema (env : Env) (cat : SchemaCatalog) : Bool → Bool → Ty → Prop
  | leaf {n a t} : t ∈ scalarTys ∨ t ∈ [Ty.bareList, .bareSet, .bareTuple, .bareDict] → HasSchema env cat n a t
  | list {n a t} : HasSchema env cat n n t → HasSchema env cat n a (.list t)
  | set {n a t} : HasSchema env cat n n t → HasSchema env cat n a (.set t)
  | tuple {n a ts} : (∀ t ∈ ts, HasSchema env cat n n t) → HasSchema env cat n a (.tuple ts)
  /-- Enumerations with values of type `float` as keys are outside the model. -/
  | dict {n a k t} : k ≠ .other →
      (∀ e, k = .enum e → ∃ ed, env.enums[e]? = some ed ∧ ∀ m ∈ ed.members, ∀ f, m.2 ≠ .float f) →
      HasSchema env cat n n t → HasSchema env cat n a (.dict k t)
  /-- `Optional[T]` is no type with a schema. -/
  | union {n a ts} : 2 < ts.length ∨ Ty.none ∉ ts → (∀ t ∈ ts, HasSchema env cat n false t) → HasSchema env cat n a (.union ts)
  | annotated {n a t ms} : HasSchema env cat n true t → HasSchema env cat n a (.annotated t ms)
  /-- Literals that are members of enumerations are outside the model. -/
  | literal {n a l} : (∀ e m, l ≠ .enum e m) → HasSchema env cat n a (.literal [l])
  | named {a k} : IsDefined env k → HasSchema env cat true a k.toTy
  | reference {k e} : lookupKey k cat.byType = some e → HasSchema env cat false false k.toTy
  /-- an enumeration whose values have the same type -/
  | enum {a e ed} : env.enums[e]? = some ed → ed.members ≠ [] →
      (∀ m ∈ ed.members, ∀ m' ∈ ed.members, scalarTypeName m.2 = scalarTypeName m'.2) → HasSchema env cat false a (.enum e)
  /-- a class that is written out -/
  | cls {a c cd} : env.classes[c]? = some cd →
      (∀ f ∈ cd.hints, f.IsString cd.kind → (∃ k, f.ty = k.toTy ∧ IsDefined env k) ∨ f.ty ∈ [Ty.bool, .int, .float, .str, .bytes]) →
      (∀ f ∈ cd.hints, ¬ f.IsString cd.kind → f.HasNames cd.kind → HasSchema env cat true false f.ty.required) →
      (∀ f ∈ cd.hints, ¬ f.IsString cd.kind → ¬ f.HasNames cd.kind → HasSchema env cat false false f.ty.required) →
      (∀ f ∈ cd.hints, ∀ v, f.Shows cd.kind v → ∃ j, objectToJson env v = .ok j) → HasSchema env cat false a (.cls c)

/-- `RefersIn env cat alone t k`: the schema of `t` refers to the registered type `k`.  No annotations are given by name. -/
inductive RefersIn (env : Env) (cat : SchemaCatalog) : Bool → Ty → RegKey → Prop
  | here {k e} : lookupKey k cat.byType = some e → RefersIn env cat false k.toTy k
  | list {a t k} : RefersIn env cat false t k → RefersIn env cat a (.list t) k
  | set {a t k} : RefersIn env cat false t k → RefersIn env cat a (.set t) k
  | dict {a d t k} : RefersIn env cat false t k → RefersIn env cat a (.dict d t) k
  | tuple {a ts t k} : t ∈ ts → RefersIn env cat false t k → RefersIn env cat a (.tuple ts) k
  | union {a ts t k} : t ∈ ts → RefersIn env cat false t k → RefersIn env cat a (.union ts) k
  | annotated {a t ms k} : RefersIn env cat true t k → RefersIn env cat a (.annotated t ms) k
  /-- from a class that is written out -/
  | field {a c cd f k} : (a = false → lookupKey (.cls c) cat.byType = none) → env.classes[c]? = some cd → f ∈ cd.hints →
      RefersIn env cat false f.ty.required k → RefersIn env cat a (.cls c) k

/-- The registered types that are written to the definitions for a type: those to which it refers, and those to which their
definitions refer, unless they are given. -/
inductive NeedsDef (env : Env) (cat : SchemaCatalog) (alone : Bool) (t : Ty) : RegKey → Prop
  | root {k} : RefersIn env cat alone t k → NeedsDef env cat alone t k
  | step {k e k'} : NeedsDef env cat alone t k → lookupKey k cat.byType = some e → e.schema = none →
      RefersIn env cat true k.toTy k' → NeedsDef env cat alone t k'

/-- There is a schema for a type and for each type that is written to the definitions. -/
structure HasDocument (env : Env) (cat : SchemaCatalog) (alone : Bool) (t : Ty) : Prop where
  root : HasSchema env cat false alone t
  definitions : ∀ k e, NeedsDef env cat alone t k → lookupKey k cat.byType = some e → e.schema = none →
    HasSchema env cat false true k.toTy

end Verif
