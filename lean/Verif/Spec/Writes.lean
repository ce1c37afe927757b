import Verif.Model.Serializer
/-!
# Which values can be written

`WritePart` tells what is visited when a value is written, `WriteFails` what is wrong with a single visited part.
-/
namespace Verif

/-- The elements of a list, a set or a tuple. -/
inductive Elements : Val → List Val → Prop
  | list {vs} : Elements (.list vs) vs
  | set {vs} : Elements (.set vs) vs
  | tuple {vs} : Elements (.tuple vs) vs

/-- The members of the class are written with the types in their annotations. -/
def ClassDef.Annotated (cd : ClassDef) : Prop :=
  (∃ fr, cd.kind = .dataclass fr) ∨ cd.kind = .namedTuple true ∨ (cd.kind = .plain ∧ cd.fields ≠ [])

/-- Special names, `^__.+__$` or `_abc_impl`. -/
def SpecialName (s : Str) : Prop := (∃ m, m ≠ [] ∧ s = c!"__" ++ m ++ c!"__") ∨ s = c!"_abc_impl"

/-- `WritePart env t v u w`: when `v` is written as type `t`, its part `w` is written as type `u`.  Elements without a declared type,
and members of unions, are written as their own type (`.union []` stands for a type that is not declared). -/
inductive WritePart (env : Env) : Ty → Val → Ty → Val → Prop
  | here {t v} : WritePart env t v t v
  | annotated {t ms v u w} : WritePart env t v u w → WritePart env (.annotated t ms) v u w
  | union {ts v u w} : WritePart env (typeOf v) v u w → WritePart env (.union ts) v u w
  | list {t v vs x u w} : Elements v vs → x ∈ vs → WritePart env t x u w → WritePart env (.list t) v u w
  | set {t v vs x u w} : Elements v vs → x ∈ vs → WritePart env t x u w → WritePart env (.set t) v u w
  | tuple {ts v vs t x u w} : Elements v vs → (t, x) ∈ ts.zip vs → WritePart env t x u w → WritePart env (.tuple ts) v u w
  | bare {t v vs x u w} : t ∈ [Ty.bareList, .bareSet, .bareTuple] → Elements v vs → x ∈ vs → WritePart env (.union []) x u w →
      WritePart env t v u w
  | dict {k t kvs kv u w} : kv ∈ kvs → WritePart env t kv.2 u w → WritePart env (.dict k t) (.dict kvs) u w
  | bareDict {kvs kv u w} : kv ∈ kvs → WritePart env (.union []) kv.2 u w → WritePart env .bareDict (.dict kvs) u w
  /-- a member of a class, unless it is `None` -/
  | field {c cd c' fs f x u w} : env.classes[c]? = some cd → cd.toJson = none → cd.Annotated → f ∈ cd.fields →
      lookupKey f.name fs = some x → x ≠ .none → WritePart env f.ty x u w → WritePart env (.cls c) (.obj c' fs) u w
  /-- a member of a `collections.namedtuple` -/
  | untypedField {c cd c' fs f x u w} : env.classes[c]? = some cd → cd.toJson = none → cd.kind = .namedTuple false →
      f ∈ cd.fields → lookupKey f.name fs = some x → WritePart env (.union []) x u w → WritePart env (.cls c) (.obj c' fs) u w
  /-- an attribute of an object whose class has no annotations -/
  | attr {c cd c' fs n x u w} : env.classes[c]? = some cd → cd.toJson = none → cd.kind = .plain → cd.fields = [] →
      (n, x) ∈ fs → ¬ SpecialName n → x ≠ .none → WritePart env (.union []) x u w → WritePart env (.cls c) (.obj c' fs) u w

/-- `WriteFails env u w e`: `w` itself, apart from its parts, cannot be written as type `u`, with exception `e`. -/
inductive WriteFails (env : Env) : Ty → Val → Err → Prop
  /-- a date-time without time zone: `JsonValueError` -/
  | naive {d} : d.time.off = none → WriteFails env .datetime (.datetime d) .jsonValue
  /-- there is no serializer for the class of the value -/
  | creation {ts v e} : serCreate env (typeOf v) = .error e → WriteFails env (.union ts) v e
  /-- the method `to_json` of the class raises -/
  | method {c cd f v e} : env.classes[c]? = some cd → cd.toJson = some f → f v = .error e → WriteFails env (.cls c) v e
  | enumMethod {n ed f m e} : env.enums[n]? = some ed → ed.toJson = some f → f m = .error e →
      WriteFails env (.enum n) (.enum n m) e
  | literalMethod {n k ls ed f m e} : env.enums[n]? = some ed → ed.toJson = some f → f m = .error e →
      WriteFails env (.literal (.enum n k :: ls)) (.enum n m) e
  /-- the object lacks a member of its class -/
  | missing {c cd c' fs f} : env.classes[c]? = some cd → cd.toJson = none → f ∈ cd.fields → lookupKey f.name fs = none →
      WriteFails env (.cls c) (.obj c' fs) .attribute
  /-- a key that is no member of an enumeration, when keys are written with their value -/
  | key {n t kvs kv} : kv ∈ kvs → (∀ e m, kv.1 ≠ .enum e m) → WriteFails env (.dict (.enum n) t) (.dict kvs) .attribute
  | mixedKeys {e m x kvs kv} : kv ∈ kvs → (∀ e m, kv.1 ≠ .enum e m) →
      WriteFails env .bareDict (.dict ((.enum e m, x) :: kvs)) .attribute

/-- All visited parts can be written. -/
def CanWrite (env : Env) (t : Ty) (v : Val) : Prop := ∀ u w e, WritePart env t v u w → ¬ WriteFails env u w e

/-- Neither a container nor a class instance. -/
def Val.IsSimple (v : Val) : Prop := (∀ vs, ¬ Elements v vs) ∧ (∀ kvs, v ≠ .dict kvs) ∧ ∀ c fs, v ≠ .obj c fs

/-- Values that `object_to_json` writes, apart from any declared type. -/
inductive Writable (env : Env) : Val → Prop
  | simple {v} : v.IsSimple → (∀ d, v = .datetime d → d.time.off ≠ none) →
      (∀ n m ed f, v = .enum n m → env.enums[n]? = some ed → ed.toJson = some f → ∃ j, f m = .ok j) → Writable env v
  | items {v vs} : Elements v vs → (∀ x ∈ vs, Writable env x) → Writable env v
  /-- if the first key is a member of an enumeration, then all are -/
  | dict {kvs} : (∀ kv ∈ kvs, Writable env kv.2) →
      (∀ e m x r, kvs = (.enum e m, x) :: r → ∀ kv ∈ r, ∃ e m, kv.1 = .enum e m) → Writable env (.dict kvs)
  /-- the class has a serializer, which is its own method -/
  | method {c cd f fs j} : serCreate env (.cls c) = .ok () → env.classes[c]? = some cd → cd.toJson = some f → f (.obj c fs) = .ok j →
      Writable env (.obj c fs)
  /-- the class has a serializer, and attributes other than `None` can be written (special attributes do not matter for classes
  without annotations) -/
  | object {c cd fs} : serCreate env (.cls c) = .ok () → env.classes[c]? = some cd → cd.toJson = none →
      (∀ kv ∈ fs, kv.2 ≠ .none → ¬ (cd.kind = .plain ∧ cd.fields = [] ∧ SpecialName kv.1) → Writable env kv.2) → Writable env (.obj c fs)

end Verif
