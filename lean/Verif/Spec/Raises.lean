import Verif.Spec.ClassRead
import Verif.Spec.Cache
import Verif.Props.C22_C23_Tagged
/-!
# Exceptions that reading can raise, type by type

`outOfModel` stands for outcomes that the model does not determine.
-/
namespace Verif

/-- Exceptions of types that have no parts.  Texts that are not well-formed give `ValueError`; a date-time without time zone,
and texts that are not durations, give `JsonValueError`; numbers that are too large give `OverflowError`. -/
def scalarErrors : Ty → List Err
  | .none | .bool | .int | .str => [.jsonType]
  | .float => [.jsonType, .overflow]
  | .bytes | .date | .time | .ipv4 | .ipv6 => [.jsonType, .valueError]
  | .uuid => [.jsonType, .valueError, .outOfModel]
  | .datetime => [.jsonType, .valueError, .jsonValue]
  | .timedelta => [.jsonType, .valueError, .jsonValue, .overflow]
  | .enum _ => [.valueError]
  | _ => []

/-- The enumeration has NaN among its values. -/
def HasNaN (env : Env) (n : Nat) : Prop := ∃ ed, env.enums[n]? = some ed ∧ ∃ name, (name, .float .nan) ∈ ed.members

/-- A property whose name is not the JSON name of a field is refused; the field has no value unless its property is present. -/
inductive ClassError (skip : Bool) (cd : ClassDef) : Err → Prop
  | shape : ClassError skip cd .jsonType
  | unknown : skip = false → ClassError skip cd .jsonKey
  | missing {f} : f ∈ cd.hints → IsRequired cd.kind f → ClassError skip cd .jsonKey
  | null {f} : f ∈ cd.hints → IsRequired cd.kind f → ClassError skip cd .jsonValue

/-- Exceptions that reading a document as a value of the type may raise. -/
inductive MayRaise (env : Env) (skip : Bool) : Ty → Err → Prop
  | scalar {t e} : e ∈ scalarErrors t → MayRaise env skip t e
  | nan {n} : HasNaN env n → MayRaise env skip (.enum n) .outOfModel
  | list {t} : MayRaise env skip (.list t) .jsonType
  | item {t e} : MayRaise env skip t e → MayRaise env skip (.list t) e
  | dict {k t} : MayRaise env skip (.dict k t) .jsonType
  | key {n t} : MayRaise env skip (.dict (.enum n) t) .valueError
  | value {k t e} : MayRaise env skip t e → MayRaise env skip (.dict k t) e
  | set {t} : MayRaise env skip (.set t) .jsonType
  | member {t e} : MayRaise env skip t e → MayRaise env skip (.set t) e
  | unhashable {t j v} : j.Wf → loads env skip t j = .ok v → hashable env v = false → MayRaise env skip (.set t) .typeError
  | tuple {ts} : MayRaise env skip (.tuple ts) .jsonType
  | length {ts} : MayRaise env skip (.tuple ts) .jsonValue
  | component {ts t e} : t ∈ ts → MayRaise env skip t e → MayRaise env skip (.tuple ts) e
  | annotated {t ms e} : MayRaise env skip t e → MayRaise env skip (.annotated t ms) e
  | literal {l ls} : l ∈ ls → (∀ n m, l ≠ .enum n m) → MayRaise env skip (.literal ls) .jsonType
  | literalEnum {n m ls e} : .enum n m ∈ ls → MayRaise env skip (.enum n) e → MayRaise env skip (.literal ls) e
  | literalOther {n m ls k j} : .enum n m ∈ ls → j.Wf → loads env skip (.enum n) j = .ok (.enum n k) → .enum n k ∉ ls →
      MayRaise env skip (.literal ls) .jsonType
  /-- no alternative fits -/
  | noMatch {ts} : Untagged env ts → MayRaise env skip (.union ts) .jsonKey
  /-- `JsonKeyError` and `JsonTypeError` of an alternative are caught, others are not -/
  | alternative {ts t e} : Untagged env ts → t ∈ ts → MayRaise env skip t e → e ≠ .jsonKey → e ≠ .jsonType →
      MayRaise env skip (.union ts) e
  | noTag {ts p} : IsTag env ts p → MayRaise env skip (.union ts) .jsonType
  /-- the value of the tag is an array or an object -/
  | tagShape {ts p} : IsTag env ts p → MayRaise env skip (.union ts) .typeError
  | tagged {ts p t e} : IsTag env ts p → t ∈ ts → MayRaise env skip t e → MayRaise env skip (.union ts) e
  | hook {c cd f j e} : env.classes[c]? = some cd → cd.custom = true → cd.fromJson = some f → j.Wf → f j = .error e →
      MayRaise env skip (.cls c) e
  | cls {c cd e} : env.classes[c]? = some cd → cd.custom = false → ClassError skip cd e → MayRaise env skip (.cls c) e
  | field {c cd f e} : env.classes[c]? = some cd → cd.custom = false → f ∈ cd.hints → MayRaise env skip (fieldTy cd.kind f) e →
      MayRaise env skip (.cls c) e
  /-- a class made by `collections.namedtuple` cannot be called without its fields -/
  | untyped {c cd} : env.classes[c]? = some cd → cd.kind = .namedTuple false → cd.fields ≠ [] → MayRaise env skip (.cls c) .typeError
  /-- an earlier attempt to create the deserializer of the class failed -/
  | unbuilt {c} : ¬ Buildable env c → MayRaise env skip (.cls c) .attribute

/-- `Part env t u`: reading a value of type `t` may involve reading a value of type `u`. -/
inductive Part (env : Env) : Ty → Ty → Prop
  | here {t} : Part env t t
  | list {t u} : Part env t u → Part env (.list t) u
  | dict {k t u} : Part env t u → Part env (.dict k t) u
  | set {t u} : Part env t u → Part env (.set t) u
  | tuple {ts t u} : t ∈ ts → Part env t u → Part env (.tuple ts) u
  | annotated {t ms u} : Part env t u → Part env (.annotated t ms) u
  | literal {n m ls} : .enum n m ∈ ls → Part env (.literal ls) (.enum n)
  | union {ts t u} : t ∈ ts → Part env t u → Part env (.union ts) u
  | field {c cd f u} : env.classes[c]? = some cd → cd.custom = false → f ∈ cd.hints → Part env (fieldTy cd.kind f) u →
      Part env (.cls c) u

/-- A type whose own reader, leaving aside its parts, raises only the documented exceptions: no texts with a format, no floats, no
enumerations, no sets and tuples, no tagged unions, and classes without required fields. -/
inductive DocumentedNode (env : Env) : Ty → Prop
  | none : DocumentedNode env .none
  | bool : DocumentedNode env .bool
  | int : DocumentedNode env .int
  | str : DocumentedNode env .str
  | list {t} : DocumentedNode env (.list t)
  | dict {t} : DocumentedNode env (.dict .str t)
  | annotated {t ms} : DocumentedNode env (.annotated t ms)
  | literal {ls} : DocumentedNode env (.literal ls)
  | union {ts} : Untagged env ts → DocumentedNode env (.union ts)
  | hook {c cd f} : env.classes[c]? = some cd → cd.custom = true → cd.fromJson = some f →
      (∀ j e, f j = .error e → e = .jsonKey ∨ e = .jsonType) → DocumentedNode env (.cls c)
  | cls {c cd} : Readable env c cd → (∀ f ∈ cd.hints, ¬ IsRequired cd.kind f) → DocumentedNode env (.cls c)

/-- The type has a value that is written as something else than `null`. -/
def HasSample (env : Env) (skip : Bool) (t : Ty) : Prop := ∃ j v, j.Wf ∧ j ≠ .null ∧ loads env skip t j = .ok v

/-- Types, leaving aside their parts, whose exceptions all occur: there are no unions, types of components and fields have values,
fields of a class have different JSON names, and what `from_json` refuses is not only `null`. -/
inductive CertainNode (env : Env) (skip : Bool) : Ty → Prop
  | scalar {t} : scalarErrors t ≠ [] → CertainNode env skip t
  | list {t} : CertainNode env skip (.list t)
  | dict {k t} : CertainNode env skip (.dict k t)
  | set {t} : CertainNode env skip (.set t)
  | tuple {ts} : (∀ t ∈ ts, HasSample env skip t) → CertainNode env skip (.tuple ts)
  | annotated {t ms} : CertainNode env skip (.annotated t ms)
  | literal {ls} : (∀ n m ed, .enum n m ∈ ls → env.enums[n]? = some ed → ∀ x ∈ ed.members, x.2 ≠ .none) →
      CertainNode env skip (.literal ls)
  | hook {c cd f} : env.classes[c]? = some cd → cd.custom = true → cd.fromJson = some f →
      (∀ j e, j.Wf → f j = .error e → ∃ j', j'.Wf ∧ j' ≠ .null ∧ f j' = .error e) → CertainNode env skip (.cls c)
  | cls {c cd} : Readable env c cd → (cd.hints.map (fieldProp cd.kind)).Nodup →
      (∀ f ∈ cd.hints, HasSample env skip (fieldTy cd.kind f)) → CertainNode env skip (.cls c)

end Verif
