import Verif.Spec.Env
/-!
# What reading a class means, stated field by field
-/
namespace Verif

/-- A property that is present; `null` counts as absent. -/
def Present (kvs : List (Str × Json)) (p : Str) (x : Json) : Prop := lookupKey p kvs = some x ∧ x ≠ .null

theorem isNull_iff (x : Json) : x.isNull = true ↔ x = .null := by
  cases x <;> simp [Json.isNull]

/-- The value of a field whose property is absent or `null`: the default of a data class field, else `None` for an
optional field, else there is none (the field is required).  Fields of named tuples are always required. -/
def absentValue (kind : ClassKind) (f : FieldDef) : Option Val :=
  match kind, f.dflt with
  | .dataclass _, .value v => some v
  | .dataclass _, .factory v => some v
  | .dataclass _, .missing => if f.ty.isOptional then some .none else none
  | .plain, _ => if f.ty.isOptional then some .none else none
  | .namedTuple _, _ => none

/-- The field has no value unless its property is present. -/
def IsRequired (kind : ClassKind) (f : FieldDef) : Prop := absentValue kind f = none

/-- The type has `None` among its alternatives, inside an annotation or not. -/
def AllowsNone (t : Ty) : Prop := ∃ ts, Ty.none ∈ ts ∧ (t = .union ts ∨ ∃ ms, t = .annotated (.union ts) ms)

/-- `NonNone t u`: `u` is what remains of the type `t` when `None` is struck from its alternatives. -/
inductive NonNone : Ty → Ty → Prop
  | same {t} : ¬ AllowsNone t → NonNone t t
  | one {pre post u} : Ty.none ∉ pre ++ post → pre ++ post = [u] → NonNone (.union (pre ++ .none :: post)) u
  | many {pre post} : Ty.none ∉ pre ++ post → 2 ≤ (pre ++ post).length →
      NonNone (.union (pre ++ .none :: post)) (.union (pre ++ post))
  | ann {ts u ms} : Ty.none ∈ ts → NonNone (.union ts) u → NonNone (.annotated (.union ts) ms) (.annotated u ms)

/-- Reading one field. -/
def readField (env : Env) (skip : Bool) (kind : ClassKind) (f : FieldDef) (kvs : List (Str × Json)) : Res Val :=
  match lookupKey (fieldProp kind f) kvs with
  | none => (match absentValue kind f with | some v => .ok v | none => .error .jsonKey)
  | some .null => (match absentValue kind f with | some v => .ok v | none => .error .jsonValue)
  | some x => loads env skip (fieldTy kind f) x

/-- Reading one field, with its name. -/
def readNamed (env : Env) (skip : Bool) (kind : ClassKind) (kvs : List (Str × Json)) (f : FieldDef) : Res (Str × Val) :=
  match readField env skip kind f kvs with
  | .ok v => .ok (f.name, v)
  | .error e => .error e

/-- A class whose deserializer can be created and is not a custom one. -/
structure Readable (env : Env) (c : Nat) (cd : ClassDef) : Prop where
  cls : env.classes[c]? = some cd
  standard : cd.custom = false
  typed : cd.kind = .namedTuple false → cd.fields = []
  fields : ∀ f ∈ cd.hints, Supported env (fieldTy cd.kind f)

/-- All properties are the JSON name of a field. -/
def OnlyKnown (cd : ClassDef) (kvs : List (Str × Json)) : Prop :=
  ∀ kv ∈ kvs, ∃ f ∈ cd.hints, fieldProp cd.kind f = kv.1

end Verif
