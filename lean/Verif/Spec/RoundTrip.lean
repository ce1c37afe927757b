import Verif.Props.C22_C23_Tagged
import Verif.Props.C24_C25_LiteralEnum
import Verif.Props.C13_PlainJson
import Verif.Spec.Kinds
/-!
# Programs, types and values for which serialization can be undone
-/
namespace Verif

/-- Values that have a JSON text from which they can be recovered: date-times with time zone (C06), time zone offsets that
are not fractions of a second (C05, C07) and non-negative durations (C01), at all levels. -/
inductive Encodable : Val → Prop
  | leaf {v} : v.isLeaf = true → (∀ d, v = .datetime d → d.Aware ∧ d.time.Coarse) → (∀ d, v = .timedelta d → 0 ≤ d.days) →
      (∀ t, v = .time t → t.Coarse) → Encodable v
  | list {vs} : (∀ v ∈ vs, Encodable v) → Encodable (.list vs)
  | set {vs} : (∀ v ∈ vs, Encodable v) → Encodable (.set vs)
  | tuple {vs} : (∀ v ∈ vs, Encodable v) → Encodable (.tuple vs)
  | dict {kvs} : (∀ kv ∈ kvs, Encodable kv.2) → Encodable (.dict kvs)
  | obj {c fs} : (∀ kv ∈ fs, Encodable kv.2) → Encodable (.obj c fs)

/-- All kinds of JSON values. -/
def allKinds : List Kind := [.null, .bool, .int, .float, .str, .arr, .obj]

/-- Kind of the JSON value of a scalar. -/
def Scalar.kind (s : Scalar) : Kind := s.toJson.kind

/-- Kinds of the values of an enumeration. -/
def enumKinds (env : Env) (e : Nat) : List Kind :=
  match env.enums[e]? with
  | some ed => if ed.toJson.isSome then allKinds else ed.members.map (fun m => m.2.kind)
  | none => allKinds

mutual
/-- Kinds of JSON values that values of a type are written as. -/
def writeKinds (env : Env) : Ty → List Kind
  | .none => [.null]
  | .bool => [.bool]
  | .int => [.int]
  | .float => [.float]
  | .str | .bytes | .datetime | .date | .time | .timedelta | .uuid | .ipv4 | .ipv6 => [.str]
  | .list _ | .set _ | .tuple _ | .bareList | .bareSet | .bareTuple => [.arr]
  | .dict _ _ | .bareDict => [.obj]
  | .union ts => writeKindsL env ts
  | .literal ls => ls.flatMap fun l => match l with
    | .none => [.null]
    | .bool _ => [.bool]
    | .int _ => [.int]
    | .str _ => [.str]
    | .enum e _ => enumKinds env e
  | .annotated t _ => writeKinds env t
  | .enum e => enumKinds env e
  | .cls c => match env.classes[c]? with
    | some cd => if cd.toJson.isSome then allKinds else [.obj]
    | Option.none => allKinds
def writeKindsL (env : Env) : List Ty → List Kind
  | [] => []
  | t :: ts => writeKinds env t ++ writeKindsL env ts
end

mutual
/-- Kinds of JSON values that are refused when a type is expected, with an error after which a union goes on with its
next member. -/
def rejectKinds (env : Env) : Ty → List Kind
  | .none => [.bool, .int, .float, .str, .arr, .obj]
  | .bool => [.null, .int, .float, .str, .arr, .obj]
  | .int => [.null, .float, .str, .arr, .obj]
  | .float => [.null, .str, .arr, .obj]
  | .str | .bytes | .datetime | .date | .time | .timedelta | .uuid | .ipv4 | .ipv6 => [.null, .bool, .int, .float, .arr, .obj]
  | .list _ | .set _ | .tuple _ => [.null, .bool, .int, .float, .str, .obj]
  | .dict _ _ => [.null, .bool, .int, .float, .str, .arr]
  | .union ts => rejectKindsL env ts
  | .literal ls => match ls with
    | .none :: _ => [.bool, .int, .float, .str, .arr, .obj]
    | .bool _ :: _ => [.null, .int, .float, .str, .arr, .obj]
    | .int _ :: _ => [.null, .float, .str, .arr, .obj]
    | .str _ :: _ => [.null, .bool, .int, .float, .arr, .obj]
    | _ => []
  | .annotated t _ => rejectKinds env t
  | .cls c => match env.classes[c]? with
    | some cd => if cd.custom then [] else [.null, .bool, .int, .float, .str, .arr]
    | Option.none => []
  | _ => []
def rejectKindsL (env : Env) : List Ty → List Kind
  | [] => allKinds
  | t :: ts => (rejectKinds env t).filter fun k => k ∈ rejectKindsL env ts
end

/-- A text field that has a value even if its property is absent. -/
def OptionalText (kind : ClassKind) (g : FieldDef) : Prop := fieldTy kind g = .str ∧ (absentValue kind g).isSome = true

/-- A criterion by which a union member `t` does not get in the way of a later member `u`: whatever is written for a
value of type `u` is refused by `t`, or is read by `t` as the same value. -/
inductive Apart (env : Env) : Ty → Ty → Prop
  /-- the kinds of JSON values differ -/
  | kinds {t u} : (∀ k ∈ writeKinds env u, k ∈ rejectKinds env t) → Apart env t u
  | list {t u} : Apart env t u → Apart env (.list t) (.list u)
  | dict {t u} : Apart env t u → Apart env (.dict .str t) (.dict .str u)
  | annotatedL {t u ms} : Apart env t u → Apart env (.annotated t ms) u
  | annotatedR {t u ms} : Apart env t u → Apart env t (.annotated u ms)
  /-- string literals before other strings -/
  | litStr {ls} : (∀ l ∈ ls, ∃ s, l = .str s) → Apart env (.literal ls) .str
  | litLit {ls ls'} : (∀ l ∈ ls, ∃ s, l = .str s) → (∀ l ∈ ls', ∃ s, l = .str s) → Apart env (.literal ls) (.literal ls')
  /-- a class with a required property that the other class does not have, and that comes before any property that both
  have, except for optional texts -/
  | cls {c d cd dd pre f post} : Readable env c cd → env.classes[d]? = some dd → dd.toJson = none →
      dd.kind ≠ .namedTuple false → (dd.kind = .plain → dd.fields ≠ []) → (dd.fields.map (writeProp dd.kind)).Nodup →
      cd.hints = pre ++ f :: post → IsRequired cd.kind f → fieldProp cd.kind f ∉ dd.fields.map (writeProp dd.kind) →
      (∀ g ∈ pre, fieldProp cd.kind g ∉ dd.fields.map (writeProp dd.kind) ∨ OptionalText cd.kind g) → Apart env (.cls c) (.cls d)
  /-- classes with a property that both have, whose values are different string literals, and that comes before any other
  property that both have, except for optional texts -/
  | clsTag {c d cd dd pre f post g ls ls'} : Readable env c cd → env.classes[d]? = some dd → dd.toJson = none →
      dd.kind ≠ .namedTuple false → (dd.kind = .plain → dd.fields ≠ []) → (dd.fields.map (writeProp dd.kind)).Nodup →
      (dd.fields.map FieldDef.name).Nodup →
      cd.hints = pre ++ f :: post → g ∈ dd.fields → writeProp dd.kind g = fieldProp cd.kind f →
      fieldTy cd.kind f = .literal ls → g.ty = .literal ls' → ls ≠ [] → (∀ l ∈ ls, ∃ s, l = .str s) → (∀ l ∈ ls', ∃ s, l = .str s) →
      (∀ l ∈ ls', l ∉ ls) →
      (∀ g ∈ pre, fieldProp cd.kind g ∉ dd.fields.map (writeProp dd.kind) ∨ OptionalText cd.kind g) → Apart env (.cls c) (.cls d)

/-- An enumeration without `to_json` none of whose values is `None` or NaN. -/
def EnumPlain (env : Env) (e : Nat) : Prop :=
  ∃ ed, env.enums[e]? = some ed ∧ ed.toJson = none ∧ ∀ p ∈ ed.members, p.2 ≠ .none ∧ p.2 ≠ .float .nan

/-- Types for which the round trip is claimed; `G` is the set of classes that may occur. -/
inductive Invertible (env : Env) (G : Nat → Prop) : Ty → Prop
  | scalar {t} : t ∈ scalarTys → Invertible env G t
  | list {t} : Invertible env G t → Invertible env G (.list t)
  | set {t} : Invertible env G t → Invertible env G (.set t)
  | tuple {ts} : (∀ t ∈ ts, Invertible env G t) → Invertible env G (.tuple ts)
  | dictStr {t} : Invertible env G t → Invertible env G (.dict .str t)
  | dictEnum {e ed t} : env.enums[e]? = some ed → ed.strValued = true → Invertible env G t →
      Invertible env G (.dict (.enum e) t)
  | annotated {t ms} : Invertible env G t → Invertible env G (.annotated t ms)
  | literal {ls} : SameType ls → (∀ e m, Lit.enum e m ∈ ls → EnumPlain env e ∧
      ∃ ed, env.enums[e]? = some ed ∧ m < ed.members.length) → Invertible env G (.literal ls)
  | enum {e} : EnumPlain env e → Invertible env G (.enum e)
  | cls {c} : G c → Invertible env G (.cls c)
  /-- a union without tag, each member of which stays clear of the later ones -/
  | union {ts} : Untagged env ts → (∀ t ∈ ts, Invertible env G t) →
      (∀ (i k : Nat) t u, i < k → ts[i]? = some t → ts[k]? = some u → Apart env t u) → Invertible env G (.union ts)
  /-- a union with tags that are unique, written under their own name, and neither `None` nor enumeration members, of
  classes without `to_json` -/
  | tagged {ts} : (∃ p, IsTag env ts p) → ¬ Ambiguous env ts → (∀ t ∈ ts, Invertible env G t) →
      (∀ c cd, Ty.cls c ∈ ts → env.classes[c]? = some cd → cd.toJson = none) →
      (∀ p c cd f, IsTag env ts p → Ty.cls c ∈ ts → env.classes[c]? = some cd → f ∈ cd.hints → f.name = p →
        writeProp cd.kind f = p) →
      (∀ p t l, IsTag env ts p → t ∈ ts → TagValue env t p l → l ≠ .none ∧ ∀ e m, l ≠ .enum e m) →
      Invertible env G (.union ts)

/-- Classes for which the round trip is claimed: either ordinary classes whose field types are invertible, which write
and read each field under the same name, different for each field, and where a field that may be `None` is `None` if
absent; or classes with inverse methods `to_json` and `from_json`. -/
inductive ClassInvertible (env : Env) (G : Nat → Prop) (c : Nat) : Prop
  | standard (cd : ClassDef) (hc : env.classes[c]? = some cd) (hto : cd.toJson = none) (hcu : cd.custom = false)
      (hkind : cd.kind ≠ .namedTuple false) (hne : cd.kind = .plain → cd.fields ≠ [])
      (hser : serCreate env (.cls c) = .ok ()) (hprops : (cd.fields.map (writeProp cd.kind)).Nodup)
      (hsame : ∀ f ∈ cd.fields, fieldProp cd.kind f = writeProp cd.kind f)
      (hty : ∀ f ∈ cd.fields, Invertible env G (fieldTy cd.kind f))
      (habs : ∀ f ∈ cd.fields, HasTy env .none f.ty → absentValue cd.kind f = some .none)
  | hooks (cd : ClassDef) (hc : env.classes[c]? = some cd) (f : Val → Res Json) (g : Json → Res Val)
      (hto : cd.toJson = some f) (hfrom : cd.fromJson = some g) (hcu : cd.custom = true)
      (hinv : ∀ v, HasTy env v (.cls c) → ∃ j, f v = .ok j ∧ j ≠ .null ∧ g j = .ok v)

end Verif
