import Verif.Spec.Admits
import Verif.Spec.ClassBuild
import Verif.Spec.ClassRead
/-!
# Where the reader is more liberal than the schema
-/
namespace Verif

/-- The scalar is a Boolean. -/
def Scalar.IsBool (s : Scalar) : Prop := ∃ b, s = .bool b

/-- Types for which the claim is made.  Left out are `IPv4Address` and `IPv6Address`, containers without parameters, literals that are
members of enumerations, dictionaries whose keys are of an enumeration with many members, and unions whose members do not exclude
each other. -/
inductive Mirrored (vc : ValidatorCfg) (cfg : SchemaCfg) (env : Env) : Ty → Prop
  | leaf {t : Ty} : t.IsPlain → Mirrored vc cfg env t
  | literal {ls} : (∀ e m, Lit.enum e m ∉ ls) → Mirrored vc cfg env (.literal ls)
  | enum {e} : Mirrored vc cfg env (.enum e)
  | annotated {t ms} : Mirrored vc cfg env t → Mirrored vc cfg env (.annotated t ms)
  | list {t} : Mirrored vc cfg env t → Mirrored vc cfg env (.list t)
  | set {t} : Mirrored vc cfg env t → Mirrored vc cfg env (.set t)
  | tuple {ts} : (∀ t ∈ ts, Mirrored vc cfg env t) → Mirrored vc cfg env (.tuple ts)
  | dictStr {t} : Mirrored vc cfg env t → Mirrored vc cfg env (.dict .str t)
  | dictEnum {e ed t} : env.enums[e]? = some ed → ed.members.length ≤ enumExpansionLimit → Mirrored vc cfg env t →
      Mirrored vc cfg env (.dict (.enum e) t)
  | union {ts} : (∀ t ∈ ts, Mirrored vc cfg env t) →
      (∀ (i k : Nat) t u, i ≠ k → ts[i]? = some t → ts[k]? = some u → ∀ j : Json, j.Wf →
        ¬ (Admits vc cfg env t j ∧ Admits vc cfg env u j)) → Mirrored vc cfg env (.union ts)
  | cls {c} : Mirrored vc cfg env (.cls c)

/-- Classes for which the claim is made: without `from_json`, read under the names that the schema has, and no named tuple with an
optional field. -/
structure ClassMirrored (vc : ValidatorCfg) (cfg : SchemaCfg) (env : Env) (cd : ClassDef) : Prop where
  standard : cd.custom = false
  names : ∀ f ∈ cd.hints, fieldProp cd.kind f = jsonName f
  absent : ∀ f ∈ cd.hints, f.ty.isOptional = true → ¬ IsRequired cd.kind f
  types : ∀ f ∈ cd.hints, Mirrored vc cfg env f.ty.required

/-- The liberties: somewhere the data

* has a Boolean for a number,
* has a text in a form that the checker of formats does not know,
* does not keep to an annotation,
* has an item of a set twice,
* has `null` for a property, or
* lacks a property of a field that is not optional, but has a default.

For a union, this is so in view of every member that reads the data. -/
inductive Lax (vc : ValidatorCfg) (cfg : SchemaCfg) (env : Env) : Ty → Json → Prop
  | boolInt {b} : Lax vc cfg env .int (.bool b)
  | boolFloat {b} : Lax vc cfg env .float (.bool b)
  | boolLiteral {ls b} : (∀ l ∈ ls, ∃ i, l = Lit.int i) → Lax vc cfg env (.literal ls) (.bool b)
  | boolEnum {e ed j s} : env.enums[e]? = some ed → j.scalar = some s →
      (∀ m ∈ ed.members, s.pyEq m.2 = true → ¬ (s.IsBool ↔ m.2.IsBool)) → Lax vc cfg env (.enum e) j
  | text {f t s} : (f, t) ∈ textFormats → vc.format f s = false → Lax vc cfg env t (.str s)
  | note {t ms j} : t.IsPlain → auxFormat t ms = none → ¬ MetaDemand vc cfg ms j → Lax vc cfg env (.annotated t ms) j
  | twice {t xs} : allDistinct xs = false → Lax vc cfg env (.set t) (.arr xs)
  | null {c cd f kvs} : env.classes[c]? = some cd → f ∈ cd.hints → lookupKey (jsonName f) kvs = some .null →
      ¬ Admits vc cfg env f.ty.required .null → Lax vc cfg env (.cls c) (.obj kvs)
  | absent {c cd f kvs} : env.classes[c]? = some cd → f ∈ cd.hints → f.ty.isOptional = false → lookupKey (jsonName f) kvs = none →
      Lax vc cfg env (.cls c) (.obj kvs)
  | annotated {t ms j} : Lax vc cfg env t j → Lax vc cfg env (.annotated t ms) j
  | list {t x xs} : x ∈ xs → Lax vc cfg env t x → Lax vc cfg env (.list t) (.arr xs)
  | set {t x xs} : x ∈ xs → Lax vc cfg env t x → Lax vc cfg env (.set t) (.arr xs)
  | tuple {ts : List Ty} {xs : List Json} {i : Nat} {t x} : ts[i]? = some t → xs[i]? = some x → Lax vc cfg env t x →
      Lax vc cfg env (.tuple ts) (.arr xs)
  | dict {k t kv kvs} : kv ∈ kvs → Lax vc cfg env t kv.2 → Lax vc cfg env (.dict k t) (.obj kvs)
  | union {ts j} : (∀ t ∈ ts, ∀ v, loads env false t j = .ok v → Lax vc cfg env t j) → Lax vc cfg env (.union ts) j
  | cls {c cd f x kvs} : env.classes[c]? = some cd → f ∈ cd.hints → lookupKey (jsonName f) kvs = some x →
      Lax vc cfg env f.ty.required x → Lax vc cfg env (.cls c) (.obj kvs)

/-- Types without unions. -/
inductive NoUnion : Ty → Prop
  | leaf {t : Ty} : t.IsPlain → NoUnion t
  | literal {ls} : NoUnion (.literal ls)
  | enum {e} : NoUnion (.enum e)
  | annotated {t ms} : NoUnion t → NoUnion (.annotated t ms)
  | list {t} : NoUnion t → NoUnion (.list t)
  | set {t} : NoUnion t → NoUnion (.set t)
  | tuple {ts} : (∀ t ∈ ts, NoUnion t) → NoUnion (.tuple ts)
  | dict {k t} : NoUnion t → NoUnion (.dict k t)
  | cls {c} : NoUnion (.cls c)

end Verif
