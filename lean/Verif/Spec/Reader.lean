import Verif.Spec.Cache
import Verif.Props.C22_C23_Tagged
import Verif.Props.C24_C25_LiteralEnum
/-!
# Types without deserializer
-/
namespace Verif

/-- The keys of a dictionary of this type cannot be read: integers and classes other than `str`, and enumerations with a value
that is not text, or without members. -/
def BadKey (env : Env) : KeyTy → Prop
  | .str => False
  | .enum e => ∃ ed, env.enums[e]? = some ed ∧ (ed.members = [] ∨ ∃ m ∈ ed.members, ∀ s, m.2 ≠ .str s)
  | .int | .other => True

/-- Reasons for which there is no deserializer: a container without element type, a dictionary with other keys than text, literals
of different types, a tagged union in which a value of a tag occurs twice, or one of these within the type.  Members of tagged unions
are classes, which have deserializers of their own. -/
inductive Fault (env : Env) : Ty → Prop
  | bare {t} : t ∈ [Ty.bareList, .bareSet, .bareTuple, .bareDict] → Fault env t
  | key {k t} : BadKey env k → Fault env (.dict k t)
  | literal {ls} : ¬ SameType ls → Fault env (.literal ls)
  | ambiguous {ts} : Ambiguous env ts → Fault env (.union ts)
  | list {t} : Fault env t → Fault env (.list t)
  | set {t} : Fault env t → Fault env (.set t)
  | dict {k t} : Fault env t → Fault env (.dict k t)
  | tuple {ts t} : t ∈ ts → Fault env t → Fault env (.tuple ts)
  | union {ts t} : (¬ ∃ p, IsTag env ts p) → t ∈ ts → Fault env t → Fault env (.union ts)
  | annotated {t ms} : Fault env t → Fault env (.annotated t ms)

/-- The type refers to a class or an enumeration that does not exist. -/
inductive Dangles (env : Env) : Ty → Prop
  | cls {c} : env.classes[c]? = none → Dangles env (.cls c)
  | enum {e} : env.enums[e]? = none → Dangles env (.enum e)
  | literal {ls e m} : .enum e m ∈ ls → env.enums[e]? = none → Dangles env (.literal ls)
  | key {e t} : env.enums[e]? = none → Dangles env (.dict (.enum e) t)
  | list {t} : Dangles env t → Dangles env (.list t)
  | set {t} : Dangles env t → Dangles env (.set t)
  | dict {k t} : Dangles env t → Dangles env (.dict k t)
  | tuple {ts t} : t ∈ ts → Dangles env t → Dangles env (.tuple ts)
  | union {ts t} : t ∈ ts → Dangles env t → Dangles env (.union ts)
  | annotated {t ms} : Dangles env t → Dangles env (.annotated t ms)

/-- A program in which annotations refer to existing classes and enumerations, and literal types have values (`Literal[]` is not
valid Python). -/
structure Env.Complete (env : Env) : Prop where
  known : ∀ cd ∈ env.classes, ∀ f ∈ cd.hints, ¬ Dangles env f.ty
  literal : ∀ cd ∈ env.classes, ∀ f ∈ cd.hints, f.ty.litArgs ≠ some []

/-- None of the types of the members of the class, without `None` where the member is optional, has a fault; not asked of classes with
`from_json`. -/
def FieldsReadable (env : Env) (c : Nat) : Prop :=
  ∀ cd, env.classes[c]? = some cd → cd.custom = false → ∀ f ∈ cd.hints, ¬ Fault env (fieldTy cd.kind f)

/-- Neither the type has a fault, nor the types of members of classes that it leads to. -/
def HasReader (env : Env) (t : Ty) : Prop := ¬ Fault env t ∧ ∀ c, Reaches env t c → FieldsReadable env c

end Verif
