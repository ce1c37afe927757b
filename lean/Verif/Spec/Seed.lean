import Verif.Spec.RoundTrip
/-!
# The same program with another hash seed
-/
namespace Verif

/-- The same program in a process with another hash seed (`PYTHONHASHSEED`), in which sets of strings are iterated in another
order. -/
def Env.reseed (env : Env) (order : List Str → List Str) : Env := { env with setOrder := order }

/-- An iteration order: every set is iterated in some order of its elements. -/
def SetOrder (order : List Str → List Str) : Prop := ∀ l, (order l).Perm l

/-- Types in which every union has at most one tag.  `good` are the classes that may occur. -/
inductive OneTagged (env : Env) (good : Nat → Prop) : Ty → Prop
  | scalar {t} : t ∈ scalarTys → OneTagged env good t
  | literal {ls} : OneTagged env good (.literal ls)
  | enum {e} : OneTagged env good (.enum e)
  | annotated {t ms} : OneTagged env good t → OneTagged env good (.annotated t ms)
  | list {t} : OneTagged env good t → OneTagged env good (.list t)
  | set {t} : OneTagged env good t → OneTagged env good (.set t)
  | tuple {ts} : (∀ t ∈ ts, OneTagged env good t) → OneTagged env good (.tuple ts)
  | dict {k t} : OneTagged env good t → OneTagged env good (.dict k t)
  | cls {c} : good c → OneTagged env good (.cls c)
  | union {ts} : (∀ p q, IsTag env ts p → IsTag env ts q → p = q) → (∀ t ∈ ts, OneTagged env good t) →
      OneTagged env good (.union ts)

/-- The fields of these classes have types that satisfy `P`, unless the class has its own `from_json`. -/
def FieldsSatisfy (env : Env) (good : Nat → Prop) (P : Ty → Prop) : Prop :=
  ∀ c cd, good c → env.classes[c]? = some cd → cd.custom = true ∨ ∀ f ∈ cd.hints, P (fieldTy cd.kind f)

/-- Types in which the unions that have several tags are not part of a union without tag.  These tags are read under their own
name, and their values are not members of an enumeration.  `calm` are the classes that may occur, `good` those that may occur
in unions without tag. -/
inductive Seedproof (env : Env) (good calm : Nat → Prop) : Ty → Prop
  | steady {t} : OneTagged env good t → Seedproof env good calm t
  | annotated {t ms} : Seedproof env good calm t → Seedproof env good calm (.annotated t ms)
  | list {t} : Seedproof env good calm t → Seedproof env good calm (.list t)
  | set {t} : Seedproof env good calm t → Seedproof env good calm (.set t)
  | tuple {ts} : (∀ t ∈ ts, Seedproof env good calm t) → Seedproof env good calm (.tuple ts)
  | dict {k t} : Seedproof env good calm t → Seedproof env good calm (.dict k t)
  | cls {c} : calm c → Seedproof env good calm (.cls c)
  | tagged {ts} : (∃ p, IsTag env ts p) → (∀ c, Ty.cls c ∈ ts → calm c) →
      (∀ q c cd f, IsTag env ts q → Ty.cls c ∈ ts → env.classes[c]? = some cd → f ∈ cd.hints → f.name = q →
        cd.custom = false ∧ fieldProp cd.kind f = q ∧ ∀ ls e m, f.ty.litArgs = some ls → Lit.enum e m ∉ ls) →
      Seedproof env good calm (.union ts)

end Verif
