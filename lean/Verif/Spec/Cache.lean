import Verif.Model.Cache
import Verif.Spec.Env
/-!
# Programs whose classes can all be deserialized
-/
namespace Verif

mutual
/-- All classes that occur in a type are in `G`. -/
def Ty.Within (G : Nat → Prop) : Ty → Prop
  | .list t => t.Within G
  | .dict _ t => t.Within G
  | .set t => t.Within G
  | .annotated t _ => t.Within G
  | .tuple ts => Ty.WithinL G ts
  | .union ts => Ty.WithinL G ts
  | .cls c => G c
  | _ => True
/-- The same for a list of types. -/
def Ty.WithinL (G : Nat → Prop) : List Ty → Prop
  | [] => True
  | t :: ts => t.Within G ∧ Ty.WithinL G ts
end

theorem Ty.withinL_iff {G : Nat → Prop} {ts : List Ty} : Ty.WithinL G ts ↔ ∀ t ∈ ts, t.Within G := by
  induction ts with
  | nil => simp [Ty.WithinL]
  | cons t ts ih => simp [Ty.WithinL, ih]

/-- A set of classes that contains all classes mentioned by the fields of its members. -/
def ClosedClasses (env : Env) (R : Nat → Prop) : Prop :=
  ∀ c, R c → ∀ cd, env.classes[c]? = some cd → cd.custom = false → ∀ f ∈ cd.hints, (fieldTy cd.kind f).Within R

/-- A set of classes whose field types are supported and only lead to classes in the set.  Classes with `from_json` lead
nowhere. -/
def GoodClasses (env : Env) (G : Nat → Prop) : Prop :=
  ∀ c, G c → ∃ cd, env.classes[c]? = some cd ∧
    (cd.custom = false → (∃ fds, compileFields env cd = .ok fds) ∧ ∀ f ∈ cd.hints, (fieldTy cd.kind f).Within G)

/-- The class occurs in the type. -/
inductive Mentions : Ty → Nat → Prop
  | cls {c} : Mentions (.cls c) c
  | list {t c} : Mentions t c → Mentions (.list t) c
  | dict {k t c} : Mentions t c → Mentions (.dict k t) c
  | set {t c} : Mentions t c → Mentions (.set t) c
  | annotated {t ms c} : Mentions t c → Mentions (.annotated t ms) c
  | tuple {ts t c} : t ∈ ts → Mentions t c → Mentions (.tuple ts) c
  | union {ts t c} : t ∈ ts → Mentions t c → Mentions (.union ts) c

/-- The class occurs in the type or in the fields of such a class, and so on. -/
inductive Reaches (env : Env) (t : Ty) : Nat → Prop
  | here {c} : Mentions t c → Reaches env t c
  | field {c cd f c'} : Reaches env t c → env.classes[c]? = some cd → cd.custom = false → f ∈ cd.hints →
      Mentions f.ty c' → Reaches env t c'

/-- Deserializers can be created for the fields of a class that exists; classes with `from_json` need none. -/
def Buildable (env : Env) (c : Nat) : Prop :=
  ∃ cd, env.classes[c]? = some cd ∧ (cd.custom = false → ∀ f ∈ cd.hints, Supported env (fieldTy cd.kind f))

end Verif
