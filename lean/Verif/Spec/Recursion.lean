import Verif.Model.Serializer
/-!
# Classes that need the serializers of other classes
-/
namespace Verif

/-- The class occurs in the type outside of unions. -/
inductive Static : Ty → Nat → Prop
  | cls {c} : Static (.cls c) c
  | list {t c} : Static t c → Static (.list t) c
  | dict {k t c} : Static t c → Static (.dict k t) c
  | set {t c} : Static t c → Static (.set t) c
  | annotated {t ms c} : Static t c → Static (.annotated t ms) c
  | tuple {ts t c} : t ∈ ts → Static t c → Static (.tuple ts) c

/-- A class without `to_json` whose annotations mention another class (or itself) outside of unions. -/
def Needs (env : Env) (c c' : Nat) : Prop :=
  ∃ cd, env.classes[c]? = some cd ∧ cd.toJson = none ∧ ∃ f ∈ cd.hints, Static f.ty c'

/-- The classes that a type leads to. -/
inductive Needed (env : Env) (t : Ty) : Nat → Prop
  | here {c} : Static t c → Needed env t c
  | next {c c'} : Needed env t c → Needs env c c' → Needed env t c'

/-- The class leads back to itself. -/
def SelfReferential (env : Env) (c : Nat) : Prop := Relation.TransGen (Needs env) c c

/-- The classes mentioned exist. -/
def Scoped (env : Env) (t : Ty) : Prop := ∀ c, Needed env t c → ∃ cd, env.classes[c]? = some cd

end Verif
