import Verif.Model.Core
/-!
# Names of classes in the annotations of data classes

`class Node: children: list["Node"]` names a class by a string.  The names are those of the classes and enumerations outside of
unions; for unions, serializers look at values only.
-/
namespace Verif

/-- The annotation mentions a class or an enumeration outside of unions. -/
inductive NamesClass : Ty → Prop
  | cls {c} : NamesClass (.cls c)
  | enum {e} : NamesClass (.enum e)
  | key {e t} : NamesClass (.dict (.enum e) t)
  | dict {k t} : NamesClass t → NamesClass (.dict k t)
  | list {t} : NamesClass t → NamesClass (.list t)
  | set {t} : NamesClass t → NamesClass (.set t)
  | tuple {ts t} : t ∈ ts → NamesClass t → NamesClass (.tuple ts)
  | annotated {t ms} : NamesClass t → NamesClass (.annotated t ms)

/-- The annotation mentions a class or an enumeration within `Annotated`, or an enumeration as the type of keys. -/
inductive Hidden : Ty → Prop
  | key {e t} : Hidden (.dict (.enum e) t)
  | annotated {t ms} : NamesClass t → Hidden (.annotated t ms)
  | dict {k t} : Hidden t → Hidden (.dict k t)
  | list {t} : Hidden t → Hidden (.list t)
  | set {t} : Hidden t → Hidden (.set t)
  | tuple {ts t} : t ∈ ts → Hidden t → Hidden (.tuple ts)

/-- No serializer exists for the type, whatever the classes in it: it has, outside of unions, a dictionary with keys that are not
strings, or literals of different types (or an enumeration that is not in the program). -/
inductive Offends (env : Env) : Ty → Prop
  | key {k t} : k = .int ∨ k = .other → Offends env (.dict k t)
  | enumKey {e t} : (∀ ed, env.enums[e]? = some ed → ¬ (ed.members ≠ [] ∧ ∀ m ∈ ed.members, ∃ s, m.2 = .str s)) →
      Offends env (.dict (.enum e) t)
  | literal {ls} : ¬ (ls ≠ [] ∧ ∀ l ∈ ls, ∀ l' ∈ ls, l.ty = l'.ty) → Offends env (.literal ls)
  | enum {e} : env.enums[e]? = none → Offends env (.enum e)
  | dict {k t} : Offends env t → Offends env (.dict k t)
  | list {t} : Offends env t → Offends env (.list t)
  | set {t} : Offends env t → Offends env (.set t)
  | tuple {ts t} : t ∈ ts → Offends env t → Offends env (.tuple ts)
  | annotated {t ms} : Offends env t → Offends env (.annotated t ms)

/-- The class has serializers for its fields, as far as this does not depend on other classes: it has `to_json`, or no field is of
a type without serializer and, for data classes, no name of a class or enumeration in an annotation is hidden. -/
def ClassDef.Presentable (env : Env) (cd : ClassDef) : Prop :=
  (∃ f, cd.toJson = some f) ∨
    ∀ f ∈ cd.hints, ¬ Offends env f.ty ∧ ((∃ q, cd.kind = .dataclass q) → f.fwd = true → ¬ Hidden f.ty)

end Verif
