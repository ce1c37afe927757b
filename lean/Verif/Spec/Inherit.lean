import Verif.Model.Inherit
/-!
# Members of derived classes
-/
namespace Verif

/-- The members of a list, each once, where it occurs first. -/
def firsts : List Str → List Str
  | [] => []
  | x :: r => x :: (firsts r).filter (fun y => y ≠ x)

/-- The class numbered `b` has annotation `f` in its body. -/
def HasAnnotation (w : List PyClass) (b : Nat) (f : FieldDef) : Prop := ∃ c, w[b]? = some c ∧ f ∈ c.own

/-- `f` is the annotation for name `n` in the first of the classes that has one. -/
def Nearest (w : List PyClass) (mro : List Nat) (n : Str) (f : FieldDef) : Prop :=
  ∃ pre b post, mro = pre ++ b :: post ∧ HasAnnotation w b f ∧ f.name = n ∧ ∀ b' ∈ pre, ∀ f', HasAnnotation w b' f' → f'.name ≠ n

/-- The names annotated in a class body, in order. -/
def bodyNames (w : List PyClass) (b : Nat) : List Str := match w[b]? with | some c => c.own.map FieldDef.name | none => []

/-- A program in which a name is annotated at most once in each class body. -/
def ClassStmt.Distinct (s : ClassStmt) : Prop := (s.own.map FieldDef.name).Nodup

/-- At most one base class, and no annotations without the decorator. -/
def ClassStmt.Simple (s : ClassStmt) : Prop := s.bases.length ≤ 1 ∧ (s.decorated ≠ none ∨ s.own = [])

end Verif
