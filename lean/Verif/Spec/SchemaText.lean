import Verif.Model.SchemaText
/-!
# Descriptive text of a type
-/
namespace Verif

/-- A text, unless it is missing or empty. -/
def shown : Option Str → Option Str
  | some (c :: r) => some (c :: r)
  | _ => none

/-- The title of a class with documentation `d`. -/
def DocBase.title (b : DocBase) (d : Docstring) : Option Str := if b.isDefault then none else shown d.short

/-- The description of a class with documentation `d`. -/
def DocBase.description (b : DocBase) (d : Docstring) : Option Str := if b.isDefault then none else shown d.long

/-- The text for a parameter is given by the first of some classes that documents it. -/
inductive FirstDoc (n : Str) (x : Str) : List DocBase → Prop
  | here {b bs d} : b.parse = .ok d → lookupKey n d.params = some x → FirstDoc n x (b :: bs)
  | later {b bs d} : b.parse = .ok d → lookupKey n d.params = none → FirstDoc n x bs → FirstDoc n x (b :: bs)

/-- None of some classes documents the parameter. -/
def Undocumented (n : Str) (bs : List DocBase) : Prop := ∀ b ∈ bs, ∀ d, b.parse = .ok d → lookupKey n d.params = none

/-- All documentation strings can be read. -/
def DocsReadable (tx : SchemaTexts) : Prop :=
  ∀ t, ∀ b ∈ (tx.ofType t).toDocBase :: (tx.ofType t).bases, ∃ d, b.parse = .ok d

end Verif
