import Verif.Spec.SchemaBuild
/-!
# Types that are made in a module

Which types are new, under which names they may appear, and which attributes of the module could be types of other modules.
-/
namespace Verif

/-- The name itself, or the name joined to others by two underscores. -/
def NamedAfter (root n : Str) : Prop := n = root ∨ (root ++ c!"__") <+: n

/-- The name is that of the class to be made or of a definition, or one of these joined to others by two underscores. -/
def NameFor (className : Str) (schema : Json) (n : Str) : Prop :=
  NamedAfter className n ∨ ∃ x ∈ schemaDefs schema, NamedAfter x.1 n

/-- A class or enumeration of the module that is in the later program only, and has the given name. -/
inductive NewType (modName : Str) (old new : Env) (n : Str) : Ty → Prop
  | cls {c cd} : old.classes.length ≤ c → new.classes[c]? = some cd → cd.name = n → cd.module = modName →
      NewType modName old new n (.cls c)
  | enum {e ed} : old.enums.length ≤ e → new.enums[e]? = some ed → ed.name = n → ed.module = modName →
      NewType modName old new n (.enum e)

/-- Classes of the standard library whose `__module__` can be set. -/
def libraryTypes : List (Str × Ty) := [(c!"uuid", .uuid), (c!"ipv4", .ipv4), (c!"ipv6", .ipv6)]

/-- A class that is not of the module, or a union with such a class. -/
inductive Foreign (modName : Str) (env : Env) : Ty → Prop
  | cls {c} : (∀ cd, env.classes[c]? = some cd → cd.module ≠ modName) → Foreign modName env (.cls c)
  | enum {e} : (∀ ed, env.enums[e]? = some ed → ed.module ≠ modName) → Foreign modName env (.enum e)
  | library {f t} : (f, t) ∈ libraryTypes → Foreign modName env t
  | union {t ts} : t ∈ ts → Foreign modName env t → Foreign modName env (.union ts)

/-- No attribute of the module is a class of another module. -/
def OwnTypes (modName : Str) (env : Env) (attrs : List (Str × Ty)) : Prop :=
  ∀ n t, lookupKey n attrs = some t → ¬ Foreign modName env t

/-- No definition has a format whose type is such a class of the standard library; the format may still occur in the
properties of the document itself. -/
def NoLibraryFormats (schema : Json) : Prop :=
  ∀ x ∈ schemaDefs schema, ∀ kvs, (Json.obj kvs).Within x.2 → ∀ f t, (f, t) ∈ libraryTypes →
    lookupKey c!"format" kvs ≠ some (.str f)

/-- The schema of an object, and neither a reference nor a choice. -/
def ObjectSchema : Json → Prop
  | .obj kvs => HasType c!"object" kvs ∧ lookupKey c!"$ref" kvs = Option.none ∧ lookupKey c!"oneOf" kvs = Option.none
  | _ => False

end Verif
