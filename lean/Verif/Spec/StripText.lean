import Verif.Spec.MetaSchema
/-!
# Schemas without descriptive text

`stripText` removes the keywords `title` and `description` from a schema and from all schemas within.  Properties that have these
names, and examples, constants and defaults, are left as they are.
-/
namespace Verif

/-- Keywords for descriptive text. -/
def descriptiveKeywords : List Str := [c!"title", c!"description"]

mutual
/-- The argument of a keyword of a kind, without descriptive text; for kind `schema`, a schema. -/
def stripArg (K : Option MetaKind) : Json → Json
  | .obj kvs =>
    (match K with
     | some .schema => .obj (stripKws kvs)
     | some .schemaMap => .obj (stripMap kvs)
     | some .schemaPatterns => .obj (stripMap kvs)
     | some .dependencies => .obj (stripMap kvs)
     | _ => .obj kvs)
  | .arr xs =>
    (match K with
     | some .schemas => .arr (stripList xs)
     | _ => .arr xs)
  | .null => .null
  | .bool b => .bool b
  | .int i => .int i
  | .float f => .float f
  | .str s => .str s
/-- The keywords of a schema without those for descriptive text. -/
def stripKws : List (Str × Json) → List (Str × Json)
  | [] => []
  | (k, a) :: r =>
    if k ∈ descriptiveKeywords then stripKws r else (k, stripArg (lookupKey k metaKeywords) a) :: stripKws r
/-- Schemas by name. -/
def stripMap : List (Str × Json) → List (Str × Json)
  | [] => []
  | (k, a) :: r => (k, stripArg (some .schema) a) :: stripMap r
/-- A list of schemas. -/
def stripList : List Json → List Json
  | [] => []
  | a :: r => stripArg (some .schema) a :: stripList r
end

/-- A schema without descriptive text. -/
def stripText (j : Json) : Json := stripArg (some .schema) j

end Verif
