import Verif.Spec.Buildable
/-!
# Schemas from which no type can be made
-/
namespace Verif

/-- The names that a reference can stand for: `#/definitions/` is followed by the name, and perhaps a line feed. -/
def Refers (cfg : BuildCfg) (r n : Str) : Prop := WordName cfg n ∧ (r = defRef n ∨ r = defRef n ++ ['\n'])

/-- Two underscores within a name, as in names of classes made for properties. -/
def Compound (n : Str) : Prop := ∃ a b, n = a ++ c!"__" ++ b

/-- Keywords that go together: the type, keywords that must be there, and those that may be. -/
structure Vocabulary where
  type : Option Str
  needed : List Str
  words : List Str

/-- Keywords of references, of each type, and of alternatives. -/
def vocabularies : List Vocabulary :=
  [⟨Option.none, [c!"$ref"], [c!"title", c!"description", c!"$ref"]⟩,
   ⟨some c!"boolean", [], [c!"title", c!"description", c!"type", c!"format", c!"const", c!"default", c!"examples"]⟩,
   ⟨some c!"integer", [], [c!"title", c!"description", c!"type", c!"format", c!"const", c!"default", c!"examples", c!"enum",
     c!"minimum", c!"maximum"]⟩,
   ⟨some c!"number", [], [c!"title", c!"description", c!"type", c!"format", c!"const", c!"default", c!"examples", c!"minimum",
     c!"maximum", c!"exclusiveMinimum", c!"exclusiveMaximum", c!"multipleOf"]⟩,
   ⟨some c!"string", [], [c!"title", c!"description", c!"type", c!"format", c!"const", c!"default", c!"examples", c!"enum",
     c!"minLength", c!"maxLength"]⟩,
   ⟨some c!"array", [c!"items"], [c!"title", c!"description", c!"type", c!"format", c!"items"]⟩,
   ⟨some c!"object", [], [c!"title", c!"description", c!"type", c!"format", c!"properties", c!"additionalProperties",
     c!"required"]⟩,
   ⟨Option.none, [c!"oneOf"], [c!"title", c!"description", c!"oneOf"]⟩]

/-- Keywords of a document. -/
def documentVocabulary : Vocabulary :=
  ⟨some c!"object", [c!"$schema"], [c!"title", c!"description", c!"type", c!"format", c!"properties", c!"additionalProperties",
    c!"required", c!"$schema", c!"definitions"]⟩

/-- The keywords are those of the vocabulary. -/
def Vocabulary.Has (V : Vocabulary) (kvs : List (Str × Json)) : Prop :=
  lookupKey c!"type" kvs = V.type.map Json.str ∧ (∀ k ∈ V.needed, ¬ Absent k kvs) ∧ ∀ kv ∈ kvs, kv.1 ∈ V.words

/-- There is a default value that is used. -/
def HasDefault (kvs : List (Str × Json)) : Prop :=
  Absent c!"const" kvs ∧ ∃ x, lookupKey c!"default" kvs = some x ∧ x ≠ .null

/-- The name of the property cannot be that of a field. -/
def BadName (cfg : BuildCfg) (p : Str) : Prop := isIdentifier cfg p = false ∨ isKeyword p = true

/-- Schemas that give no type, where `Known` are the names that may be referred to. -/
inductive NoType (cfg : BuildCfg) (Known : Str → Prop) : Json → Prop
  | scalar {j} : (∀ kvs, j ≠ .obj kvs) → NoType cfg Known j
  | words {kvs} : (∀ V ∈ vocabularies, ¬ V.Has kvs) → NoType cfg Known (.obj kvs)
  | ref {kvs r} : lookupKey c!"$ref" kvs = some (.str r) → (∀ n, Refers cfg r n → ¬ Known n) → NoType cfg Known (.obj kvs)
  | items {kvs x} : lookupKey c!"items" kvs = some x → NoType cfg Known x → NoType cfg Known (.obj kvs)
  | itemsDefault {kvs kws} : lookupKey c!"items" kvs = some (.obj kws) → HasDefault kws → NoType cfg Known (.obj kvs)
  | open {kvs xs} : lookupKey c!"properties" kvs = some (.obj xs) →
      lookupKey c!"additionalProperties" kvs ≠ some (.bool false) → NoType cfg Known (.obj kvs)
  | name {kvs xs x} : lookupKey c!"properties" kvs = some (.obj xs) → x ∈ xs → BadName cfg x.1 → NoType cfg Known (.obj kvs)
  | property {kvs xs x} : lookupKey c!"properties" kvs = some (.obj xs) → x ∈ xs → NoType cfg Known x.2 →
      NoType cfg Known (.obj kvs)
  | never {kvs} : lookupKey c!"oneOf" kvs = some (.arr []) → NoType cfg Known (.obj kvs)
  | member {kvs xs x} : lookupKey c!"oneOf" kvs = some (.arr xs) → x ∈ xs → NoType cfg Known x → NoType cfg Known (.obj kvs)
  | memberDefault {kvs xs kws} : lookupKey c!"oneOf" kvs = some (.arr xs) → .obj kws ∈ xs → HasDefault kws →
      NoType cfg Known (.obj kvs)

/-- Schemas of types whose module cannot be set. -/
inductive Immovable (kvs : List (Str × Json)) : Prop
  | array : HasType c!"array" kvs → Immovable kvs
  | bool : HasType c!"boolean" kvs → Absent c!"const" kvs → Immovable kvs
  | integer : HasType c!"integer" kvs → Absent c!"const" kvs → Absent c!"format" kvs → Absent c!"enum" kvs →
      Absent c!"minimum" kvs ∨ Absent c!"maximum" kvs → Immovable kvs
  | number : HasType c!"number" kvs → Absent c!"const" kvs → Absent c!"format" kvs → Absent c!"multipleOf" kvs → Immovable kvs
  | time : HasType c!"string" kvs → Absent c!"const" kvs →
      HasFormat [c!"date-time", c!"date", c!"time", c!"duration"] kvs → Immovable kvs
  | text : HasType c!"string" kvs → Absent c!"const" kvs → Absent c!"format" kvs → Absent c!"enum" kvs →
      Absent c!"maxLength" kvs → Immovable kvs

/-- Names that a document can refer to: those of definitions, and names with two underscores. -/
def Referable (doc : Json) (n : Str) : Prop := n ∈ (schemaDefs doc).map (·.1) ∨ Compound n

/-- Documents that give no type. -/
inductive NoTypeDocument (cfg : BuildCfg) (kvs : List (Str × Json)) : Prop
  | words : ¬ documentVocabulary.Has kvs → NoTypeDocument cfg kvs
  | definition {x} : x ∈ schemaDefs (.obj kvs) → NoType cfg (Referable (.obj kvs)) x.2 → NoTypeDocument cfg kvs
  | definitionDefault {n kws} : (n, .obj kws) ∈ schemaDefs (.obj kvs) → HasDefault kws → NoTypeDocument cfg kvs
  | immovable {n kws} : (n, .obj kws) ∈ schemaDefs (.obj kvs) → Immovable kws → NoTypeDocument cfg kvs
  | open {xs} : lookupKey c!"properties" kvs = some (.obj xs) →
      lookupKey c!"additionalProperties" kvs ≠ some (.bool false) → NoTypeDocument cfg kvs
  | name {xs x} : lookupKey c!"properties" kvs = some (.obj xs) → x ∈ xs → BadName cfg x.1 → NoTypeDocument cfg kvs
  | property {xs x} : lookupKey c!"properties" kvs = some (.obj xs) → x ∈ xs → NoType cfg (Referable (.obj kvs)) x.2 →
      NoTypeDocument cfg kvs

end Verif
