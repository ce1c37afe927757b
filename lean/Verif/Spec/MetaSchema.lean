import Verif.Spec.JsonSchema
/-!
# The meta-schema of JSON Schema, Draft 2020-12

Which JSON values are schemas.  The table lists all keywords of the vocabularies core, applicator, unevaluated, validation,
meta-data, format-annotation and content, and the deprecated keywords that the meta-schema still describes.  Strings with a
format are checked, as `check_schema` of the package `jsonschema` does (version 4.25 or later, pyproject.toml:36);
the checker is a parameter.  This file does not depend on the generator.
-/
namespace Verif

/-- What the meta-schema says on the argument of a keyword. -/
inductive MetaKind where
  /-- anything -/
  | any
  | string
  /-- a string with a format -/
  | formatted (format : Str)
  /-- a reference to a resource without fragment -/
  | resource
  /-- the name of a place in a document -/
  | anchor
  | boolean
  | number
  /-- a number greater than zero -/
  | positive
  /-- an integer that is not less than zero -/
  | count
  | array
  /-- distinct strings -/
  | strings
  /-- the name of a type, or one or several distinct names -/
  | types
  /-- a schema -/
  | schema
  /-- one or several schemas -/
  | schemas
  /-- an object with schemas -/
  | schemaMap
  /-- an object with schemas, whose names have a format -/
  | schemaPatterns
  /-- an object with lists of distinct strings -/
  | stringsMap
  /-- an object with schemas or lists of distinct strings -/
  | dependencies
  /-- an object with Boolean values, whose names are addresses -/
  | vocabularies
  deriving DecidableEq

/-- The keywords. -/
def metaKeywords : List (Str × MetaKind) :=
  [-- core
   (c!"$id", .resource), (c!"$schema", .formatted c!"uri"), (c!"$ref", .formatted c!"uri-reference"), (c!"$anchor", .anchor),
   (c!"$dynamicRef", .formatted c!"uri-reference"), (c!"$dynamicAnchor", .anchor), (c!"$vocabulary", .vocabularies),
   (c!"$comment", .string), (c!"$defs", .schemaMap),
   -- applicator
   (c!"prefixItems", .schemas), (c!"items", .schema), (c!"contains", .schema), (c!"additionalProperties", .schema),
   (c!"properties", .schemaMap), (c!"patternProperties", .schemaPatterns), (c!"dependentSchemas", .schemaMap),
   (c!"propertyNames", .schema), (c!"if", .schema), (c!"then", .schema), (c!"else", .schema), (c!"allOf", .schemas),
   (c!"anyOf", .schemas), (c!"oneOf", .schemas), (c!"not", .schema),
   -- unevaluated
   (c!"unevaluatedItems", .schema), (c!"unevaluatedProperties", .schema),
   -- validation
   (c!"type", .types), (c!"const", .any), (c!"enum", .array), (c!"multipleOf", .positive), (c!"maximum", .number),
   (c!"exclusiveMaximum", .number), (c!"minimum", .number), (c!"exclusiveMinimum", .number), (c!"maxLength", .count),
   (c!"minLength", .count), (c!"pattern", .formatted c!"regex"), (c!"maxItems", .count), (c!"minItems", .count),
   (c!"uniqueItems", .boolean), (c!"maxContains", .count), (c!"minContains", .count), (c!"maxProperties", .count),
   (c!"minProperties", .count), (c!"required", .strings), (c!"dependentRequired", .stringsMap),
   -- meta-data
   (c!"title", .string), (c!"description", .string), (c!"default", .any), (c!"deprecated", .boolean), (c!"readOnly", .boolean),
   (c!"writeOnly", .boolean), (c!"examples", .array),
   -- format, content
   (c!"format", .string), (c!"contentEncoding", .string), (c!"contentMediaType", .string), (c!"contentSchema", .schema),
   -- deprecated
   (c!"definitions", .schemaMap), (c!"dependencies", .dependencies), (c!"$recursiveAnchor", .anchor),
   (c!"$recursiveRef", .formatted c!"uri-reference")]

/-- The seven types. -/
def simpleTypeNames : List Str :=
  [c!"array", c!"boolean", c!"integer", c!"null", c!"number", c!"object", c!"string"]

/-- A list of distinct strings. -/
def DistinctStrings (j : Json) : Prop := ∃ ss : List Str, j = .arr (ss.map Json.str) ∧ ss.Nodup

/-- A letter or an underscore. -/
def anchorStart (c : Char) : Bool := c.toNat ∈ List.range' 65 26 || c.toNat ∈ List.range' 97 26 || c = '_'

/-- The shape of the argument, apart from the schemas in it.  `fmt f s` tells if string `s` has format `f`. -/
def MetaKind.Shape (fmt : Str → Str → Bool) : MetaKind → Json → Prop
  | .any, _ => True
  | .string, j => ∃ s, j = .str s
  | .formatted f, j => ∃ s, j = .str s ∧ fmt f s = true
  | .resource, j => ∃ s, j = .str s ∧ fmt c!"uri-reference" s = true ∧ ∃ t : Str, '#' ∉ t ∧ (s = t ∨ s = t ++ c!"#")
  | .anchor, j => ∃ c r, j = .str (c :: r) ∧ anchorStart c = true ∧
      ∀ d ∈ r, anchorStart d = true ∨ d.isDigit = true ∨ d = '-' ∨ d = '.'
  | .boolean, j => isJsonType c!"boolean" j = some true
  | .number, j => isJsonType c!"number" j = some true
  | .positive, j => isJsonType c!"number" j = some true ∧ Json.le j (.int 0) = false
  | .count, j => isJsonType c!"integer" j = some true ∧ Json.lt j (.int 0) = false
  | .array, j => ∃ xs, j = .arr xs
  | .strings, j => DistinctStrings j
  | .types, j => (∃ n ∈ simpleTypeNames, j = .str n) ∨
      ∃ ns : List Str, j = .arr (ns.map Json.str) ∧ ns ≠ [] ∧ ns.Nodup ∧ ∀ n ∈ ns, n ∈ simpleTypeNames
  | .schema, _ => True
  | .schemas, j => ∃ xs, j = .arr xs ∧ xs ≠ []
  | .schemaMap, j => ∃ kvs, j = .obj kvs
  | .schemaPatterns, j => ∃ kvs, j = .obj kvs ∧ ∀ kv ∈ kvs, fmt c!"regex" kv.1 = true
  | .stringsMap, j => ∃ kvs, j = .obj kvs ∧ ∀ kv ∈ kvs, DistinctStrings kv.2
  | .dependencies, j => ∃ kvs, j = .obj kvs ∧ ∀ kv ∈ kvs, ∀ xs, kv.2 = .arr xs → DistinctStrings kv.2
  | .vocabularies, j => ∃ kvs, j = .obj kvs ∧ ∀ kv ∈ kvs, fmt c!"uri" kv.1 = true ∧ ∃ b, kv.2 = .bool b

/-- The schemas in the argument of a keyword. -/
inductive SubSchema : MetaKind → Json → Json → Prop
  | self {j} : SubSchema .schema j j
  | item {xs j} : j ∈ xs → SubSchema .schemas (.arr xs) j
  | member {kvs k j} : (k, j) ∈ kvs → SubSchema .schemaMap (.obj kvs) j
  | patterned {kvs k j} : (k, j) ∈ kvs → SubSchema .schemaPatterns (.obj kvs) j
  | dependent {kvs k j} : (k, j) ∈ kvs → (∀ xs, j ≠ .arr xs) → SubSchema .dependencies (.obj kvs) j

/-- The JSON value is a schema: `true`, `false`, or an object whose keywords have arguments as described. -/
inductive MetaValid (fmt : Str → Str → Bool) : Json → Prop
  | bool (b) : MetaValid fmt (.bool b)
  | obj {kvs} : (∀ k K a, (k, K) ∈ metaKeywords → lookupKey k kvs = some a → K.Shape fmt a) →
      (∀ k K a j, (k, K) ∈ metaKeywords → lookupKey k kvs = some a → SubSchema K a j → MetaValid fmt j) →
      MetaValid fmt (.obj kvs)

end Verif
