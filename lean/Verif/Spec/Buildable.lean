import Verif.Spec.SchemaBuild
import Verif.Spec.Rebuild
/-!
# Schemas that give types, and schemas that do not

Conditions on documents under which `schema_to_type` makes a type.
-/
namespace Verif

/-- The keyword is not there. -/
def Absent (k : Str) (kvs : List (Str × Json)) : Prop := lookupKey k kvs = Option.none

/-- There is no default value, or there may be one. -/
def DefaultAllowed (d : Bool) (kvs : List (Str × Json)) : Prop := d = true ∨ Absent c!"default" kvs

/-- The format is one of those in the table. -/
def HasFormat (table : List Str) (kvs : List (Str × Json)) : Prop :=
  ∃ f ∈ table, lookupKey c!"format" kvs = some (.str f)

/-- A name of a property that can be the name of a field. -/
structure FieldName (cfg : BuildCfg) (p : Str) : Prop where
  identifier : isIdentifier cfg p = true
  keyword : isKeyword p = false
  ordinary : isDunderName p = false

/-- A name that references can refer to. -/
def WordName (cfg : BuildCfg) (n : Str) : Prop := n ≠ [] ∧ ∀ c ∈ n, isWordChar cfg.word c = true

/-- What a string stands for: a constant, a value with a format, a member of an enumeration, or a text.  There may be a default
with the flag, except for enumerations. -/
inductive TextSchema (cfg : BuildCfg) (d : Bool) (kvs : List (Str × Json)) : Prop
  | const : ¬ Absent c!"const" kvs → TextSchema cfg d kvs
  | format {f t} : (f, t) ∈ textFormats → lookupKey c!"format" kvs = some (.str f) → DefaultAllowed d kvs →
      (∀ x, lookupKey c!"default" kvs = some x → ∀ env, ∃ v, loads env false t x = .ok v) → TextSchema cfg d kvs
  | enum {vs} : ¬ HasFormat (textFormats.map (·.1)) kvs → lookupKey c!"enum" kvs = some (.arr (vs.map Json.str)) → vs.Nodup →
      LegalValues cfg.word vs → Absent c!"default" kvs → TextSchema cfg d kvs
  | text : ¬ HasFormat (textFormats.map (·.1)) kvs → Absent c!"enum" kvs →
      (∀ i, lookupKey c!"maxLength" kvs = some (.int i) → 0 ≤ i) → DefaultAllowed d kvs → TextSchema cfg d kvs

/-- Schemas that give types, where `Known` are the names of definitions that may be referred to.  With the flag, the schema may have
a default value. -/
inductive Makeable (cfg : BuildCfg) (Known : Str → Prop) : Bool → Json → Prop
  | ref {d kvs n} : Keywords [] [c!"$ref"] kvs → lookupKey c!"$ref" kvs = some (.str (defRef n)) → WordName cfg n → Known n →
      Makeable cfg Known d (.obj kvs)
  | bool {d kvs} : Keywords boolKeywords [c!"type"] kvs → HasType c!"boolean" kvs → ¬ Absent c!"const" kvs ∨ DefaultAllowed d kvs →
      Makeable cfg Known d (.obj kvs)
  | int {d kvs} : Keywords intKeywords [c!"type"] kvs → HasType c!"integer" kvs → lookupKey c!"enum" kvs ≠ some (.arr []) →
      ¬ Absent c!"const" kvs ∨ DefaultAllowed d kvs → Makeable cfg Known d (.obj kvs)
  | num {d kvs} : Keywords numKeywords [c!"type"] kvs → HasType c!"number" kvs → Absent c!"const" kvs →
      HasFormat [c!"float32", c!"float64"] kvs ∨
        (Absent c!"multipleOf" kvs ∧ (Absent c!"exclusiveMinimum" kvs ∨ Absent c!"exclusiveMaximum" kvs)) →
      DefaultAllowed d kvs → Makeable cfg Known d (.obj kvs)
  | str {d kvs} : Keywords strKeywords [c!"type"] kvs → HasType c!"string" kvs → TextSchema cfg d kvs →
      Makeable cfg Known d (.obj kvs)
  | arr {d kvs x} : Keywords [(c!"format", .str)] [c!"type", c!"items"] kvs → HasType c!"array" kvs →
      lookupKey c!"items" kvs = some x → Makeable cfg Known false x → Makeable cfg Known d (.obj kvs)
  | obj {d kvs xs} : Keywords objKeywords [c!"type", c!"properties"] kvs → HasType c!"object" kvs →
      lookupKey c!"additionalProperties" kvs = some (.bool false) → lookupKey c!"properties" kvs = some (.obj xs) →
      (xs.map (·.1)).Nodup → (∀ x ∈ xs, FieldName cfg x.1) → (∀ x ∈ xs, Makeable cfg Known true x.2) →
      Makeable cfg Known d (.obj kvs)
  | oneOf {d kvs xs} : Keywords [] [c!"oneOf"] kvs → lookupKey c!"oneOf" kvs = some (.arr xs) → xs ≠ [] →
      (∀ x ∈ xs, Makeable cfg Known false x) → Makeable cfg Known d (.obj kvs)

/-- Formats, with the type of the schema, whose types have a module that can be set. -/
def movableFormats : List (Str × Str) :=
  [(c!"integer", c!"int16"), (c!"integer", c!"int32"), (c!"integer", c!"int64"), (c!"number", c!"float32"),
   (c!"number", c!"float64"), (c!"string", c!"uuid"), (c!"string", c!"ipv4"), (c!"string", c!"ipv6")]

/-- Schemas that a definition may have: those of types whose module can be set.  These are neither lists nor types such as `int`,
`str` and `datetime.date`. -/
inductive Movable : Json → Prop
  | ref {kvs} : ¬ Absent c!"$ref" kvs → Movable (.obj kvs)
  | object {kvs} : HasType c!"object" kvs → Movable (.obj kvs)
  | const {kvs} : ¬ Absent c!"const" kvs → Movable (.obj kvs)
  | format {kvs T f} : (T, f) ∈ movableFormats → HasType T kvs → lookupKey c!"format" kvs = some (.str f) → Movable (.obj kvs)
  | integer {kvs} : HasType c!"integer" kvs →
      ¬ Absent c!"enum" kvs ∨ (¬ Absent c!"minimum" kvs ∧ ¬ Absent c!"maximum" kvs) → Movable (.obj kvs)
  | text {kvs} : HasType c!"string" kvs → ¬ HasFormat (textFormats.map (·.1)) kvs →
      ¬ Absent c!"enum" kvs ∨ ¬ Absent c!"maxLength" kvs → Movable (.obj kvs)
  | oneOf {kvs xs} : lookupKey c!"oneOf" kvs = some (.arr xs) → (∀ x ∈ xs, Movable x) → Movable (.obj kvs)

/-- A document that gives a type with the given name: definitions refer only to definitions before them. -/
structure BuildableDocument (cfg : BuildCfg) (name : Str) (kvs : List (Str × Json)) : Prop where
  words : Keywords objKeywords [c!"type", c!"properties", c!"$schema", c!"definitions"] kvs
  type : HasType c!"object" kvs
  schema : ∃ m, lookupKey c!"$schema" kvs = some (.str m)
  closed : lookupKey c!"additionalProperties" kvs = some (.bool false)
  nul : '\x00' ∉ name
  defs : Absent c!"definitions" kvs ∨ ∃ ds, lookupKey c!"definitions" kvs = some (.obj ds) ∧ (ds.map (·.1)).Nodup ∧
    ∀ pre x post, ds = pre ++ x :: post →
      Makeable cfg (· ∈ pre.map (·.1)) false x.2 ∧ Movable x.2 ∧ '\x00' ∉ x.1
  props : ∃ xs, lookupKey c!"properties" kvs = some (.obj xs) ∧ (xs.map (·.1)).Nodup ∧ (∀ x ∈ xs, FieldName cfg x.1) ∧
    ∀ x ∈ xs, Makeable cfg (· ∈ (schemaDefs (.obj kvs)).map (·.1)) true x.2

end Verif
