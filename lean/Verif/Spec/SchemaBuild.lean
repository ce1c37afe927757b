import Verif.Spec.ClassBuild
/-!
# Schemas from which a type can be made

The vocabulary of the schema nodes in classdef.py, stated on JSON values.
-/
namespace Verif

/-- What the value of a keyword is. -/
inductive KwKind where
  | str | bool | int | float | strs | bools | ints | floats
  deriving DecidableEq

/-- A number as float; integers must be within the range of floats. -/
def IsNumber (x : Json) (f : PyFloat) : Prop := x = .float f ∨ ∃ i, x = .int i ∧ intToFloat i = .ok f

/-- The value is of the kind. -/
def KwKind.Holds : KwKind → Json → Prop
  | .str, x => ∃ s, x = .str s
  | .bool, x => ∃ b, x = .bool b
  | .int, x => ∃ i, x = .int i
  | .float, x => ∃ f, IsNumber x f
  | .strs, x => ∃ xs, x = .arr xs ∧ ∀ y ∈ xs, ∃ s, y = .str s
  | .bools, x => ∃ xs, x = .arr xs ∧ ∀ y ∈ xs, ∃ b, y = .bool b
  | .ints, x => ∃ xs, x = .arr xs ∧ ∀ y ∈ xs, ∃ i, y = .int i
  | .floats, x => ∃ xs, x = .arr xs ∧ ∀ y ∈ xs, ∃ f, IsNumber y f

/-- Keywords of every schema. -/
def textKeywords : List (Str × KwKind) := [(c!"title", .str), (c!"description", .str)]

/-- Keywords of a boolean. -/
def boolKeywords : List (Str × KwKind) := [(c!"format", .str), (c!"const", .bool), (c!"default", .bool), (c!"examples", .bools)]

/-- Keywords of an integer. -/
def intKeywords : List (Str × KwKind) :=
  [(c!"format", .str), (c!"const", .int), (c!"default", .int), (c!"examples", .ints), (c!"enum", .ints), (c!"minimum", .int),
   (c!"maximum", .int)]

/-- Keywords of a number. -/
def numKeywords : List (Str × KwKind) :=
  [(c!"format", .str), (c!"const", .float), (c!"default", .float), (c!"examples", .floats), (c!"minimum", .float),
   (c!"maximum", .float), (c!"exclusiveMinimum", .float), (c!"exclusiveMaximum", .float), (c!"multipleOf", .float)]

/-- Keywords of a string. -/
def strKeywords : List (Str × KwKind) :=
  [(c!"format", .str), (c!"const", .str), (c!"default", .str), (c!"examples", .strs), (c!"enum", .strs), (c!"minLength", .int),
   (c!"maxLength", .int)]

/-- Keywords of an object apart from its properties. -/
def objKeywords : List (Str × KwKind) := [(c!"format", .str), (c!"additionalProperties", .bool), (c!"required", .strs)]

/-- The keywords apart from `others` are among the given ones, and their values are of the right kind. -/
def Keywords (table : List (Str × KwKind)) (others : List Str) (kvs : List (Str × Json)) : Prop :=
  ∀ k x, lookupKey k kvs = some x → k ∉ others → ∃ K, (k, K) ∈ textKeywords ++ table ∧ K.Holds x

/-- The schema has the given type. -/
def HasType (type : Str) (kvs : List (Str × Json)) : Prop := lookupKey c!"type" kvs = some (.str type)

end Verif
