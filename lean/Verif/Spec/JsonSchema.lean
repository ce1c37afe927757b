import Verif.Model.Core
/-!
# Validation against a JSON schema

The keywords of JSON Schema, Draft 2020-12, that the generated schemas use, as the package `jsonschema` implements them
(with a format checker).  Checks that rest on other libraries are parameters.  This file does not depend on the generator.
-/
namespace Verif

/-- Checks that rest on other libraries. -/
structure ValidatorCfg where
  /-- the format checker accepts a string -/
  format : Str → Str → Bool
  /-- `re.search(pattern, string)` -/
  pattern : Str → Str → Bool
  /-- the first number is a multiple of the second -/
  multipleOf : Json → Json → Bool

/-! ### Numbers and equality -/

/-- The value of a finite float as numerator and denominator. -/
def PyFloat.frac : PyFloat → Option (Int × Nat)
  | .fin neg m e =>
    let n : Int := if neg then -(m : Int) else m
    some (n * 2 ^ e.toNat, 2 ^ (-e).toNat)
  | _ => none

/-- A number as numerator and denominator, or the sign of an infinite number, or `none` for NaN and values that are not
numbers. -/
def Json.num : Json → Option (Sum (Int × Nat) Bool)
  | .int i => some (.inl (i, 1))
  | .float (.inf neg) => some (.inr neg)
  | .float f => f.frac.map .inl
  | _ => none

/-- Python `a < b` for numbers: exact, false if NaN is involved. -/
def Json.lt (a b : Json) : Bool :=
  match a.num, b.num with
  | some (.inl x), some (.inl y) => x.1 * y.2 < y.1 * x.2
  | some (.inr neg), some (.inl _) => neg
  | some (.inl _), some (.inr neg) => !neg
  | some (.inr neg), some (.inr neg') => neg && !neg'
  | _, _ => false

/-- Python `a <= b` for numbers: exact, false if NaN is involved. -/
def Json.le (a b : Json) : Bool :=
  match a.num, b.num with
  | some (.inl x), some (.inl y) => x.1 * y.2 ≤ y.1 * x.2
  | some (.inr neg), some (.inl _) => neg
  | some (.inl _), some (.inr neg) => !neg
  | some (.inr neg), some (.inr neg') => neg || !neg'
  | _, _ => false

/-- `float.is_integer`. -/
def PyFloat.isInteger : PyFloat → Bool
  | .fin _ m e => m % 2 ^ (-e).toNat = 0
  | _ => false

mutual
/-- Equality of JSON values: numbers are compared by value, `True` and `1` differ. -/
def Json.same : Json → Json → Bool
  | .null, b => (match b with | .null => true | _ => false)
  | .bool a, b => (match b with | .bool b => a == b | _ => false)
  | .int a, b => (match b with | .int b => a = b | .float g => floatEqInt g a | _ => false)
  | .float f, b => (match b with | .int b => floatEqInt f b | .float g => floatEq f g | _ => false)
  | .str a, b => (match b with | .str b => a = b | _ => false)
  | .arr xs, b => (match b with | .arr ys => Json.sameL xs ys | _ => false)
  | .obj kvs, b => (match b with | .obj kws => kvs.length = kws.length && Json.sameO kvs kws | _ => false)
/-- Item by item. -/
def Json.sameL : List Json → List Json → Bool
  | [], ys => ys.isEmpty
  | x :: xs, ys => (match ys with | y :: ys => Json.same x y && Json.sameL xs ys | [] => false)
/-- Every property is in the other object, with the same value. -/
def Json.sameO : List (Str × Json) → List (Str × Json) → Bool
  | [], _ => true
  | (k, x) :: r, kws => (match lookupKey k kws with | some y => Json.same x y | none => false) && Json.sameO r kws
end

/-- No two items are the same. -/
def allDistinct : List Json → Bool
  | [] => true
  | x :: xs => xs.all (fun y => !Json.same x y) && allDistinct xs

/-- `is_type(instance, name)`. -/
def isJsonType (name : Str) (v : Json) : Option Bool :=
  if name = c!"null" then some (match v with | .null => true | _ => false)
  else if name = c!"boolean" then some (match v with | .bool _ => true | _ => false)
  else if name = c!"integer" then some (match v with | .int _ => true | .float f => f.isInteger | _ => false)
  else if name = c!"number" then some (match v with | .int _ => true | .float _ => true | _ => false)
  else if name = c!"string" then some (match v with | .str _ => true | _ => false)
  else if name = c!"array" then some (match v with | .arr _ => true | _ => false)
  else if name = c!"object" then some (match v with | .obj _ => true | _ => false)
  else none

/-! ### References -/

/-- A part of a JSON pointer without `~0` and `~1`. -/
def unescapeRef : Str → Str
  | '~' :: '1' :: r => '/' :: unescapeRef r
  | '~' :: '0' :: r => '~' :: unescapeRef r
  | c :: r => c :: unescapeRef r
  | [] => []

/-- The parts of a text between slashes. -/
def pointerParts : Str → List Str
  | [] => [[]]
  | x :: r =>
    if x = '/' then [] :: pointerParts r
    else match pointerParts r with
      | [] => [[x]]
      | p :: ps => (x :: p) :: ps

/-- The part of a document that a sequence of property names leads to. -/
def walkJson : Json → List Str → Option Json
  | j, [] => some j
  | .obj kvs, k :: ks => (match lookupKey k kvs with | some j => walkJson j ks | none => none)
  | _, _ :: _ => none

/-- The part of a document that a reference `#/a/b` denotes.  (Percent-encoded references are not covered.) -/
def resolveRef (root : Json) : Str → Option Json
  | '#' :: '/' :: r =>
    if '%' ∈ r then none else walkJson root ((pointerParts r).map unescapeRef)
  | _ => none

/-! ### Validation -/

/-- Conjunction of checks; undetermined if one of them is. -/
def allO : List (Option Bool) → Option Bool
  | [] => some true
  | o :: os =>
    match o, allO os with
    | some a, some b => some (a && b)
    | _, _ => none

/-- Number of checks that succeed; undetermined if one of them is. -/
def countO : List (Option Bool) → Option Nat
  | [] => some 0
  | o :: os =>
    match o, countO os with
    | some a, some n => some (if a then n + 1 else n)
    | _, _ => none

/-- `"properties"` of a schema. -/
def schemaProperties (s : List (Str × Json)) : List (Str × Json) :=
  match lookupKey c!"properties" s with
  | some (.obj ps) => ps
  | _ => []

/-- The keywords that are checked. -/
inductive Keyword where
  | typ | const | enum | oneOf | ref | items | prefixItems | minItems | maxItems | uniqueItems | properties
  | additionalProperties | required | propertyNames | pattern | format | minLength | maxLength | minimum
  | maximum | exclusiveMinimum | exclusiveMaximum | multipleOf | other
  deriving DecidableEq, Repr

/-- Names of the keywords. -/
def keywordNames : List (Str × Keyword) :=
  [(c!"type", .typ), (c!"const", .const), (c!"enum", .enum), (c!"oneOf", .oneOf), (c!"$ref", .ref),
   (c!"items", .items), (c!"prefixItems", .prefixItems), (c!"minItems", .minItems),
   (c!"maxItems", .maxItems), (c!"uniqueItems", .uniqueItems), (c!"properties", .properties),
   (c!"additionalProperties", .additionalProperties), (c!"required", .required),
   (c!"propertyNames", .propertyNames), (c!"pattern", .pattern), (c!"format", .format),
   (c!"minLength", .minLength), (c!"maxLength", .maxLength), (c!"minimum", .minimum),
   (c!"maximum", .maximum), (c!"exclusiveMinimum", .exclusiveMinimum),
   (c!"exclusiveMaximum", .exclusiveMaximum), (c!"multipleOf", .multipleOf)]

/-- The keyword with a name; all others are annotations such as `default`, `definitions`, `contentEncoding`, `examples`. -/
def keywordOf (k : Str) : Keyword := (lookupKey k keywordNames).getD .other

/-- The check for one keyword with argument `a` of the schema `s`; `rec` validates against a subschema.  Undetermined if
the argument is not as the standard demands. -/
def keywordCheck (vc : ValidatorCfg) (root : Json) (rec : Json → Json → Option Bool) (s : List (Str × Json))
    (k : Keyword) (a v : Json) : Option Bool :=
  match k with
  | .typ => (match a with | .str n => isJsonType n v | _ => none)
  | .const => some (Json.same v a)
  | .enum => (match a with | .arr xs => some (xs.any fun x => Json.same v x) | _ => none)
  | .oneOf =>
    (match a with
     | .arr ss => (match countO (ss.map fun s => rec s v) with | some n => some (n == 1) | none => none)
     | _ => none)
  | .ref =>
    (match a with
     | .str r => (match resolveRef root r with | some s => rec s v | none => none)
     | _ => none)
  | .items => (match v with | .arr xs => allO (xs.map fun x => rec a x) | _ => some true)
  | .prefixItems =>
    (match a with
     | .arr ss => (match v with | .arr xs => allO ((ss.zip xs).map fun p => rec p.1 p.2) | _ => some true)
     | _ => none)
  | .minItems =>
    (match a with
     | .int n => (match v with | .arr xs => some (decide (n ≤ xs.length)) | _ => some true)
     | _ => none)
  | .maxItems =>
    (match a with
     | .int n => (match v with | .arr xs => some (decide ((xs.length : Int) ≤ n)) | _ => some true)
     | _ => none)
  | .uniqueItems =>
    (match a with
     | .bool b => (match v with | .arr xs => some (!b || allDistinct xs) | _ => some true)
     | _ => none)
  | .properties =>
    (match a with
     | .obj ps =>
       (match v with
        | .obj kvs => allO (ps.map fun p => match lookupKey p.1 kvs with | some x => rec p.2 x | none => some true)
        | _ => some true)
     | _ => none)
  | .additionalProperties =>
    (match v with
     | .obj kvs =>
       allO ((kvs.filter fun kv => (lookupKey kv.1 (schemaProperties s)).isNone).map fun kv => rec a kv.2)
     | _ => some true)
  | .required =>
    (match a with
     | .arr rs =>
       (match v with
        | .obj kvs =>
          allO (rs.map fun r => match r with | .str n => some (lookupKey n kvs).isSome | _ => none)
        | _ => some true)
     | _ => none)
  | .propertyNames =>
    (match v with | .obj kvs => allO (kvs.map fun kv => rec a (.str kv.1)) | _ => some true)
  | .pattern =>
    (match a with
     | .str p => (match v with | .str x => some (vc.pattern p x) | _ => some true)
     | _ => none)
  | .format =>
    (match a with
     | .str p => (match v with | .str x => some (vc.format p x) | _ => some true)
     | _ => none)
  | .minLength =>
    (match a with
     | .int n => (match v with | .str x => some (decide (n ≤ x.length)) | _ => some true)
     | _ => none)
  | .maxLength =>
    (match a with
     | .int n => (match v with | .str x => some (decide ((x.length : Int) ≤ n)) | _ => some true)
     | _ => none)
  | .minimum =>
    (match v with | .int _ => some (!v.lt a) | .float _ => some (!v.lt a) | _ => some true)
  | .maximum =>
    (match v with | .int _ => some (!a.lt v) | .float _ => some (!a.lt v) | _ => some true)
  | .exclusiveMinimum =>
    (match v with | .int _ => some (!v.le a) | .float _ => some (!v.le a) | _ => some true)
  | .exclusiveMaximum =>
    (match v with | .int _ => some (!a.le v) | .float _ => some (!a.le v) | _ => some true)
  | .multipleOf =>
    (match v with | .int _ => some (vc.multipleOf v a) | .float _ => some (vc.multipleOf v a) | _ => some true)
  | .other => some true

/-- Validation of an instance against a schema, in a document with references, with at most `n` nested subschemas;
undetermined beyond. -/
def validate (vc : ValidatorCfg) (root : Json) : Nat → Json → Json → Option Bool
  | 0, _, _ => none
  | _ + 1, .bool b, _ => some b
  | n + 1, .obj s, v => allO (s.map fun ka => keywordCheck vc root (validate vc root n) s (keywordOf ka.1) ka.2 v)
  | _ + 1, _, _ => none

/-- The instance is valid. -/
def Validates (vc : ValidatorCfg) (root s v : Json) : Prop := ∃ n, validate vc root n s v = some true

/-- The instance is not valid. -/
def Rejects (vc : ValidatorCfg) (root s v : Json) : Prop := ∃ n, validate vc root n s v = some false

/-! ### References in a schema -/

/-- The schema has a reference `r`, in itself or in a subschema. -/
inductive HasRef : Json → Str → Prop
  | here {kvs r} : (c!"$ref", Json.str r) ∈ kvs → HasRef (.obj kvs) r
  | single {kvs k s r} : k ∈ [c!"items", c!"additionalProperties", c!"propertyNames"] → (k, s) ∈ kvs → HasRef s r →
      HasRef (.obj kvs) r
  | many {kvs k ss s r} : k ∈ [c!"oneOf", c!"prefixItems"] → (k, Json.arr ss) ∈ kvs → s ∈ ss → HasRef s r →
      HasRef (.obj kvs) r
  | property {kvs ps n s r} : (c!"properties", Json.obj ps) ∈ kvs → (n, s) ∈ ps → HasRef s r → HasRef (.obj kvs) r

end Verif
