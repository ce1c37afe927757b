import Verif.Model.ClassBuild
import Verif.Spec.JsonSchema
import Verif.Spec.JsonText
import Verif.Props.C22_C23_Tagged
/-!
# When types made from a schema read what the schema permits

Conditions on the schema, on the types made from it, and on the data.
-/
namespace Verif

/-- `x.Within j`: `x` is `j` or occurs inside `j`. -/
inductive Json.Within (x : Json) : Json → Prop
  | self : Json.Within x x
  | arr {y ys} : y ∈ ys → Json.Within x y → Json.Within x (.arr ys)
  | obj {kv kvs} : kv ∈ kvs → Json.Within x kv.2 → Json.Within x (.obj kvs)

/-! ### The schema -/

/-- Reference to a definition. -/
def defRef (name : Str) : Str := c!"#/definitions/" ++ name

/-- The definitions of a schema. -/
def schemaDefs : Json → List (Str × Json)
  | .obj kvs => (match lookupKey c!"definitions" kvs with | some (.obj ds) => ds | _ => [])
  | _ => []

/-- The values of an enumeration have different names, none of which begins with an underscore. -/
def SafeValues (uni : Char → Bool) (vs : List Str) : Prop :=
  (vs.map (enumSafeName uni)).Nodup ∧ ∀ v ∈ vs, (enumSafeName uni v).head? ≠ some '_'

/-- Names of definitions and of classes made for properties (`Name__property`) do not clash, no definition refers to itself,
and enumerations have safe values. -/
structure SchemaSafe (uni : Char → Bool) (className : Str) (schema : Json) : Prop where
  top : className ∉ (schemaDefs schema).map (·.1)
  apart : ∀ d ∈ className :: (schemaDefs schema).map (·.1), ∀ d' ∈ (schemaDefs schema).map (·.1), ¬ (d ++ c!"__") <+: d'
  lines : ∀ d ∈ (schemaDefs schema).map (·.1), '\n' ∉ d
  self : ∀ d ∈ schemaDefs schema, ∀ kvs, (Json.obj kvs).Within d.2 → lookupKey c!"$ref" kvs ≠ some (.str (defRef d.1))
  enums : ∀ kvs vs, (Json.obj kvs).Within schema → lookupKey c!"enum" kvs = some (.arr (vs.map Json.str)) →
    SafeValues uni vs

/-- No object of the schema has the keyword `oneOf`, and no property has a name that a field does not keep. -/
def Tame (s : Json) : Prop :=
  ∀ kvs, (Json.obj kvs).Within s → lookupKey c!"oneOf" kvs = Option.none ∧
    ∀ xs, lookupKey c!"properties" kvs = some (.obj xs) → ∀ x ∈ xs, fieldToProperty x.1 Option.none = x.1

/-- A name that can be joined to others by `__` without ambiguity. -/
def TidyName (p : Str) : Prop := p.getLast? ≠ some '_' ∧ ¬ c!"__" <:+: p

/-- Names of properties are tidy. -/
def TidyNames (s : Json) : Prop :=
  ∀ kvs, (Json.obj kvs).Within s → ∀ xs, lookupKey c!"properties" kvs = some (.obj xs) → ∀ x ∈ xs, TidyName x.1

/-- The name of the class and those of the definitions are different and not joined by `__`, and do not end in an
underscore. -/
structure NamesApart (className : Str) (schema : Json) : Prop where
  top : className ∉ (schemaDefs schema).map (·.1)
  apart : ∀ d ∈ className :: (schemaDefs schema).map (·.1), ∀ d' ∈ className :: (schemaDefs schema).map (·.1),
    ¬ (d ++ c!"__") <+: d'
  ends : ∀ d ∈ className :: (schemaDefs schema).map (·.1), d.getLast? ≠ some '_'

/-- Formats and the types that they stand for. -/
def textFormats : List (Str × Ty) :=
  [(c!"date-time", .datetime), (c!"date", .date), (c!"time", .time), (c!"duration", .timedelta), (c!"uuid", .uuid),
   (c!"ipv4", .ipv4), (c!"ipv6", .ipv6)]

/-- The format checker of the validator accepts no text that the type of the format does not read. -/
def FormatsRead (vc : ValidatorCfg) : Prop :=
  ∀ f t, (f, t) ∈ textFormats → ∀ s, vc.format f s = true → ∀ env, ∃ v, loads env false t (.str s) = .ok v

/-! ### The types -/

/-- Types whose reader only raises `JsonKeyError` and `JsonTypeError` on data without `null` and without integers beyond the
range of floats. -/
inductive Calm (env : Env) : Ty → Prop
  | bool : Calm env .bool
  | int : Calm env .int
  | float : Calm env .float
  | str : Calm env .str
  | literal {l} : (∀ e m, l ≠ Lit.enum e m) → Calm env (.literal [l])
  | annotated {t ms} : Calm env t → Calm env (.annotated t ms)
  | list {t} : Calm env t → Calm env (.list t)
  | union {ts} : Untagged env ts → (∀ t ∈ ts, Calm env t) → Calm env (.union ts)
  | cls {c cd} : env.classes[c]? = some cd → cd.kind = .dataclass false → cd.fromJson = Option.none →
      (∀ f ∈ cd.fields, Calm env (fieldTy cd.kind f)) → Calm env (.cls c)

/-- Types whose unions are read dependably, and whose classes have no field that is read under another name: the members of
a union without tag are calm, a union with tags is not ambiguous and its tags have no default. -/
inductive Plain (env : Env) : Ty → Prop
  | leaf {t} : t ∈ [Ty.bool, .int, .float, .str, .datetime, .date, .time, .timedelta, .uuid, .ipv4, .ipv6] → Plain env t
  | literal {l} : (∀ e m, l ≠ Lit.enum e m) → Plain env (.literal [l])
  | enum {e ed} : env.enums[e]? = some ed → Plain env (.enum e)
  | annotated {t ms} : Plain env t → Plain env (.annotated t ms)
  | list {t} : Plain env t → Plain env (.list t)
  | union {ts} : Untagged env ts → (∀ t ∈ ts, Plain env t) → (∀ t ∈ ts, Calm env t) → Plain env (.union ts)
  | tagged {ts} : (∃ p, IsTag env ts p) → ¬ Ambiguous env ts → (∀ t ∈ ts, Plain env t) →
      (∀ p c cd f, IsTag env ts p → Ty.cls c ∈ ts → env.classes[c]? = some cd → f ∈ cd.fields → f.name = p →
        f.dflt = .missing) → Plain env (.union ts)
  | cls {c cd} : env.classes[c]? = some cd → cd.kind = .dataclass false → cd.fromJson = Option.none →
      (∀ f ∈ cd.fields, fieldProp cd.kind f = f.name) → (∀ f ∈ cd.fields, Plain env (fieldTy cd.kind f)) → Plain env (.cls c)

/-- The conditions of `Env.Ok` without the one on names. -/
structure Env.Tidy (env : Env) : Prop where
  enums : ∀ ed ∈ env.enums, ed.Ok
  fields : ∀ cd ∈ env.classes, (cd.fields.map (·.name)).Nodup
  setOrder : ∀ l, (env.setOrder l).Perm l

/-! ### The data -/

/-- Integers are within the range of floats. -/
def SmallInts (j : Json) : Prop := ∀ i, Json.HasInt i j → i.natAbs < 2 ^ 1024 - 2 ^ 970

/-- Somewhere a float with an integer as value stands where the type expects an integer. -/
inductive FloatForInt (env : Env) : Ty → Json → Prop
  | int {f} : f.isInteger = true → FloatForInt env .int (.float f)
  | literal {i f} : f.isInteger = true → FloatForInt env (.literal [.int i]) (.float f)
  | annotated {t ms j} : FloatForInt env t j → FloatForInt env (.annotated t ms) j
  | list {t x xs} : x ∈ xs → FloatForInt env t x → FloatForInt env (.list t) (.arr xs)
  | set {t x xs} : x ∈ xs → FloatForInt env t x → FloatForInt env (.set t) (.arr xs)
  | tuple {ts : List Ty} {xs : List Json} {i : Nat} {t x} : ts[i]? = some t → xs[i]? = some x → FloatForInt env t x →
      FloatForInt env (.tuple ts) (.arr xs)
  | dict {k t kv kvs} : kv ∈ kvs → FloatForInt env t kv.2 → FloatForInt env (.dict k t) (.obj kvs)
  | union {t ts j} : t ∈ ts → FloatForInt env t j → FloatForInt env (.union ts) j
  | cls {c cd f x kvs} : env.classes[c]? = some cd → f ∈ cd.fields → lookupKey (fieldProp cd.kind f) kvs = some x →
      FloatForInt env (fieldTy cd.kind f) x → FloatForInt env (.cls c) (.obj kvs)

end Verif
