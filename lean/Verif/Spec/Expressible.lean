import Verif.Spec.MetaSchema
import Verif.Spec.SchemaValid
/-!
# Programs whose schemas are valid for the meta-schema

The conditions are those on which the meta-schema depends: tuples have items, powers of ten are not rounded to zero, names of
many enumeration members make a regular expression, names of required properties differ.
-/
namespace Verif

/-- The power of ten for the decimal digits of an annotation is not rounded to zero. -/
def Meta.Expressible (cfg : SchemaCfg) (m : Meta) : Prop :=
  ∀ s d, m = .precision s d → 0 < d → Json.le (.float (cfg.pow10 d)) (.int 0) = false

/-- If the keys of a dictionary are the members of an enumeration with more than four members, then their values, separated by
bars, are a regular expression. -/
def KeyTy.Expressible (fmt : Str → Str → Bool) (env : Env) (k : KeyTy) : Prop :=
  ∀ e ed names, k = .enum e → env.enums[e]? = some ed → mapRes (fun m => m.2.pyStr) ed.members = .ok names →
    4 < names.length → fmt c!"regex" (c!"^(" ++ joinWith '|' names ++ c!")$") = true

/-- Types whose schemas are valid. -/
inductive Ty.Expressible (fmt : Str → Str → Bool) (cfg : SchemaCfg) (env : Env) : Ty → Prop
  | leaf {t} : t ∈ scalarTys ∨ t ∈ [Ty.bareList, .bareSet, .bareTuple, .bareDict] → Expressible fmt cfg env t
  | enum (e) : Expressible fmt cfg env (.enum e)
  | cls (c) : Expressible fmt cfg env (.cls c)
  | literal (ls) : Expressible fmt cfg env (.literal ls)
  | list {t} : Expressible fmt cfg env t → Expressible fmt cfg env (.list t)
  | set {t} : Expressible fmt cfg env t → Expressible fmt cfg env (.set t)
  | dict {k t} : k.Expressible fmt env → Expressible fmt cfg env t → Expressible fmt cfg env (.dict k t)
  | tuple {ts} : ts ≠ [] → (∀ t ∈ ts, Expressible fmt cfg env t) → Expressible fmt cfg env (.tuple ts)
  | union {ts} : ts ≠ [] → (∀ t ∈ ts, Expressible fmt cfg env t) → Expressible fmt cfg env (.union ts)
  | annotated {t ms} : (∀ m ∈ ms, m.Expressible cfg) → Expressible fmt cfg env t → Expressible fmt cfg env (.annotated t ms)

/-- Names that references may contain: those of classes and enumerations, of built-in types, and identifiers of
registered types. -/
def ReferenceName (env : Env) (cat : SchemaCatalog) (n : Str) : Prop :=
  (∃ cd ∈ env.classes, n = cd.name) ∨ (∃ ed ∈ env.enums, n = ed.name) ∨
  n ∈ [c!"bool", c!"int", c!"float", c!"str", c!"bytes"] ∨ ∃ r e, cat.get r = .ok e ∧ n = e.identifier

/-- Programs whose schemas are valid. -/
structure ExpressibleProgram (fmt : Str → Str → Bool) (cfg : SchemaCfg) (env : Env) (cat : SchemaCatalog) : Prop where
  types : ∀ cd ∈ env.classes, ∀ f ∈ cd.hints, f.ty.required.Expressible fmt cfg env
  /-- no two fields have the same name in JSON -/
  names : ∀ cd ∈ env.classes, (cd.hints.map (schemaProp cd.kind)).Nodup
  references : ∀ n, ReferenceName env cat n → fmt c!"uri-reference" (cfg.definitionsPath ++ n) = true
  metaId : fmt c!"uri" c!"https://json-schema.org/draft/2020-12/schema" = true
  /-- schemas given by the user are valid, and their keys are distinct -/
  catalog : ∀ r e s, cat.get r = .ok e → e.schema = some s → MetaValid fmt (.obj s) ∧ (s.map Prod.fst).Nodup

end Verif
