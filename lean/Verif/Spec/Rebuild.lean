import Verif.Spec.ClassBuild
import Verif.Spec.SchemaValid
import Verif.Spec.ClassRead
/-!
# Classes that can be made again from their schemas
-/
namespace Verif

/-- Types of the standard library that can be made from their schemas. -/
def rebuiltTys : List Ty := [.bool, .int, .float, .str, .datetime, .date, .time, .timedelta, .uuid]

/-- The annotation of the type either does not show in the schema, or does with a keyword that is allowed there. -/
def MetaAllowed (t : Ty) : Meta → Prop
  | .intRange _ _ => t = .int
  | .precision _ _ => False
  | .minLength _ | .maxLength _ => t ∈ [Ty.str, .datetime, .date, .time, .timedelta, .uuid]
  | _ => True

/-- Values of an enumeration whose names are different and can be used in Python. -/
structure LegalValues (uni : Char → Bool) (vs : List Str) : Prop where
  distinct : (vs.map (enumSafeName uni)).Nodup
  legal : ∀ v ∈ vs, enumSafeName uni v ≠ [] ∧ enumSafeName uni v ≠ c!"mro" ∧ (enumSafeName uni v).head? ≠ some '_'

/-- The name of a field in JSON: that in the annotation `Alias`, if any. -/
def FieldDef.jsonName (f : FieldDef) : Str := f.ty.alias.getD f.name

/-- The name of the field in JSON can be that of a field of a data class, where it again stands for itself and gives no clashes
between names of classes, and no default is shown in the schema. -/
structure FieldFits (cfg : BuildCfg) (f : FieldDef) : Prop where
  evaluated : f.strAnn = false ∧ f.fwd = false
  identifier : isIdentifier cfg f.jsonName = true ∧ isKeyword f.jsonName = false
  ordinary : isDunderName f.jsonName = false
  tidy : TidyName f.jsonName
  dflt : ∀ v, f.dflt = .value v → v.hasJsonDefault = false

/-- Types that can be made from their schemas, where `Before` are names of definitions that may be referred to.  With the flag,
the type itself is not looked up in the catalog. -/
inductive Rebuildable (cfg : BuildCfg) (env : Env) (cat : SchemaCatalog) (Before : Str → Prop) : Bool → Ty → Prop
  | known {t k e} : t.regKey = some k → lookupKey k cat.byType = some e → Before e.identifier →
      Rebuildable cfg env cat Before false t
  | leaf {b t} : t ∈ rebuiltTys → Rebuildable cfg env cat Before b t
  | literal {b l} : (∀ e m, l ≠ Lit.enum e m) → l ≠ .none → Rebuildable cfg env cat Before b (.literal [l])
  | simple {b t ms} : t ∈ rebuiltTys → (∀ m ∈ ms, MetaAllowed t m) → Rebuildable cfg env cat Before b (.annotated t ms)
  | annotated {b t ms} : t ∉ rebuiltTys → Rebuildable cfg env cat Before true t →
      Rebuildable cfg env cat Before b (.annotated t ms)
  | list {b t} : Rebuildable cfg env cat Before false t → Rebuildable cfg env cat Before b (.list t)
  | enum {b e ed vs} : (b = true ∨ lookupKey (.enum e) cat.byType = Option.none) → env.enums[e]? = some ed →
      ed.toJson = Option.none → ed.members.map (·.2) = vs.map Scalar.str → vs ≠ [] → LegalValues cfg.word vs →
      Rebuildable cfg env cat Before b (.enum e)
  | cls {b c cd q} : (b = true ∨ lookupKey (.cls c) cat.byType = Option.none) → env.classes[c]? = some cd →
      cd.kind = .dataclass q → cd.toJson = Option.none → cd.fields ≠ [] → (∀ f ∈ cd.fields, FieldFits cfg f) →
      (cd.fields.map FieldDef.jsonName).Nodup →
      (∀ f ∈ cd.fields, Rebuildable cfg env cat Before false f.ty.required) →
      Rebuildable cfg env cat Before b (.cls c)

/-- The class can be made from its schema under the given name.  Registered types refer only to registered types whose names come
before theirs in the alphabet: this is the order of the definitions, which are made one after the other. -/
structure RebuildableProgram (bcfg : BuildCfg) (scfg : SchemaCfg) (env : Env) (cat : SchemaCatalog) (name : Str) (c : Nat) :
    Prop where
  path : scfg.definitionsPath = c!"#/definitions/"
  entry : ∀ k e, lookupKey k cat.byType = some e → e.schema = Option.none ∧ e.examples = Option.none
  identifier : ∀ k e, lookupKey k cat.byType = some e → e.identifier ≠ [] ∧ ∀ x ∈ e.identifier, isWordChar bcfg.word x = true
  unique : ∀ k e k' e', lookupKey k cat.byType = some e → lookupKey k' cat.byType = some e' → e.identifier = e'.identifier →
    k = k'
  types : ∀ k e, lookupKey k cat.byType = some e →
    Rebuildable bcfg env cat (fun n => strLe n e.identifier = true ∧ n ≠ e.identifier) true k.toTy
  nul : '\x00' ∉ name
  top : ∀ k e, lookupKey k cat.byType = some e → e.identifier ≠ name
  apart : ∀ d d', (d = name ∨ ∃ k e, lookupKey k cat.byType = some e ∧ e.identifier = d) →
    (d' = name ∨ ∃ k e, lookupKey k cat.byType = some e ∧ e.identifier = d') → ¬ (d ++ c!"__") <+: d'
  ends : ∀ d, (d = name ∨ ∃ k e, lookupKey k cat.byType = some e ∧ e.identifier = d) → d.getLast? ≠ some '_'
  unregistered : lookupKey (.cls c) cat.byType = Option.none
  root : Rebuildable bcfg env cat (fun _ => True) false (.cls c)

/-- The classes of the program are read under the names under which they are written, and missing fields that may be `None` are
`None`. -/
def ReadsBack (env : Env) : Prop :=
  ∀ cd ∈ env.classes, cd.fromJson = none ∧ ∀ f ∈ cd.fields, fieldProp cd.kind f = writeProp cd.kind f ∧
    (f.ty.isOptional = true → absentValue cd.kind f = some .none)

end Verif
