import Mathlib.Logic.Relation
import Verif.Spec.RoundTrip
import Verif.Spec.JsonSchema
import Verif.Spec.SchemaRefs
/-!
# Programs, types and values for which schema and serializer agree
-/
namespace Verif

/-! ### Values -/

/-- Values other than `str` and `bytes` that are written as text. -/
def Val.isOtherText : Val → Bool
  | .datetime _ | .date _ | .time _ | .timedelta _ | .uuid _ => true
  | _ => false

/-- The value meets an annotation.  For `Precision` the validator has to regard the number as a multiple; lengths of `bytes`
are those of the text that is written (but see `C34_bytes_length_fails`). -/
def MetaFits (vc : ValidatorCfg) (cfg : SchemaCfg) (v : Val) : Meta → Prop
  | .intRange lo hi =>
    (∀ i, v = .int i → lo ≤ i ∧ i ≤ hi) ∧
    ∀ f, v = .float f → ∃ a b, f.frac = some (a, b) ∧ lo * b ≤ a ∧ a ≤ hi * b
  | .precision s d =>
    (∀ i, v = .int i → d ≤ s ∧ vc.multipleOf (.int i) (powTen cfg (-(d : Int))) = true ∧
      -(10 ^ (s - d) : Int) < i ∧ i < 10 ^ (s - d)) ∧
    ∀ f, v = .float f → d ≤ s ∧ vc.multipleOf (.float f) (powTen cfg (-(d : Int))) = true ∧
      ∃ a b, f.frac = some (a, b) ∧ -(10 ^ (s - d) : Int) * b < a ∧ a < 10 ^ (s - d) * b
  | .minLength n =>
    (∀ s, v = .str s → n ≤ s.length) ∧ (∀ b, v = .bytes b → n ≤ (b64Encode b).length) ∧ v.isOtherText = false
  | .maxLength n =>
    (∀ s, v = .str s → s.length ≤ n) ∧ (∀ b, v = .bytes b → (b64Encode b).length ≤ n) ∧ v.isOtherText = false
  | _ => True

/-- The format checker accepts the text that is written (but see `C34_time_format_fails`). -/
def FormatFits (vc : ValidatorCfg) : Val → Prop
  | .datetime d => ∀ s, dtSerialize d = .ok s → vc.format c!"date-time" s = true
  | .date d => vc.format c!"date" (dateIso d) = true
  | .time t => vc.format c!"time" (timeIso t) = true
  | .timedelta d => vc.format c!"duration" (tdSerialize d) = true
  | .uuid n => vc.format c!"uuid" (uuidStr n) = true
  | _ => True

/-- `v` is a value of type `t` (`HasTy`) and meets the annotations in `t`; texts have the format that the schema names. -/
inductive Conforms (vc : ValidatorCfg) (cfg : SchemaCfg) (env : Env) : Val → Ty → Prop
  | leaf {v t} : t ∈ scalarTys ∨ t ∈ [Ty.bareList, .bareSet, .bareTuple, .bareDict] → HasTy env v t → FormatFits vc v →
      Conforms vc cfg env v t
  | list {vs t} : (∀ v ∈ vs, Conforms vc cfg env v t) → Conforms vc cfg env (.list vs) (.list t)
  | set {vs t} : HasTy env (.set vs) (.set t) → (∀ v ∈ vs, Encodable v) → (∀ v ∈ vs, Conforms vc cfg env v t) →
      Conforms vc cfg env (.set vs) (.set t)
  | tuple {vs ts} : vs.length = ts.length →
      (∀ (i : Nat) v t, vs[i]? = some v → ts[i]? = some t → Conforms vc cfg env v t) →
      Conforms vc cfg env (.tuple vs) (.tuple ts)
  | dict {kvs k t} : HasTy env (.dict kvs) (.dict k t) → (∀ kv ∈ kvs, Conforms vc cfg env kv.2 t) →
      Conforms vc cfg env (.dict kvs) (.dict k t)
  | union {v ts t} : t ∈ ts → Conforms vc cfg env v t → Conforms vc cfg env v (.union ts)
  | annotated {v t ms} : Conforms vc cfg env v t → (∀ m ∈ ms, MetaFits vc cfg v m) → Conforms vc cfg env v (.annotated t ms)
  | literal {v ls} : HasTy env v (.literal ls) → Conforms vc cfg env v (.literal ls)
  | enum {v e} : HasTy env v (.enum e) → Conforms vc cfg env v (.enum e)
  | cls {c cd fs} : env.classes[c]? = some cd → HasTy env (.obj c fs) (.cls c) →
      (∀ (i : Nat) f w, cd.hints[i]? = some f → fs[i]? = some w → Conforms vc cfg env w.2 f.ty) →
      Conforms vc cfg env (.obj c fs) (.cls c)

/-! ### Types -/

/-- The type without annotations. -/
def Ty.unann : Ty → Ty
  | .annotated t _ => t.unann
  | t => t

/-- Kinds of JSON values with the numbers that validation does not tell apart. -/
def Kind.widen : Kind → List Kind
  | .int => [.int, .float]
  | .float => [.int, .float]
  | k => [k]

/-- Kinds of JSON values that the schema of a type admits at most. -/
def schemaKinds (env : Env) (t : Ty) : List Kind :=
  match t.unann with
  | .none => [.null]
  | .bool => [.bool]
  | .int | .float => [.int, .float]
  | .str | .bytes | .datetime | .date | .time | .timedelta | .uuid => [.str]
  | .list _ | .set _ | .tuple _ => [.arr]
  | .dict _ _ | .bareDict | .cls _ => [.obj]
  | .enum e => (enumKinds env e).flatMap Kind.widen
  | .literal [l] =>
    (match l.scalar with
     | some s => s.kind.widen
     | Option.none => allKinds)
  | _ => allKinds

/-- The JSON values of a type with finitely many of them. -/
def jsonValues (env : Env) (t : Ty) : Option (List Json) :=
  match t.unann with
  | .enum e =>
    (match env.enums[e]? with
     | some ed => some (ed.members.map fun m => m.2.toJson)
     | Option.none => Option.none)
  | .literal [l] =>
    (match l.scalar with
     | some s => some [s.toJson]
     | Option.none => Option.none)
  | _ => Option.none

/-- The name of a field in JSON: its alias, or else its own name. -/
def jsonName (f : FieldDef) : Str := f.ty.alias.getD f.name

/-- A criterion by which what is written for a value of type `t` is not valid for type `u`. -/
inductive SchemaApart (env : Env) : Ty → Ty → Prop
  /-- the kinds of JSON values differ -/
  | kinds {t u} : (∀ k ∈ writeKinds env t, k ∉ schemaKinds env u) → SchemaApart env t u
  /-- finitely many values, all different -/
  | values {t u xs ys} : jsonValues env t = some xs → jsonValues env u = some ys →
      (∀ x ∈ xs, ∀ y ∈ ys, Json.same x y = false) → SchemaApart env t u
  /-- a property that the first class always has and the second does not know -/
  | extra {t u c d cd dd f} : t.unann = .cls c → u.unann = .cls d → env.classes[c]? = some cd →
      env.classes[d]? = some dd → f ∈ cd.hints → f.ty.isOptional = false → dd.hints ≠ [] →
      (∀ g ∈ dd.hints, jsonName g ≠ jsonName f) → SchemaApart env t u
  /-- a property that the second class requires and the first does not know -/
  | missing {t u c d cd dd g} : t.unann = .cls c → u.unann = .cls d → env.classes[c]? = some cd →
      env.classes[d]? = some dd → cd.hints ≠ [] → g ∈ dd.hints → g.ty.isOptional = false →
      (∀ f ∈ cd.hints, jsonName f ≠ jsonName g) → SchemaApart env t u
  /-- a property that both have, with types that are apart; for example a tag -/
  | differ {t u c d cd dd f g} : t.unann = .cls c → u.unann = .cls d → env.classes[c]? = some cd →
      env.classes[d]? = some dd → f ∈ cd.hints → f.ty.isOptional = false → g ∈ dd.hints → jsonName g = jsonName f →
      SchemaApart env f.ty g.ty.required → SchemaApart env t u

/-- Types of the members of a set whose JSON values are different for different members. -/
def setItem : Ty → Bool
  | .bool | .int | .float | .str | .bytes | .datetime | .date | .time | .timedelta | .uuid | .enum _ => true
  | .annotated t _ => setItem t
  | _ => false

/-- Words of letters and digits: as a regular expression such a text matches itself. -/
def PlainWord (s : Str) : Prop := ∀ x ∈ s, x.isAlphanum = true

/-- Types for which the claim is made.  Left out are `IPv4Address`, `IPv6Address`, `list`, `set` and `tuple` without
parameters, sets of tuples or of instances of classes, and unions whose members are not told apart. -/
inductive Checkable (env : Env) : Ty → Prop
  | simple {t} : t ∈ [Ty.none, .bool, .int, .float, .str, .bytes, .datetime, .date, .time, .timedelta, .uuid, .bareDict] →
      Checkable env t
  | list {t} : Checkable env t → Checkable env (.list t)
  | set {t} : setItem t = true → Checkable env t → Checkable env (.set t)
  | tuple {ts} : (∀ t ∈ ts, Checkable env t) → Checkable env (.tuple ts)
  /-- a dictionary; an enumeration of keys with many members has plain words as values -/
  | dict {k t} : (∀ e ed, k = .enum e → env.enums[e]? = some ed → enumExpansionLimit < ed.members.length →
      ∀ m ∈ ed.members, ∃ s, m.2 = .str s ∧ PlainWord s) → Checkable env t → Checkable env (.dict k t)
  | union {ts} : (∀ t ∈ ts, Checkable env t) →
      ts.Pairwise (fun t u => SchemaApart env t u ∧ SchemaApart env u t) → Checkable env (.union ts)
  | annotated {t ms} : Checkable env t → Checkable env (.annotated t ms)
  | literal {ls} : Checkable env (.literal ls)
  | enum {e} : Checkable env (.enum e)
  | cls {c} : Checkable env (.cls c)

/-! ### Programs -/

/-- The pattern `^(a|b|c)$` for plain words matches each of them. -/
def WordsMatch (vc : ValidatorCfg) : Prop :=
  ∀ words, (∀ w ∈ words, PlainWord w) → ∀ w ∈ words, vc.pattern (c!"^(" ++ joinWith '|' words ++ c!")$") w = true

/-- The class or enumeration is known by its name, as the same type. -/
def KnownByName (env : Env) (cat : SchemaCatalog) (k : RegKey) : Prop :=
  ∃ n e e', k.typeName env = some n ∧ lookupKey n cat.byName = some e ∧ lookupKey k cat.byType = some e' ∧
    e.identifier = e'.identifier

/-- Classes whose schemas refer to what is meant: without string annotations, with distinct property names, and with forward
references to registered types only. -/
structure ClassNames (env : Env) (cat : SchemaCatalog) (cd : ClassDef) : Prop where
  strings : ∀ f ∈ cd.hints, strField cd.kind f = false
  distinct : (cd.hints.map jsonName).Nodup
  forward : ∀ f ∈ cd.hints, fwdField cd.kind f = true → ∀ k b, Occurs false f.ty.required k b →
    b = false ∧ KnownByName env cat k

/-- Programs and catalogs whose schemas refer to what is meant. -/
structure SchemaNames (cfg : SchemaCfg) (env : Env) (cat : SchemaCatalog) : Prop where
  classes : ∀ cd ∈ env.classes, ClassNames env cat cd
  path : cfg.definitionsPath = c!"#/definitions/"
  /-- no schemas given by the user -/
  explicit : ∀ r e, cat.get r = .ok e → e.schema = none
  names : ∀ k e, lookupKey k cat.byType = some e → ∀ x ∈ e.identifier, x ≠ '/' ∧ x ≠ '~' ∧ x ≠ '%'
  unique : ∀ k e k' e', lookupKey k cat.byType = some e → lookupKey k' cat.byType = some e' →
    e.identifier = e'.identifier → k = k'

/-- Classes for which the claim is made: without `to_json`, without string annotations, with distinct property names that
are aliases or names other than keywords with underscore, and whose fields that are not optional are never `None`. -/
structure ClassChecks (env : Env) (cat : SchemaCatalog) (cd : ClassDef) : Prop extends ClassNames env cat cd where
  toJson : cd.toJson = none
  names : ∀ f ∈ cd.hints, f.ty.alias = none → ∀ k ∈ pyKeywords, f.name ≠ k ++ ['_']
  types : ∀ f ∈ cd.hints, Checkable env f.ty
  present : ∀ f ∈ cd.hints, f.ty.isOptional = false → ∀ v, HasTy env v f.ty → v ≠ .none

/-- Programs and catalogs for which the claim is made. -/
structure ProgramChecks (cfg : SchemaCfg) (env : Env) (cat : SchemaCatalog) : Prop where
  ok : env.Ok
  classes : ∀ cd ∈ env.classes, ClassChecks env cat cd
  enums : ∀ ed ∈ env.enums, ed.toJson = none ∧ ∀ m ∈ ed.members, m.2 ≠ .float .nan
  path : cfg.definitionsPath = c!"#/definitions/"
  /-- no schemas given by the user -/
  explicit : ∀ r e, cat.get r = .ok e → e.schema = none
  names : ∀ k e, lookupKey k cat.byType = some e → ∀ x ∈ e.identifier, x ≠ '/' ∧ x ≠ '~' ∧ x ≠ '%'
  unique : ∀ k e k' e', lookupKey k cat.byType = some e → lookupKey k' cat.byType = some e' →
    e.identifier = e'.identifier → k = k'

theorem ProgramChecks.schemaNames {cfg : SchemaCfg} {env : Env} {cat : SchemaCatalog} (h : ProgramChecks cfg env cat) :
    SchemaNames cfg env cat :=
  ⟨fun cd hcd => (h.classes cd hcd).toClassNames, h.path, h.explicit, h.names, h.unique⟩

/-! ### Types for which there is a schema -/

/-- The type that is registered. -/
def RegKey.toTy : RegKey → Ty
  | .enum e => .enum e
  | .cls c => .cls c

/-- Types for which generation does not raise.  Left out are optional types other than of fields, and literals with more than
one value. -/
inductive Schemable (env : Env) : Ty → Prop
  | leaf {t} : t ∈ scalarTys ∨ t ∈ [Ty.bareList, .bareSet, .bareTuple, .bareDict] → Schemable env t
  | list {t} : Schemable env t → Schemable env (.list t)
  | set {t} : Schemable env t → Schemable env (.set t)
  | tuple {ts} : (∀ t ∈ ts, Schemable env t) → Schemable env (.tuple ts)
  | dict {k t} : k ≠ .other → (∀ e, k = .enum e → ∃ ed, env.enums[e]? = some ed ∧ ∀ m ∈ ed.members, ∀ f, m.2 ≠ .float f) →
      Schemable env t → Schemable env (.dict k t)
  | union {ts} : 2 < ts.length ∨ Ty.none ∉ ts → (∀ t ∈ ts, Schemable env t) → Schemable env (.union ts)
  | annotated {t ms} : Schemable env t → Schemable env (.annotated t ms)
  | literal {l} : (∀ e m, l ≠ .enum e m) → Schemable env (.literal [l])
  /-- an enumeration whose values have the same type -/
  | enum {e ed} : env.enums[e]? = some ed → ed.members ≠ [] →
      (∀ m ∈ ed.members, ∀ m' ∈ ed.members, scalarTypeName m.2 = scalarTypeName m'.2) → Schemable env (.enum e)
  | cls {c cd} : env.classes[c]? = some cd → Schemable env (.cls c)

/-- Programs and catalogs for which generation does not raise: annotations are evaluated, defaults can be written, and classes
that are not registered do not refer to themselves, directly or by way of other such classes. -/
structure SchemaProgram (env : Env) (cat : SchemaCatalog) : Prop where
  evaluated : ∀ cd ∈ env.classes, ∀ f ∈ cd.hints, f.Evaluated cd.kind
  types : ∀ cd ∈ env.classes, ∀ f ∈ cd.hints, Schemable env f.ty.required
  defaults : ∀ cd ∈ env.classes, ∀ f ∈ cd.hints, ∀ v, f.dflt = .value v → v.hasJsonDefault = true →
    ∃ j, objectToJson env v = .ok j
  registered : ∀ k e, lookupKey k cat.byType = some e → Schemable env k.toTy
  acyclic : ∀ c, ¬ Relation.TransGen (Inlines env cat) c c

end Verif
