import Verif.Model.Serializer
import Verif.Model.Catalog
/-!
# Schema generation: strong_typing/schema.py

`type_to_schema` and `classdef_to_schema`.  A schema is a Python `dict`, given by its pairs in insertion order.

Left out: descriptive text (`title`, `description`, that is, the options `use_descriptions` and
`property_description_fun`), the types `Decimal`, `Any`, `JsonObject`, `JsonArray`, `JsonType`, `type[T]` and `Literal` of
an enumeration member (whose schema holds the Python member).  Only classes and enumerations are registered.  A string
annotation of a data class field is the name of its class, enumeration or built-in type, and class names are not names
that are visible in schema.py.  In the annotation of a data class field either all classes and enumerations are given by
name or none of them, containers are those of the language (`list["T"]` holds the string, whereas `Optional["T"]`,
`Union["T", ...]` and `Annotated["T", ...]` hold a `ForwardRef`), and keys of dictionaries are never given by name.
-/
namespace Verif

/-- A schema. -/
abbrev Sch := List (Str × Json)

/-- Types that can be registered. -/
inductive RegKey where
  | enum (e : Nat)
  | cls (c : Nat)
  deriving DecidableEq, Repr

/-- The type as a key of the catalog. -/
def Ty.regKey : Ty → Option RegKey
  | .enum e => some (.enum e)
  | .cls c => some (.cls c)
  | _ => Option.none

/-- `JsonSchemaGenerator.type_catalog`, schema.py:185. -/
abbrev SchemaCatalog := Catalog RegKey Sch (List Json)

/-- The options of `SchemaOptions` (schema.py:174-179) that matter, and functions of other libraries: `pow10 d` is the
float `10 ** (-d)` for `d > 0`, `metaOk` tells if `check_schema` accepts a schema. -/
structure SchemaCfg where
  definitionsPath : Str := c!"#/definitions/"
  useExamples : Bool := true
  pow10 : Nat → PyFloat
  metaOk : Sch → Bool := fun _ => true

/-- A value of `self.types_used`: a type, or a `ForwardRef`. -/
inductive UseTy where
  | ty (t : Ty)
  | fwd (name : Str)

/-- An assignment to `self.types_used`: `setdefault` (schema.py:302), or `types_used[name] = ty` (schema.py:332) if
`overwrite`. -/
structure TypeUse where
  name : Str
  ty : UseTy
  overwrite : Bool

/-- Result of a method that returns something and updates `types_used`. -/
abbrev SchRes (α : Type) := Res (α × List TypeUse)

/-- A string as JSON value. -/
abbrev js (s : Str) : Json := .str s

/-- `10 ** n` for an integer `n`, schema.py:208-210. -/
def powTen (cfg : SchemaCfg) (n : Int) : Json :=
  if 0 ≤ n then .int (10 ^ n.toNat) else .float (cfg.pow10 (-n).toNat)

/-- `-x` for a number. -/
def negNum : Json → Json
  | .int i => .int (-i)
  | .float (.fin neg m e) => .float (.fin (!neg) m e)
  | .float (.inf neg) => .float (.inf (!neg))
  | j => j

/-- `_metadata_to_schema`, schema.py:196-219. -/
def metaSchema (cfg : SchemaCfg) : Meta → Sch
  | .intRange lo hi => [(c!"minimum", .int lo), (c!"maximum", .int hi)]
  | .precision s d =>
    [(c!"multipleOf", powTen cfg (-(d : Int))),
     (c!"exclusiveMinimum", negNum (powTen cfg ((s : Int) - d))),
     (c!"exclusiveMaximum", powTen cfg ((s : Int) - d))]
  | .minLength n => [(c!"minLength", .int n)]
  | .maxLength n => [(c!"maxLength", .int n)]
  | _ => []

/-- `d.update(other)`. -/
def updateSch (s other : Sch) : Sch := other.foldl (fun s kv => upsert kv.1 kv.2 s) s

/-- `_with_metadata`, schema.py:221-225. -/
def withMeta (cfg : SchemaCfg) (s : Sch) (ms : List Meta) : Sch := ms.foldl (fun s m => updateSch s (metaSchema cfg m)) s

/-- `_simple_type_to_schema`, schema.py:227-280. -/
def simpleSchema : Ty → Option Sch
  | .none => some [(c!"type", js c!"null")]
  | .bool => some [(c!"type", js c!"boolean")]
  | .int => some [(c!"type", js c!"integer")]
  | .float => some [(c!"type", js c!"number")]
  | .str => some [(c!"type", js c!"string")]
  | .bytes => some [(c!"type", js c!"string"), (c!"contentEncoding", js c!"base64")]
  | .datetime => some [(c!"type", js c!"string"), (c!"format", js c!"date-time")]
  | .date => some [(c!"type", js c!"string"), (c!"format", js c!"date")]
  | .time => some [(c!"type", js c!"string"), (c!"format", js c!"time")]
  | .timedelta => some [(c!"type", js c!"string"), (c!"format", js c!"duration")]
  | .uuid => some [(c!"type", js c!"string"), (c!"format", js c!"uuid")]
  | _ => Option.none

/-- The auxiliary integer types by their annotations, auxiliary.py:168-196. -/
def auxInts : List (List Meta × Str) :=
  [([.signed true, .storage 1, .intRange (-128) 127], c!"int8"),
   ([.signed true, .storage 2, .intRange (-32768) 32767], c!"int16"),
   ([.signed true, .storage 4, .intRange (-2147483648) 2147483647], c!"int32"),
   ([.signed true, .storage 8, .intRange (-9223372036854775808) 9223372036854775807], c!"int64"),
   ([.signed false, .storage 1, .intRange 0 255], c!"uint8"),
   ([.signed false, .storage 2, .intRange 0 65535], c!"uint16"),
   ([.signed false, .storage 4, .intRange 0 4294967295], c!"uint32"),
   ([.signed false, .storage 8, .intRange 0 18446744073709551615], c!"uint64")]

/-- The auxiliary float types by their annotations, auxiliary.py:198-199. -/
def auxFloats : List (List Meta × Str) := [([.storage 4], c!"float32"), ([.storage 8], c!"float64")]

/-- `get_auxiliary_format(Annotated[t, *ms])`, auxiliary.py:201-214. -/
def auxFormat (t : Ty) (ms : List Meta) : Option Str :=
  match t with
  | .int => lookupKey ms auxInts
  | .float => lookupKey ms auxFloats
  | _ => Option.none

/-- `{"$ref": f"{definitions_path}{identifier}"}`, schema.py:303, 336. -/
def refSch (cfg : SchemaCfg) (identifier : Str) : Sch := [(c!"$ref", js (cfg.definitionsPath ++ identifier))]

/-- JSON type name of the values of an enumeration, schema.py:348-356. -/
def scalarTypeName : Scalar → Str
  | .none => c!"null"
  | .bool _ => c!"boolean"
  | .int _ => c!"integer"
  | .float _ => c!"number"
  | .str _ => c!"string"

/-- Do all values have the type of the first one?  (`len(value_types) != 1` otherwise, schema.py:340-344.) -/
def scalarsUniform : List Scalar → Bool
  | [] => false
  | s :: r => r.all fun s' => scalarTypeName s' = scalarTypeName s

/-- Schema of an enumeration, schema.py:338-369. -/
def enumSchema (env : Env) (e : Nat) : Res Sch :=
  match env.enums[e]? with
  | Option.none => .error .outOfModel
  | some ed =>
    if scalarsUniform (ed.members.map Prod.snd) then
      match ed.members with
      | (_, .none) :: _ => .ok [(c!"type", js c!"null")]
      | (_, s) :: _ =>
        .ok [(c!"type", js (scalarTypeName s)), (c!"enum", .arr (ed.members.map fun m => m.2.toJson))]
      | [] => .error .valueError
    else .error .valueError

/-- `str(value)`; floats are outside the model. -/
def Scalar.pyStr : Scalar → Res Str
  | .none => .ok c!"None"
  | .bool b => .ok (if b then c!"True" else c!"False")
  | .int i => .ok (intStr i)
  | .float _ => .error .outOfModel
  | .str s => .ok s

/-- `OBJECT_ENUM_EXPANSION_LIMIT`, schema.py:41. -/
def enumExpansionLimit : Nat := 4

/-- Schema of a dictionary given the schema of its values, schema.py:384-402; key types other than `str`, `int` and enumerations have
been refused before. -/
def dictSchema (env : Env) (k : KeyTy) (value : Sch) : Res Sch :=
  match k with
  | .enum e =>
    (match env.enums[e]? with
     | Option.none => .error .outOfModel
     | some ed =>
       match mapRes (fun m => m.2.pyStr) ed.members with
       | .error err => .error err
       | .ok names =>
         if enumExpansionLimit < names.length then
           .ok [(c!"type", js c!"object"),
                (c!"propertyNames", .obj [(c!"pattern", js (c!"^(" ++ joinWith '|' names ++ c!")$"))]),
                (c!"additionalProperties", .obj value)]
         else
           .ok [(c!"type", js c!"object"),
                (c!"properties", .obj (names.foldl (fun ps n => upsert n (.obj value) ps) [])),
                (c!"additionalProperties", .bool false)])
  | _ => .ok [(c!"type", js c!"object"), (c!"additionalProperties", .obj value)]

/-- Schema of `Literal[l]`, schema.py:418-422. -/
def litSchema (l : Lit) : Res Sch :=
  match l.scalar with
  | Option.none => .error .outOfModel
  | some s => .ok [(c!"type", js (scalarTypeName s)), (c!"const", s.toJson)]

/-- A class without annotated members, schema.py:477-485. -/
def emptyClassSchema : Sch := [(c!"type", js c!"object")]

/-- The JSON value of a schema that was made, with the uses recorded. -/
def SchRes.map (f : α → Res β) : SchRes α → SchRes β
  | .error e => .error e
  | .ok (a, us) => match f a with | .error e => .error e | .ok b => .ok (b, us)

/-- Name of a class or an enumeration. -/
def RegKey.typeName (env : Env) : RegKey → Option Str
  | .enum e => (match env.enums[e]? with | some ed => some ed.name | Option.none => Option.none)
  | .cls c => (match env.classes[c]? with | some cd => some cd.name | Option.none => Option.none)

/-- Schema of a string or a `ForwardRef` inside an annotation.  Unless `skip`, the catalog is consulted (schema.py:298-303),
otherwise, and for an unknown name, the name is evaluated in vain (schema.py:325-336). -/
def nameSchema (cfg : SchemaCfg) (env : Env) (cat : SchemaCatalog) (skip : Bool) (k : RegKey) : SchRes Sch :=
  match k.typeName env with
  | Option.none => .error .outOfModel
  | some n =>
    match (if skip then Option.none else lookupKey n cat.byName) with
    | some entry => .ok (refSch cfg entry.identifier, [⟨entry.identifier, .fwd n, false⟩])
    | Option.none => .ok (refSch cfg n, [])

mutual
/-- `type_to_schema`, schema.py:282-485, where `cls c` is the schema of class `c` without look-up in the catalog and `fwd`
tells that classes and enumerations are given by name.  If the second flag is set, the type itself is not looked up in the
catalog: with `force_expand`, for the type in `Annotated[T, ...]` (schema.py:305-323), and for a string (schema.py:299). -/
def tySchema (cfg : SchemaCfg) (env : Env) (cat : SchemaCatalog) (cls : Nat → SchRes Sch) (fwd : Bool) :
    Bool → Ty → SchRes Sch
  | _, .annotated t ms =>
    (match simpleSchema t with
     | some s =>
       (match auxFormat t ms with
        | some fmt => .ok (upsert c!"format" (js fmt) s, [])
        | Option.none => .ok (withMeta cfg s ms, []))
     | Option.none => tySchema cfg env cat cls fwd true t)
  | skip, .enum e =>
    if fwd then nameSchema cfg env cat skip (.enum e)
    else
      (match (if skip then Option.none else lookupKey (RegKey.enum e) cat.byType) with
       | some entry => .ok (refSch cfg entry.identifier, [⟨entry.identifier, .ty (.enum e), false⟩])
       | Option.none => (match enumSchema env e with | .error err => .error err | .ok s => .ok (s, [])))
  | skip, .cls c =>
    if fwd then nameSchema cfg env cat skip (.cls c)
    else
      (match (if skip then Option.none else lookupKey (RegKey.cls c) cat.byType) with
       | some entry => .ok (refSch cfg entry.identifier, [⟨entry.identifier, .ty (.cls c), false⟩])
       | Option.none => cls c)
  | _, .union ts =>
    if 2 < ts.length || !ts.any Ty.isNone then
      (tySchemas cfg env cat cls fwd false ts).map fun ss => .ok [(c!"oneOf", .arr (ss.map Json.obj))]
    -- `Optional[T]` is not a union for `is_type_union`; `inspect.getmro` raises
    else .error .attribute
  | _, .list t =>
    (tySchema cfg env cat cls fwd fwd t).map fun s => .ok [(c!"type", js c!"array"), (c!"items", .obj s)]
  | _, .dict k t =>
    if k = .other then .error .valueError
    else (tySchema cfg env cat cls fwd fwd t).map fun s => dictSchema env k s
  | _, .set t =>
    (tySchema cfg env cat cls fwd fwd t).map fun s =>
      .ok [(c!"type", js c!"array"), (c!"items", .obj s), (c!"uniqueItems", .bool true)]
  | _, .tuple ts =>
    (tySchemas cfg env cat cls fwd fwd ts).map fun ss =>
      .ok [(c!"type", js c!"array"), (c!"minItems", .int ts.length), (c!"maxItems", .int ts.length),
           (c!"prefixItems", .arr (ss.map Json.obj))]
  | _, .literal ls =>
    (match ls with
     | [l] => (match litSchema l with | .error e => .error e | .ok s => .ok (s, []))
     | _ => .error .valueError)
  | _, t =>
    (match simpleSchema t with
     | some s => .ok (s, [])
     -- `IPv4Address`, `IPv6Address` and unparametrized containers are classes without annotations
     | Option.none => .ok (emptyClassSchema, []))
/-- `[self.type_to_schema(t) for t in ts]`, schema.py:372, 416. -/
def tySchemas (cfg : SchemaCfg) (env : Env) (cat : SchemaCatalog) (cls : Nat → SchRes Sch) (fwd skip : Bool) :
    List Ty → SchRes (List Sch)
  | [] => .ok ([], [])
  | t :: ts =>
    match tySchema cfg env cat cls fwd skip t with
    | .error e => .error e
    | .ok (s, us) =>
      match tySchemas cfg env cat cls fwd skip ts with
      | .error e => .error e
      | .ok (ss, us') => .ok (s :: ss, us ++ us')
end

/-- Is the annotation of the field a string for `get_class_properties` (inspection.py:558-565)? -/
def strField (kind : ClassKind) (f : FieldDef) : Bool :=
  match kind with
  | .dataclass _ => f.strAnn
  | _ => false

/-- Does the annotation of the field hold names of classes for `get_class_properties` (inspection.py:558-565)? -/
def fwdField (kind : ClassKind) (f : FieldDef) : Bool :=
  match kind with
  | .dataclass _ => f.fwd
  | _ => false

/-- Name under which a field is listed, schema.py:435-440. -/
def schemaProp (kind : ClassKind) (f : FieldDef) : Str :=
  if strField kind f then f.name else f.ty.alias.getD f.name

/-- Schema of a string annotation, schema.py:325-336, with the namespace of schema.py in which it is evaluated. -/
def strSchema (cfg : SchemaCfg) (env : Env) (t : Ty) : SchRes Sch :=
  match t with
  -- `NameError`
  | .cls c => (match env.classes[c]? with | Option.none => .error .outOfModel | some cd => .ok (refSch cfg cd.name, []))
  | .enum e => (match env.enums[e]? with | Option.none => .error .outOfModel | some ed => .ok (refSch cfg ed.name, []))
  | .bool => .ok (refSch cfg c!"bool", [⟨c!"bool", .ty .bool, true⟩])
  | .int => .ok (refSch cfg c!"int", [⟨c!"int", .ty .int, true⟩])
  | .float => .ok (refSch cfg c!"float", [⟨c!"float", .ty .float, true⟩])
  | .str => .ok (refSch cfg c!"str", [⟨c!"str", .ty .str, true⟩])
  | .bytes => .ok (refSch cfg c!"bytes", [⟨c!"bytes", .ty .bytes, true⟩])
  | _ => .error .outOfModel

/-- Class attribute with the name of the field, schema.py:428, 450-451: none for a field without default or with a
default factory; that of a named tuple is a descriptor. -/
def classAttr (kind : ClassKind) (f : FieldDef) : Option Val :=
  match kind with
  | .namedTuple _ => Option.none
  | _ => match f.dflt with
    | .value v => some v
    | _ => Option.none

/-- `isinstance(def_value, (bool, int, float, str, Enum, datetime, date, time, timedelta))`, schema.py:453-466. -/
def Val.hasJsonDefault : Val → Bool
  | .bool _ | .int _ | .float _ | .str _ | .enum _ _ | .datetime _ | .date _ | .time _ | .timedelta _ => true
  | _ => false

/-- Adds the default value to the schema of a property, schema.py:449-467. -/
def withDefault (env : Env) (kind : ClassKind) (f : FieldDef) (s : Sch) : Res Sch :=
  match classAttr kind f with
  | Option.none => .ok s
  | some v =>
    if v.hasJsonDefault then
      match objectToJson env v with
      | .error e => .error e
      | .ok j => .ok (upsert c!"default" j s)
    else .ok s

/-- Is the property listed as required, schema.py:442-447? -/
def schemaRequired (kind : ClassKind) (f : FieldDef) : Bool := strField kind f || !f.ty.isOptional

/-- Schema of a property, schema.py:442-467. -/
def propSchema (cfg : SchemaCfg) (env : Env) (cat : SchemaCatalog) (cls : Nat → SchRes Sch) (kind : ClassKind)
    (f : FieldDef) : SchRes Sch :=
  (if strField kind f then strSchema cfg env f.ty
   else tySchema cfg env cat cls (fwdField kind f) false f.ty.required).map fun s => withDefault env kind f s

/-- The loop over the properties of a class, schema.py:434-475. -/
def propSchemas (cfg : SchemaCfg) (env : Env) (cat : SchemaCatalog) (cls : Nat → SchRes Sch) (kind : ClassKind) :
    List FieldDef → List (Str × Json) → SchRes (List (Str × Json))
  | [], acc => .ok (acc, [])
  | f :: fs, acc =>
    match propSchema cfg env cat cls kind f with
    | .error e => .error e
    | .ok (s, us) =>
      match propSchemas cfg env cat cls kind fs (upsert (schemaProp kind f) (.obj s) acc) with
      | .error e => .error e
      | .ok (ps, us') => .ok (ps, us ++ us')

/-- The schema of a class from its properties and the names of the required ones, schema.py:477-485. -/
def classSchema (properties : List (Str × Json)) (required : List Str) : Sch :=
  [(c!"type", js c!"object")] ++
  (if properties.isEmpty then []
   else [(c!"properties", .obj properties), (c!"additionalProperties", .bool false)]) ++
  (if required.isEmpty then [] else [(c!"required", .arr (required.map Json.str))])

/-- Schema of a class that is not looked up in the catalog, nested to a depth of at most `fuel` such classes;
`RecursionError` beyond. -/
def clsSchema (cfg : SchemaCfg) (env : Env) (cat : SchemaCatalog) : Nat → Nat → SchRes Sch
  | 0, c => .error (if c < env.classes.length then .recursion else .outOfModel)
  | n + 1, c =>
    match env.classes[c]? with
    | Option.none => .error .outOfModel
    | some cd =>
      (propSchemas cfg env cat (clsSchema cfg env cat n) cd.kind cd.hints []).map fun ps =>
        .ok (classSchema ps ((cd.hints.filter (schemaRequired cd.kind)).map (schemaProp cd.kind)))

/-- `type_to_schema(data_type, force_expand)`.  A nesting of more classes than there are in the program repeats a class
and hence never ends. -/
def typeToSchema (cfg : SchemaCfg) (env : Env) (cat : SchemaCatalog) (force : Bool) (t : Ty) : SchRes Sch :=
  tySchema cfg env cat (clsSchema cfg env cat env.classes.length) false force t

/-- The key of the catalog under which `TypeCatalog.get` looks up a type or a `ForwardRef`. -/
def UseTy.ref : UseTy → Option (TypeRef RegKey)
  | .fwd n => some (.fwd n)
  | .ty t => (match t.regKey with | some k => some (.ty k) | Option.none => Option.none)

/-- `type_to_schema(data_type, force_expand=True)`; a `ForwardRef` is evaluated in the namespace of schema.py
(schema.py:325-328). -/
def useSchema (cfg : SchemaCfg) (env : Env) (cat : SchemaCatalog) : UseTy → SchRes Sch
  | .ty t => typeToSchema cfg env cat true t
  | .fwd _ => .error .name

/-- The schema with the examples of the entry, schema.py:506-508. -/
def withExamples (cfg : SchemaCfg) (examples : Option (List Json)) (s : Sch) : Sch :=
  match examples with
  | some (x :: xs) => if cfg.useExamples then upsert c!"examples" (.arr (x :: xs)) s else s
  | _ => s

/-- The schema of an entry before examples are added, schema.py:495-499. -/
def entrySchema (cfg : SchemaCfg) (env : Env) (cat : SchemaCatalog) (schema : Option Sch) (t : UseTy) : SchRes Sch :=
  match schema with
  | Option.none => useSchema cfg env cat t
  | some s => .ok (s, [])

/-- `_type_to_schema_with_lookup`, schema.py:487-510. -/
def schemaWithLookup (cfg : SchemaCfg) (env : Env) (cat : SchemaCatalog) (t : UseTy) : SchRes Sch :=
  match t.ref with
  | Option.none => .error .key
  | some r =>
    match cat.get r with
    | .error e => .error e
    | .ok entry => (entrySchema cfg env cat entry.schema t).map fun s => .ok (withExamples cfg entry.examples s)

/-- `types_used` after the recorded assignments. -/
def addUses (used : List (Str × UseTy)) (us : List TypeUse) : List (Str × UseTy) :=
  us.foldl (fun used u =>
    if u.overwrite || (lookupKey u.name used).isNone then upsert u.name u.ty used else used) used

/-- The `for` loop of `classdef_to_schema`, schema.py:539-540, over the snapshot of undefined types. -/
def defineAll (cfg : SchemaCfg) (env : Env) (cat : SchemaCatalog) :
    List (Str × UseTy) → List (Str × UseTy) → List (Str × Sch) → Res (List (Str × UseTy) × List (Str × Sch))
  | [], used, defined => .ok (used, defined)
  | (n, t) :: r, used, defined =>
    match schemaWithLookup cfg env cat t with
    | .error e => .error e
    | .ok (s, us) => defineAll cfg env cat r (addUses used us) (upsert n s defined)

/-- The `while` loop of `classdef_to_schema`, schema.py:529-540, for at most `fuel` rounds. -/
def defineLoop (cfg : SchemaCfg) (env : Env) (cat : SchemaCatalog) :
    Nat → List (Str × UseTy) → List (Str × Sch) → Res (List (Str × Sch))
  | n, used, defined =>
    if defined.length < used.length then
      match n with
      | 0 => .error .outOfModel
      | n + 1 =>
        match defineAll cfg env cat (used.filter fun u => (lookupKey u.1 defined).isNone) used defined with
        | .error e => .error e
        | .ok (used', defined') => defineLoop cfg env cat n used' defined'
    else .ok defined

/-- `JsonSchemaGenerator.classdef_to_schema`, schema.py:512-546.  Each round but the last defines a new registered type, so the
number of registered types bounds the number of rounds. -/
def classdefSchemas (cfg : SchemaCfg) (env : Env) (cat : SchemaCatalog) (force : Bool) (t : Ty) :
    Res (Sch × List (Str × Sch)) :=
  match typeToSchema cfg env cat force t with
  | .error e => .error e
  | .ok (s, us) =>
    match defineLoop cfg env cat (cat.byType.length + 1) (addUses [] us) [] with
    | .error e => .error e
    | .ok defs => .ok (s, sortByName defs)

/-- Identifier of the meta-schema of Draft 2020-12. -/
def metaSchemaId : Str := c!"https://json-schema.org/draft/2020-12/schema"

/-- `classdef_to_schema`, schema.py:558-591, with the default validator. -/
def classdefToSchema (cfg : SchemaCfg) (env : Env) (cat : SchemaCatalog) (t : Ty) : Res Sch :=
  match classdefSchemas cfg env cat false t with
  | .error e => .error e
  | .ok (s, defs) =>
    let body := updateSch (if defs.isEmpty then [] else [(c!"definitions", .obj (defs.map fun d => (d.1, .obj d.2)))]) s
    if cfg.metaOk body then .ok (updateSch [(c!"$schema", js metaSchemaId)] body) else .error .typeError

end Verif
