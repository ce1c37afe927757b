import Verif.Model.Schema
import Verif.Model.Docstring
/-!
# Schema generation with descriptive text: strong_typing/schema.py

The generator of Model/Schema.lean with the options `use_descriptions` and `property_description_fun` (schema.py:177-179): titles
and descriptions are taken from the documentation strings of classes and enumerations.  The documentation strings are parameters,
parsing them is modelled in Model/Docstring.lean.
-/
namespace Verif

/-- A Python class as `docstring.parse_type` sees it: its kind, the exceptions known in its module, `__doc__`. -/
structure DocBase where
  target : DocTarget Ty
  context : Option (List (Str × Str)) := none
  doc : Option Str

/-- A class and the other classes in `inspect.getmro`. -/
structure TypeDoc extends DocBase where
  bases : List DocBase := []

/-- The options for descriptive text, and the documentation of each class, enumeration and library class. -/
structure SchemaTexts where
  useDescriptions : Bool := true
  propertyDescription : Option (Ty → Str → Str → Str) := none
  ofType : Ty → TypeDoc

/-- `docstring.parse_type`, without the types that it assigns. -/
def DocBase.parse (b : DocBase) : Res Docstring :=
  match parseType b.target b.context b.doc with
  | .error e => .error e
  | .ok d => .ok d.doc

/-- `docstring.has_default_docstring`, docstring.py:315-327. -/
def DocBase.isDefault (b : DocBase) : Bool :=
  match b.doc with
  | none => false
  | some doc => hasDefaultDoc b.target doc

/-- `get_class_docstrings`, schema.py:47-54. -/
def classDocstrings (b : DocBase) : Res (Option Str × Option Str) :=
  match b.parse with
  | .error e => .error e
  | .ok d => if b.isDefault then .ok (none, none) else .ok (d.short, d.long)

/-- A keyword with a text as argument, if there is a text and it is not empty. -/
def textKeyword (k : Str) : Option Str → Sch
  | none => []
  | some s => if s.isEmpty then [] else [(k, .str s)]

/-- `docstring_to_schema`, schema.py:84-91. -/
def docstringSchema (b : DocBase) : Res Sch :=
  match classDocstrings b with
  | .error e => .error e
  | .ok (short, long) => .ok (textKeyword c!"title" short ++ textKeyword c!"description" long)

/-- The inner loop of `get_class_property_docstrings`, schema.py:71-80. -/
def addPropDocs (f : Str → Str → Str) : List (Str × Str) → List (Str × Str) → List (Str × Str)
  | [], acc => acc
  | (n, d) :: r, acc => addPropDocs f r (if (lookupKey n acc).isSome then acc else upsert n (f n d) acc)

/-- The outer loop of `get_class_property_docstrings`, schema.py:69-81. -/
def propDocsFrom (f : Str → Str → Str) : List DocBase → List (Str × Str) → Res (List (Str × Str))
  | [], acc => .ok acc
  | b :: r, acc =>
    match b.parse with
    | .error e => .error e
    | .ok d => propDocsFrom f r (addPropDocs f d.params acc)

/-- `get_class_property_docstrings`, schema.py:57-81. -/
def classPropDocs (tx : SchemaTexts) (t : Ty) : Res (List (Str × Str)) :=
  propDocsFrom (match tx.propertyDescription with | none => fun _ d => d | some g => g t)
    ((tx.ofType t).toDocBase :: (tx.ofType t).bases) []

/-- `if self.options.use_descriptions: schema.update(docstring_to_schema(typ))`, schema.py:362-363, 367-368, 483-484. -/
def withText (tx : SchemaTexts) (t : Ty) (s : Sch) : Res Sch :=
  if tx.useDescriptions then
    match docstringSchema (tx.ofType t).toDocBase with
    | .error e => .error e
    | .ok text => .ok (updateSch s text)
  else .ok s

/-- `d.pop(k, None)`. -/
def popKey (k : Str) (s : Sch) : Sch := s.filter fun kv => kv.1 ≠ k

/-- `property_doc` is added to the schema of a property, schema.py:469-473. -/
def withPropDoc (docs : List (Str × Str)) (name : Str) (s : Sch) : Sch :=
  match lookupKey name docs with
  | none => s
  | some d => if d.isEmpty then s else upsert c!"description" (.str d) (popKey c!"title" s)

/-- A class without annotated members, schema.py:427-485. -/
def emptyClassText (tx : SchemaTexts) (t : Ty) : Res Sch :=
  match classPropDocs tx t with
  | .error e => .error e
  | .ok _ => withText tx t emptyClassSchema

mutual
/-- `type_to_schema`, schema.py:282-485; as `tySchema`, with descriptive text. -/
def tySchemaT (cfg : SchemaCfg) (tx : SchemaTexts) (env : Env) (cat : SchemaCatalog) (cls : Nat → SchRes Sch) (fwd : Bool) :
    Bool → Ty → SchRes Sch
  | _, .annotated t ms =>
    (match simpleSchema t with
     | some s =>
       (match auxFormat t ms with
        | some fmt => .ok (upsert c!"format" (js fmt) s, [])
        | Option.none => .ok (withMeta cfg s ms, []))
     | Option.none => tySchemaT cfg tx env cat cls fwd true t)
  | skip, .enum e =>
    if fwd then nameSchema cfg env cat skip (.enum e)
    else
      (match (if skip then Option.none else lookupKey (RegKey.enum e) cat.byType) with
       | some entry => .ok (refSch cfg entry.identifier, [⟨entry.identifier, .ty (.enum e), false⟩])
       | Option.none =>
         (match enumSchema env e with
          | .error err => .error err
          | .ok s => (match withText tx (.enum e) s with | .error err => .error err | .ok s' => .ok (s', []))))
  | skip, .cls c =>
    if fwd then nameSchema cfg env cat skip (.cls c)
    else
      (match (if skip then Option.none else lookupKey (RegKey.cls c) cat.byType) with
       | some entry => .ok (refSch cfg entry.identifier, [⟨entry.identifier, .ty (.cls c), false⟩])
       | Option.none => cls c)
  | _, .union ts =>
    if 2 < ts.length || !ts.any Ty.isNone then
      (tySchemasT cfg tx env cat cls fwd false ts).map fun ss => .ok [(c!"oneOf", .arr (ss.map Json.obj))]
    else .error .attribute
  | _, .list t =>
    (tySchemaT cfg tx env cat cls fwd fwd t).map fun s => .ok [(c!"type", js c!"array"), (c!"items", .obj s)]
  | _, .dict k t =>
    if k = .other then .error .valueError
    else (tySchemaT cfg tx env cat cls fwd fwd t).map fun s => dictSchema env k s
  | _, .set t =>
    (tySchemaT cfg tx env cat cls fwd fwd t).map fun s =>
      .ok [(c!"type", js c!"array"), (c!"items", .obj s), (c!"uniqueItems", .bool true)]
  | _, .tuple ts =>
    (tySchemasT cfg tx env cat cls fwd fwd ts).map fun ss =>
      .ok [(c!"type", js c!"array"), (c!"minItems", .int ts.length), (c!"maxItems", .int ts.length),
           (c!"prefixItems", .arr (ss.map Json.obj))]
  | _, .literal ls =>
    (match ls with
     | [l] => (match litSchema l with | .error e => .error e | .ok s => .ok (s, []))
     | _ => .error .valueError)
  | _, t =>
    (match simpleSchema t with
     | some s => .ok (s, [])
     | Option.none => (match emptyClassText tx t with | .error e => .error e | .ok s => .ok (s, [])))
/-- `[self.type_to_schema(t) for t in ts]`, schema.py:372, 416. -/
def tySchemasT (cfg : SchemaCfg) (tx : SchemaTexts) (env : Env) (cat : SchemaCatalog) (cls : Nat → SchRes Sch) (fwd skip : Bool) :
    List Ty → SchRes (List Sch)
  | [] => .ok ([], [])
  | t :: ts =>
    match tySchemaT cfg tx env cat cls fwd skip t with
    | .error e => .error e
    | .ok (s, us) =>
      match tySchemasT cfg tx env cat cls fwd skip ts with
      | .error e => .error e
      | .ok (ss, us') => .ok (s :: ss, us ++ us')
end

/-- Schema of a property, schema.py:442-473. -/
def propSchemaT (cfg : SchemaCfg) (tx : SchemaTexts) (env : Env) (cat : SchemaCatalog) (cls : Nat → SchRes Sch)
    (docs : List (Str × Str)) (kind : ClassKind) (f : FieldDef) : SchRes Sch :=
  (if strField kind f then strSchema cfg env f.ty
   else tySchemaT cfg tx env cat cls (fwdField kind f) false f.ty.required).map fun s =>
     match withDefault env kind f s with
     | .error e => .error e
     | .ok s => .ok (withPropDoc docs f.name s)

/-- The loop over the properties of a class, schema.py:434-475. -/
def propSchemasT (cfg : SchemaCfg) (tx : SchemaTexts) (env : Env) (cat : SchemaCatalog) (cls : Nat → SchRes Sch)
    (docs : List (Str × Str)) (kind : ClassKind) : List FieldDef → List (Str × Json) → SchRes (List (Str × Json))
  | [], acc => .ok (acc, [])
  | f :: fs, acc =>
    match propSchemaT cfg tx env cat cls docs kind f with
    | .error e => .error e
    | .ok (s, us) =>
      match propSchemasT cfg tx env cat cls docs kind fs (upsert (schemaProp kind f) (.obj s) acc) with
      | .error e => .error e
      | .ok (ps, us') => .ok (ps, us ++ us')

/-- Schema of a class that is not looked up in the catalog, schema.py:427-485, nested to a depth of at most `fuel` such classes. -/
def clsSchemaT (cfg : SchemaCfg) (tx : SchemaTexts) (env : Env) (cat : SchemaCatalog) : Nat → Nat → SchRes Sch
  | 0, c => .error (if c < env.classes.length then .recursion else .outOfModel)
  | n + 1, c =>
    match env.classes[c]? with
    | Option.none => .error .outOfModel
    | some cd =>
      match classPropDocs tx (.cls c) with
      | .error e => .error e
      | .ok docs =>
        (propSchemasT cfg tx env cat (clsSchemaT cfg tx env cat n) docs cd.kind cd.hints []).map fun ps =>
          withText tx (.cls c) (classSchema ps ((cd.hints.filter (schemaRequired cd.kind)).map (schemaProp cd.kind)))

/-- `type_to_schema(data_type, force_expand)`. -/
def typeToSchemaT (cfg : SchemaCfg) (tx : SchemaTexts) (env : Env) (cat : SchemaCatalog) (force : Bool) (t : Ty) : SchRes Sch :=
  tySchemaT cfg tx env cat (clsSchemaT cfg tx env cat env.classes.length) false force t

/-- The schema of an entry, schema.py:495-499. -/
def entrySchemaT (cfg : SchemaCfg) (tx : SchemaTexts) (env : Env) (cat : SchemaCatalog) (schema : Option Sch) (t : UseTy) :
    SchRes Sch :=
  match schema with
  | Option.none => (match t with | .ty t => typeToSchemaT cfg tx env cat true t | .fwd _ => .error .name)
  | some s => .ok (s, [])

/-- Descriptive text of an entry, if it is for a class or enumeration and not for a `ForwardRef`, schema.py:501-504. -/
def entryText (tx : SchemaTexts) (t : UseTy) (s : Sch) : Res Sch :=
  match t with
  | .ty t => withText tx t s
  | .fwd _ => .ok s

/-- `_type_to_schema_with_lookup`, schema.py:487-510. -/
def schemaWithLookupT (cfg : SchemaCfg) (tx : SchemaTexts) (env : Env) (cat : SchemaCatalog) (t : UseTy) : SchRes Sch :=
  match t.ref with
  | Option.none => .error .key
  | some r =>
    match cat.get r with
    | .error e => .error e
    | .ok entry =>
      (entrySchemaT cfg tx env cat entry.schema t).map fun s =>
        match entryText tx t s with
        | .error e => .error e
        | .ok s => .ok (withExamples cfg entry.examples s)

/-- The `for` loop of `classdef_to_schema`, schema.py:539-540. -/
def defineAllT (cfg : SchemaCfg) (tx : SchemaTexts) (env : Env) (cat : SchemaCatalog) :
    List (Str × UseTy) → List (Str × UseTy) → List (Str × Sch) → Res (List (Str × UseTy) × List (Str × Sch))
  | [], used, defined => .ok (used, defined)
  | (n, t) :: r, used, defined =>
    match schemaWithLookupT cfg tx env cat t with
    | .error e => .error e
    | .ok (s, us) => defineAllT cfg tx env cat r (addUses used us) (upsert n s defined)

/-- The `while` loop of `classdef_to_schema`, schema.py:529-540, for at most `fuel` rounds. -/
def defineLoopT (cfg : SchemaCfg) (tx : SchemaTexts) (env : Env) (cat : SchemaCatalog) :
    Nat → List (Str × UseTy) → List (Str × Sch) → Res (List (Str × Sch))
  | n, used, defined =>
    if defined.length < used.length then
      match n with
      | 0 => .error .outOfModel
      | n + 1 =>
        match defineAllT cfg tx env cat (used.filter fun u => (lookupKey u.1 defined).isNone) used defined with
        | .error e => .error e
        | .ok (used', defined') => defineLoopT cfg tx env cat n used' defined'
    else .ok defined

/-- `JsonSchemaGenerator.classdef_to_schema`, schema.py:512-546. -/
def classdefSchemasT (cfg : SchemaCfg) (tx : SchemaTexts) (env : Env) (cat : SchemaCatalog) (force : Bool) (t : Ty) :
    Res (Sch × List (Str × Sch)) :=
  match typeToSchemaT cfg tx env cat force t with
  | .error e => .error e
  | .ok (s, us) =>
    match defineLoopT cfg tx env cat (cat.byType.length + 1) (addUses [] us) [] with
    | .error e => .error e
    | .ok defs => .ok (s, sortByName defs)

/-- `classdef_to_schema`, schema.py:558-591, with the default validator. -/
def classdefToSchemaT (cfg : SchemaCfg) (tx : SchemaTexts) (env : Env) (cat : SchemaCatalog) (t : Ty) : Res Sch :=
  match classdefSchemasT cfg tx env cat false t with
  | .error e => .error e
  | .ok (s, defs) =>
    let body := updateSch (if defs.isEmpty then [] else [(c!"definitions", .obj (defs.map fun d => (d.1, .obj d.2)))]) s
    if cfg.metaOk body then .ok (updateSch [(c!"$schema", js metaSchemaId)] body) else .error .typeError

end Verif
