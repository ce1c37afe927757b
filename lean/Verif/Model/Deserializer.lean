import Verif.Model.PyEq
/-!
# Deserializer objects and their `parse` methods: strong_typing/deserializer.py

A deserializer is a tree of `Deser` nodes; deserializers of classes and enumerations live in the cache `_CACHE`
(deserializer.py:832) and are referred to by their cache key, which makes recursive types possible.
-/
namespace Verif

/-- Deserializer objects.  The attributes set by `__init__` are the arguments of the constructors: `ListDeserializer`
deserializer.py:274-276, `DictDeserializer` deserializer.py:296-300, `SetDeserializer` deserializer.py:352-354, `TupleDeserializer`
deserializer.py:373-375, `UnionDeserializer` deserializer.py:407-409, `TaggedUnionDeserializer` deserializer.py:457-460;
`container_type` and `union_type` (deserializer.py:329-332, 381-383, 481-483) only serve error messages. -/
inductive Deser where
  | none | bool | int | float | str | bytes | datetime | date | time | timedelta | uuid | ipv4 | ipv6
  | list (d : Deser)
  | dict (k : KeyTy) (d : Deser)
  | set (d : Deser)
  | tuple (ds : List Deser)
  | union (ds : List Deser)
  /-- `disambiguating_properties` in iteration order, and `member_parsers` -/
  | tagged (props : List Str) (table : List (Str × Lit × TKey))
  | literal (vals : List Lit) (d : Deser)
  /-- the cached deserializer with this key -/
  | ref (k : TKey)

/-- The four kinds of field deserializers, deserializer.py:585-653, with the value used for an absent property. -/
inductive Mode where
  | required
  | optional
  | dflt (v : Val)
  | factory (v : Val)

/-- A field deserializer, deserializer.py:563-582. -/
structure FieldD where
  prop : Str
  field : Str
  parser : Deser
  mode : Mode

/-- Cached deserializers: `EnumDeserializer`, `CustomDeserializer` (deserializer.py:551-560) and the class deserializers
(deserializer.py:656-769).  `fields = none`: `build`
has not run to completion, so that the attribute `property_parsers` does not exist. -/
inductive Entry where
  | enum (e : Nat)
  | custom (c : Nat)
  | cls (c : Nat) (skip : Bool) (fields : Option (List FieldD))

/-- Contents of the cache. -/
abbrev Heap := TKey → Option Entry

/-! ### Leaf deserializers -/

/-- Deserializers that take a JSON string. -/
def strLeaf (f : Str → Res α) (mk : α → Val) : Json → Res Val
  | .str s => (match f s with | .ok a => .ok (mk a) | .error e => .error e)
  | _ => .error .jsonType

/-- `NoneDeserializer`, deserializer.py:98-104. -/
def parseNone : Json → Res Val
  | .null => .ok .none
  | _ => .error .jsonType

/-- `BoolDeserializer`, deserializer.py:107-113. -/
def parseBool : Json → Res Val
  | .bool b => .ok (.bool b)
  | _ => .error .jsonType

/-- `IntDeserializer`, deserializer.py:116-122; `bool` is a subclass of `int`. -/
def parseInt : Json → Res Val
  | .int i => .ok (.int i)
  | .bool b => .ok (.int (if b then 1 else 0))
  | _ => .error .jsonType

/-- `FloatDeserializer`, deserializer.py:125-131. -/
def parseFloat : Json → Res Val
  | .float f => .ok (.float f)
  | .int i => (match intToFloat i with | .ok f => .ok (.float f) | .error e => .error e)
  | .bool b => (match intToFloat (if b then 1 else 0) with | .ok f => .ok (.float f) | .error e => .error e)
  | _ => .error .jsonType

/-- `StringDeserializer`, deserializer.py:134-140. -/
def parseStr : Json → Res Val
  | .str s => .ok (.str s)
  | _ => .error .jsonType

/-- `EnumDeserializer`, deserializer.py:539-548: `enum_type(data)`, that is, lookup by `==` on the member value, and
`ValueError` if there is none.  Lookup of NaN is by object identity and outside the model. -/
def enumLookup (env : Env) (e : Nat) (j : Json) : Res Val :=
  match env.enums[e]? with
  | Option.none => .error .outOfModel
  | some ed =>
    match j.scalar with
    | Option.none => .error .valueError
    | some s =>
      match ed.members.findIdx? (fun m => s.pyEq m.2) with
      | some i => .ok (.enum e i)
      | Option.none =>
        if s = .float .nan ∧ ed.members.any (fun m => m.2 = .float .nan) then .error .outOfModel else .error .valueError

/-- `self.key_type(key)` in `DictDeserializer.parse`, deserializer.py:340. -/
def parseKey (env : Env) (k : KeyTy) (s : Str) : Res Key :=
  match k with
  | .str => .ok (.str s)
  | .enum e => (match enumLookup env e (.str s) with
      | .ok (.enum e' m) => .ok (.enum e' m)
      | .ok _ => .error .outOfModel
      | .error e => .error e)
  | .int | .other => .error .outOfModel

/-! ### Composite deserializers

`Kids` holds for each child of a JSON value the function that applies a deserializer to this child. -/

/-- Children of a JSON value. -/
inductive Kids where
  | none
  | arr (fs : List (Deser → Res Val))
  | obj (fs : List (Str × Json × (Deser → Res Val)))

/-- Is a JSON value `null` (Python `None`)? -/
def Json.isNull : Json → Bool
  | .null => true
  | _ => false

/-- `parse_field` of the four field deserializers, deserializer.py:585-653. -/
def parseField (fs : List (Str × Json × (Deser → Res Val))) (fd : FieldD) : Res Val :=
  match fd.mode with
  | .required =>
    (match lookupKey fd.prop fs with
     | Option.none => .error .jsonKey
     | some (j, f) => if j.isNull then .error .jsonValue else f fd.parser)
  | .optional =>
    (match lookupKey fd.prop fs with
     | Option.none => .ok .none
     | some (j, f) => if j.isNull then .ok .none else f fd.parser)
  | .dflt v =>
    (match lookupKey fd.prop fs with
     | Option.none => .ok v
     | some (j, f) => if j.isNull then .ok v else f fd.parser)
  | .factory v =>
    (match lookupKey fd.prop fs with
     | Option.none => .ok v
     | some (j, f) => if j.isNull then .ok v else f fd.parser)

/-- `create` of the class deserializers, deserializer.py:686-694, 711-712, 761-769.  Calling a class made by
`collections.namedtuple` without arguments fails if it has fields. -/
def createObj (env : Env) (c : Nat) (vs : List (Str × Val)) : Res Val :=
  match env.classes[c]? with
  | Option.none => .error .outOfModel
  | some cd => if cd.kind = .namedTuple false ∧ cd.fields.isEmpty = false then .error .typeError else .ok (.obj c vs)

/-- `{property_parser.field_name: property_parser.parse_field(data) ...}`, deserializer.py:676-678. -/
def parseFields (fs : List (Str × Json × (Deser → Res Val))) (fds : List FieldD) : Res (List (Str × Val)) :=
  mapRes (fun fd => match parseField fs fd with | .ok v => .ok (fd.field, v) | .error e => .error e) fds

/-- `ClassDeserializer.parse`, deserializer.py:671-684. -/
def parseCls (env : Env) (c : Nat) (skip : Bool) (fields : Option (List FieldD)) : Kids → Res Val
  | .obj fs =>
    (match fields with
     | Option.none => .error .attribute
     | some fds =>
       match parseFields fs fds with
       | .error e => .error e
       | .ok vs =>
         if skip || fs.all (fun p => fds.any (fun fd => fd.prop = p.1)) then createObj env c vs
         else .error .jsonKey)
  | _ => .error .jsonType

/-- `parse` of a cached deserializer. -/
def parseRef (env : Env) (H : Heap) (raw : Json) (kids : Kids) (k : TKey) : Res Val :=
  match H k with
  | Option.none => .error .outOfModel
  | some (.enum e) => enumLookup env e raw
  | some (.custom c) =>
    (match env.classes[c]? with
     | Option.none => .error .outOfModel
     | some cd => match cd.fromJson with
       | Option.none => .error .outOfModel
       | some f => f raw)
  | some (.cls c skip fields) => parseCls env c skip fields kids

/-- `ListDeserializer.parse`, deserializer.py:281-286. -/
def parseListK (d : Deser) : Kids → Res Val
  | .arr fs => (match mapRes (fun f => f d) fs with | .ok vs => .ok (.list vs) | .error e => .error e)
  | _ => .error .jsonType

/-- `dict((key, value) for ...)`, deserializer.py:340-343. -/
def parsePairs (env : Env) (k : KeyTy) (d : Deser) :
    List (Key × Val) → List (Str × Json × (Deser → Res Val)) → Res (List (Key × Val))
  | acc, [] => .ok acc
  | acc, (s, _, f) :: r =>
    match parseKey env k s with
    | .error e => .error e
    | .ok key =>
      match f d with
      | .error e => .error e
      | .ok v => parsePairs env k d (upsert key v acc) r

/-- `DictDeserializer.parse`, deserializer.py:334-343. -/
def parseDictK (env : Env) (k : KeyTy) (d : Deser) : Kids → Res Val
  | .obj fs => (match parsePairs env k d [] fs with | .ok kvs => .ok (.dict kvs) | .error e => .error e)
  | _ => .error .jsonType

/-- `set(member_parser.parse(item) for item in data)`, deserializer.py:364. -/
def parseSetItems (env : Env) (d : Deser) : List Val → List (Deser → Res Val) → Res (List Val)
  | acc, [] => .ok acc
  | acc, f :: r =>
    match f d with
    | .error e => .error e
    | .ok v =>
      match setAdd env acc v with
      | .error e => .error e
      | .ok acc' => parseSetItems env d acc' r

/-- `SetDeserializer.parse`, deserializer.py:359-364. -/
def parseSetK (env : Env) (d : Deser) : Kids → Res Val
  | .arr fs => (match parseSetItems env d [] fs with | .ok vs => .ok (.set vs) | .error e => .error e)
  | _ => .error .jsonType

/-- `TupleDeserializer.parse`, deserializer.py:385-398. -/
def parseTupleK (ds : List Deser) : Kids → Res Val
  | .arr fs =>
    if fs.length ≠ ds.length then .error .jsonValue
    else (match mapRes (fun p => p.1 p.2) (fs.zip ds) with | .ok vs => .ok (.tuple vs) | .error e => .error e)
  | _ => .error .jsonType

/-- `self.member_parsers.get((property_name, value))`. -/
def tagLookup (p : Str) (j : Json) : List (Str × Lit × TKey) → Option TKey
  | [] => Option.none
  | (q, l, k) :: r => if q = p ∧ l.eqJson j then some k else tagLookup p j r

/-- Can a JSON value be hashed?  Lists and dictionaries cannot. -/
def Json.hashable : Json → Bool
  | .arr _ | .obj _ => false
  | _ => true

/-- The loop of `TaggedUnionDeserializer.parse`, deserializer.py:491-506. -/
def taggedLoop (run : TKey → Res Val) (kvs : List (Str × Json)) (table : List (Str × Lit × TKey)) : List Str → Res Val
  | [] => .error .jsonType
  | p :: ps =>
    match lookupKey p kvs with
    | Option.none => taggedLoop run kvs table ps
    | some j =>
      if j.isNull then taggedLoop run kvs table ps
      else if !j.hashable then .error .typeError
      else match tagLookup p j table with
        | Option.none => .error .jsonType
        | some k => run k

/-- `TaggedUnionDeserializer.parse`, deserializer.py:485-506. -/
def parseTaggedK (env : Env) (H : Heap) (kids : Kids) (props : List Str) (table : List (Str × Lit × TKey)) : Json → Res Val
  | .obj kvs => taggedLoop (parseRef env H (.obj kvs) kids) kvs table props
  | _ => .error .jsonType

/-- `value in self.values` for a value of the common type of the literals, deserializer.py:533. -/
def litMem (vals : List Lit) (v : Val) : Bool :=
  vals.any (fun l => match l, v with
    | .enum e m, .enum f n => e = f && m = n
    | l, v => match l.scalar, v.scalar with | some a, some b => a.pyEq b | _, _ => false)

mutual
/-- `parse` of a deserializer on a JSON value given with its children: the plain deserializers (98-140), `BytesDeserializer` (143-149),
`DateTimeDeserializer` (152-166), `DateDeserializer.parse` (deserializer.py:170-174), `TimeDeserializer.parse` (deserializer.py:180-184),
`TimeDeltaDeserializer` (187-240), `UUIDDeserializer.parse` (deserializer.py:244-247), `IPv4Deserializer.parse` (deserializer.py:253-256),
`IPv6Deserializer.parse` (deserializer.py:262-265), the containers (268-398), unions (401-506), literals (509-536), and what is in the
cache. -/
def parseD (env : Env) (H : Heap) (raw : Json) (kids : Kids) : Deser → Res Val
  | .none => parseNone raw
  | .bool => parseBool raw
  | .int => parseInt raw
  | .float => parseFloat raw
  | .str => parseStr raw
  | .bytes => strLeaf b64Decode .bytes raw
  | .datetime => strLeaf dtParse .datetime raw
  | .date => strLeaf dateFromIso .date raw
  | .time => strLeaf timeFromIso .time raw
  | .timedelta => strLeaf tdParse .timedelta raw
  | .uuid => strLeaf uuidParse .uuid raw
  | .ipv4 => strLeaf ipv4Parse .ipv4 raw
  | .ipv6 => strLeaf ipv6Parse (fun p => .ipv6 p.1 p.2) raw
  | .list d => parseListK d kids
  | .dict k d => parseDictK env k d kids
  | .set d => parseSetK env d kids
  | .tuple ds => parseTupleK ds kids
  | .union ds => parseU env H raw kids ds
  | .tagged props table => parseTaggedK env H kids props table raw
  | .literal vals d =>
    -- `LiteralDeserializer.parse`, deserializer.py:531-536
    (match parseD env H raw kids d with
     | .error e => .error e
     | .ok v => if litMem vals v then .ok v else .error .jsonType)
  | .ref k => parseRef env H raw kids k
/-- The loop of `UnionDeserializer.parse`, deserializer.py:414-426. -/
def parseU (env : Env) (H : Heap) (raw : Json) (kids : Kids) : List Deser → Res Val
  | [] => .error .jsonKey
  | d :: ds =>
    match parseD env H raw kids d with
    | .ok v => .ok v
    | .error e => if e = .jsonKey ∨ e = .jsonType then parseU env H raw kids ds else .error e
end

mutual
/-- `Deserializer.parse(data)`, deserializer.py:65-72. -/
def parse (env : Env) (H : Heap) : Json → Deser → Res Val
  | .arr xs => parseD env H (.arr xs) (.arr (parseArr env H xs))
  | .obj kvs => parseD env H (.obj kvs) (.obj (parseObj env H kvs))
  | .null => parseD env H .null .none
  | .bool b => parseD env H (.bool b) .none
  | .int i => parseD env H (.int i) .none
  | .float f => parseD env H (.float f) .none
  | .str s => parseD env H (.str s) .none
/-- The items of an array. -/
def parseArr (env : Env) (H : Heap) : List Json → List (Deser → Res Val)
  | [] => []
  | x :: xs => parse env H x :: parseArr env H xs
/-- The properties of an object. -/
def parseObj (env : Env) (H : Heap) : List (Str × Json) → List (Str × Json × (Deser → Res Val))
  | [] => []
  | (k, x) :: r => (k, x, parse env H x) :: parseObj env H r
end

/-! ### Creation of deserializers without cache

`compile` is what `_get_deserializer` returns if every class and enumeration already is in the cache. -/

/-- `get_literal_properties`, deserializer.py:429-434: data classes report the annotation as written
(`get_class_properties`, inspection.py:558-565), others the resolved one. -/
def literalProps (env : Env) : Ty → List Str
  | .cls c =>
    (match env.classes[c]? with
     | Option.none => []
     | some cd => (cd.hints.filter (fun f =>
         (match cd.kind with | .dataclass _ => !f.strAnn | _ => true) && f.ty.litArgs.isSome)).map (·.name))
  | _ => []

/-- `get_discriminating_properties`, deserializer.py:437-447, in some order. -/
def discProps (env : Env) (ts : List Ty) : List Str :=
  match ts with
  | [] => []
  | t :: r =>
    if (t :: r).all Ty.isType then (literalProps env t).filter (fun p => r.all (fun u => p ∈ literalProps env u)) else []

/-- `unwrap_literal_values(get_class_property(member_type, property_name))`, deserializer.py:466-470. -/
def memberLits (env : Env) (t : Ty) (p : Str) : List Lit :=
  match t with
  | .cls c =>
    (match env.classes[c]? with
     | Option.none => []
     | some cd => match cd.hints.find? (fun f => f.name = p) with
       | Option.none => []
       | some f => (f.ty.litArgs).getD [])
  | _ => []

/-- Cache key of a member type. -/
def tyKey (env : Env) : Ty → Option TKey
  | .cls c => (env.classes[c]?).map ClassDef.key
  | .enum e => (env.enums[e]?).map EnumDef.key
  | _ => Option.none

/-- One entry of `member_parsers`: refused if the key exists, deserializer.py:471-478. -/
def addTag (table : List (Str × Lit × TKey)) (p : Str) (l : Lit) (k : TKey) : Res (List (Str × Lit × TKey)) :=
  if table.any (fun e => e.1 = p && e.2.1.pyEq l) then .error .jsonType else .ok (table ++ [(p, l, k)])

/-- The pairs (property, literal, key) in the order of the loops of `TaggedUnionDeserializer.build`,
deserializer.py:464-470. -/
def tagItems (env : Env) (ts : List Ty) : List (Str × Lit × Option TKey) :=
  let props := env.setOrder (discProps env ts)
  ts.flatMap (fun t => props.flatMap (fun p => (memberLits env t p).map (fun l => (p, l, tyKey env t))))

/-- `TaggedUnionDeserializer.build`, deserializer.py:462-478. -/
def buildTags : List (Str × Lit × TKey) → List (Str × Lit × Option TKey) → Res (List (Str × Lit × TKey))
  | table, [] => .ok table
  | table, (p, l, k) :: r =>
    match k with
    | Option.none => .error .outOfModel
    | some k =>
      match addTag table p l k with
      | .error e => .error e
      | .ok table' => buildTags table' r

/-- `DictDeserializer._check_key_type`, deserializer.py:305-326. -/
def checkKeyTy (env : Env) : KeyTy → Res Unit
  | .str => .ok ()
  | .enum e =>
    (match env.enums[e]? with
     | Option.none => .error .outOfModel
     | some ed => if ed.strValued then .ok () else .error .jsonType)
  | .int | .other => .error .jsonType

/-- Deserializer of the common type of the literals, deserializer.py:519-529. -/
def litDeser (env : Env) : Lit → Res Deser
  | .none => .ok .none
  | .bool _ => .ok .bool
  | .int _ => .ok .int
  | .str _ => .ok .str
  | .enum e _ => (match tyKey env (.enum e) with | some k => .ok (.ref k) | Option.none => .error .outOfModel)

/-- `LiteralDeserializer`, deserializer.py:515-529. -/
def compileLit (env : Env) (ls : List Lit) : Res Deser :=
  match ls with
  | [] => .error .typeError
  | l :: r =>
    if r.all (fun m => l.sameTy m) then
      match litDeser env l with
      | .ok d => .ok (.literal (l :: r) d)
      | .error e => .error e
    else .error .typeError

mutual
/-- `_get_deserializer` and `_create_deserializer`, deserializer.py:835-974, with all classes in the cache. -/
def compile (env : Env) : Ty → Res Deser
  | .none => .ok .none
  | .bool => .ok .bool
  | .int => .ok .int
  | .float => .ok .float
  | .str => .ok .str
  | .bytes => .ok .bytes
  | .datetime => .ok .datetime
  | .date => .ok .date
  | .time => .ok .time
  | .timedelta => .ok .timedelta
  | .uuid => .ok .uuid
  | .ipv4 => .ok .ipv4
  | .ipv6 => .ok .ipv6
  | .bareList | .bareDict | .bareSet | .bareTuple => .error .typeError
  | .list t => (match compile env t with | .ok d => .ok (.list d) | .error e => .error e)
  | .dict k t =>
    (match checkKeyTy env k with
     | .error e => .error e
     | .ok _ => match compile env t with | .ok d => .ok (.dict k d) | .error e => .error e)
  | .set t => (match compile env t with | .ok d => .ok (.set d) | .error e => .error e)
  | .tuple ts => (match compileL env ts with | .ok ds => .ok (.tuple ds) | .error e => .error e)
  | .union ts =>
    if discProps env ts = [] then
      (match compileL env ts with | .ok ds => .ok (.union ds) | .error e => .error e)
    else
      (match buildTags [] (tagItems env ts) with
       | .ok table => .ok (.tagged (env.setOrder (discProps env ts)) table)
       | .error e => .error e)
  | .literal ls => compileLit env ls
  | .annotated t _ => compile env t
  | .enum e => (match tyKey env (.enum e) with | some k => .ok (.ref k) | Option.none => .error .outOfModel)
  | .cls c => (match tyKey env (.cls c) with | some k => .ok (.ref k) | Option.none => .error .outOfModel)
def compileL (env : Env) : List Ty → Res (List Deser)
  | [] => .ok []
  | t :: ts =>
    match compile env t with
    | .error e => .error e
    | .ok d => match compileL env ts with | .ok ds => .ok (d :: ds) | .error e => .error e
end

/-- Property name and mode of a field: `NamedTupleDeserializer.build` deserializer.py:700-709, `DataclassDeserializer.build`
deserializer.py:723-755, `TypedClassDeserializer.build` deserializer.py:775-796. -/
def fieldProp (kind : ClassKind) (f : FieldDef) : Str :=
  match kind with
  | .namedTuple _ => f.name
  | _ => fieldToProperty f.name f.ty.alias

/-- The type for which the field parser is created. -/
def fieldTy (kind : ClassKind) (f : FieldDef) : Ty :=
  match kind with
  | .namedTuple _ => f.ty
  | _ => f.ty.required

/-- The kind of the field parser. -/
def fieldMode (kind : ClassKind) (f : FieldDef) : Mode :=
  match kind with
  | .namedTuple _ => .required
  | .plain => if f.ty.isOptional then .optional else .required
  | .dataclass _ =>
    (match f.dflt with
     | .value v => .dflt v
     | .factory v => .factory v
     | .missing => if f.ty.isOptional then .optional else .required)

/-- One field deserializer. -/
def compileField (env : Env) (kind : ClassKind) (f : FieldDef) : Res FieldD :=
  match compile env (fieldTy kind f) with
  | .ok d => .ok ⟨fieldProp kind f, f.name, d, fieldMode kind f⟩
  | .error e => .error e

/-- `build` of a class deserializer when all classes are in the cache. -/
def compileFields (env : Env) (cd : ClassDef) : Res (List FieldD) := mapRes (compileField env cd.kind) cd.hints

/-- Is a `CustomDeserializer` created?  Named tuples are recognized before `from_json` is looked up,
deserializer.py:957-963. -/
def ClassDef.custom (cd : ClassDef) : Bool :=
  match cd.kind with
  | .namedTuple _ => false
  | _ => cd.fromJson.isSome

/-- The fully built deserializer of class number `c`. -/
def classEntry (env : Env) (skip : Bool) (c : Nat) (cd : ClassDef) : Entry :=
  if cd.custom then .custom c
  else .cls c skip (match compileFields env cd with | .ok fds => some fds | .error _ => Option.none)

/-- Position of the first element that satisfies a predicate, counted from `i`. -/
def firstIdx (p : α → Bool) : Nat → List α → Option (Nat × α)
  | _, [] => Option.none
  | i, x :: xs => if p x then some (i, x) else firstIdx p (i + 1) xs

/-- The cache in which every class and enumeration has its fully built deserializer. -/
def fullHeap (env : Env) (skip : Bool) : Heap := fun k =>
  match firstIdx (fun e => e.key = k) 0 env.enums with
  | some (e, _) => some (.enum e)
  | Option.none =>
    match firstIdx (fun c => c.key = k) 0 env.classes with
    | some (c, cd) => some (classEntry env skip c cd)
    | Option.none => Option.none

/-- `json_to_object(T, data, options=...)` once all deserializers exist. -/
def loads (env : Env) (skip : Bool) (t : Ty) (j : Json) : Res Val :=
  match compile env t with
  | .error e => .error e
  | .ok d => parse env (fullHeap env skip) j d

end Verif
