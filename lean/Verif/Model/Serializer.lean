import Verif.Model.PyEq
/-!
# Serializers: strong_typing/serializer.py

A serializer object is determined by the type it is created for, so the model has two functions: `serCreate` is the
creation of the serializer (which may raise), `gen` is its `generate` method.
-/
namespace Verif

/-! ### Creation -/

/-- `for x in xs: f(x)` where `f` may raise. -/
def forRes (f : α → Res Unit) : List α → Res Unit
  | [] => .ok ()
  | x :: xs => match f x with | .error e => .error e | .ok _ => forRes f xs

/-- All literals have the same type (`LiteralSerializer.__init__`, serializer.py:328-335). -/
def litsUniform : List Lit → Bool
  | [] => false
  | l :: r => r.all (fun m => l.sameTy m)

mutual
/-- `_create_serializer`, serializer.py:429-517, for given creation of serializers of classes. -/
def createWith (env : Env) (cls : Nat → Res Unit) : Ty → Res Unit
  | .list t => createWith env cls t
  | .dict k t =>
    (match k with
     | .str => createWith env cls t
     | .enum e =>
       -- `TypedEnumDictSerializer.__init__`, serializer.py:217-234
       (match createWith env cls t with
        | .error err => .error err
        | .ok _ => match env.enums[e]? with
          | Option.none => .error .outOfModel
          | some ed => if ed.strValued then .ok () else .error .jsonType)
     | .int | .other => .error .typeError)
  | .set t => createWith env cls t
  | .tuple ts => createWithL env cls ts
  | .literal ls => if litsUniform ls then .ok () else .error .typeError
  | .annotated t _ => createWith env cls t
  | .enum e => (match env.enums[e]? with | Option.none => .error .outOfModel | some _ => .ok ())
  | .cls c => cls c
  | _ => .ok ()
def createWithL (env : Env) (cls : Nat → Res Unit) : List Ty → Res Unit
  | [] => .ok ()
  | t :: ts => match createWith env cls t with | .error e => .error e | .ok _ => createWithL env cls ts
end

/-- The fields for which `TypedClassSerializer.__init__` (serializer.py:292-300) creates serializers; none for classes
with `to_json`, untyped named tuples and classes without annotations (serializer.py:496-517). -/
def ClassDef.serFields (cd : ClassDef) : List FieldDef :=
  match cd.toJson with
  | some _ => []
  | Option.none => cd.hints

mutual
/-- The annotation of a data class field, for serializers, if classes and enumerations in it are named by strings, as in
`list["Node"]`.  Names are looked up in the module of the class (`_get_serializer`, serializer.py:409-420), but not within
`Annotated`, where the module is not passed on (serializer.py:492-493), and not for the key type of a dictionary
(serializer.py:475-480): there they raise `TypeError`.  This is expressed by types for which creation raises `TypeError`. -/
def Ty.seenFwd (context : Bool) : Ty → Ty
  | .list t => .list (t.seenFwd context)
  | .dict k t =>
    (match k with
     | .enum _ => .dict .other t
     | k => .dict k (t.seenFwd context))
  | .set t => .set (t.seenFwd context)
  | .tuple ts => .tuple (Ty.seenFwdL context ts)
  | .annotated t ms => .annotated (t.seenFwd false) ms
  | .enum e => if context then .enum e else .literal []
  | .cls c => if context then .cls c else .literal []
  | t => t
def Ty.seenFwdL (context : Bool) : List Ty → List Ty
  | [] => []
  | t :: ts => t.seenFwd context :: Ty.seenFwdL context ts
end

/-- The type of a field for which a serializer is created: as written for data classes, resolved for other classes
(`get_class_properties`, inspection.py:558-565). -/
def FieldDef.seen (kind : ClassKind) (f : FieldDef) : Ty :=
  match kind with
  | .dataclass _ => if f.fwd then f.ty.seenFwd true else f.ty
  | _ => f.ty

/-- Creation of the serializer of a class, nested to a depth of at most `fuel` classes; `RecursionError` beyond. -/
def createCls (env : Env) : Nat → Nat → Res Unit
  | 0, _ => .error .recursion
  | f + 1, c =>
    match env.classes[c]? with
    | Option.none => .error .outOfModel
    | some cd => forRes (fun fd => createWith env (createCls env f) (fd.seen cd.kind)) cd.serFields

/-- `create_serializer(T)`, serializer.py:384-426.  A nesting of more classes than there are in the program repeats a
class and hence never ends. -/
def serCreate (env : Env) (t : Ty) : Res Unit := createWith env (createCls env env.classes.length) t

/-! ### Generation -/

/-- `type(obj)`. -/
def typeOf : Val → Ty
  | .none => .none
  | .bool _ => .bool
  | .int _ => .int
  | .float _ => .float
  | .str _ => .str
  | .bytes _ => .bytes
  | .datetime _ => .datetime
  | .date _ => .date
  | .time _ => .time
  | .timedelta _ => .timedelta
  | .uuid _ => .uuid
  | .ipv4 _ => .ipv4
  | .ipv6 _ _ => .ipv6
  | .enum e _ => .enum e
  | .list _ => .bareList
  | .dict _ => .bareDict
  | .set _ => .bareSet
  | .tuple _ => .bareTuple
  | .obj c _ => .cls c

/-- The type that stands for dynamic serialization: `UnionSerializer` ignores the member types, serializer.py:320-322. -/
abbrev dynTy : Ty := .union []

/-- Children of a Python value, each with the function that serializes it for a given type. -/
inductive VKids where
  | none
  | seq (fs : List (Ty → Res Json))
  | dict (fs : List (Key × (Ty → Res Json)))
  | obj (fs : List (Str × Val × (Ty → Res Json)))

/-- Python `v is None`. -/
def Val.isNone : Val → Bool
  | .none => true
  | _ => false

/-- `obj.value` of an enumeration member. -/
def enumValue (env : Env) (e m : Nat) : Res Scalar :=
  match env.enums[e]? with
  | Option.none => .error .outOfModel
  | some ed => match ed.members[m]? with
    | Option.none => .error .outOfModel
    | some p => .ok p.2

/-- A scalar as a key of a JSON object; other keys than strings are outside the model. -/
def Scalar.jsonKey : Scalar → Res Str
  | .str s => .ok s
  | _ => .error .outOfModel

/-- `key.value`, serializer.py:180, 237. -/
def keyValue (env : Env) : Key → Res Str
  | .enum e m => (match enumValue env e m with | .error e => .error e | .ok s => s.jsonKey)
  | _ => .error .attribute

/-- `str(key)`, serializer.py:182. -/
def keyStr (env : Env) : Key → Res Str
  | .str s => .ok s
  | .int i => .ok (intStr i)
  | .enum e m =>
    match env.enums[e]? with
    | Option.none => .error .outOfModel
    | some ed => match ed.members[m]? with
      | Option.none => .error .outOfModel
      | some p => .ok (ed.name ++ '.' :: p.1)

/-- `key` itself as a key of a JSON object, serializer.py:213. -/
def keySelf : Key → Res Str
  | .str s => .ok s
  | _ => .error .outOfModel

/-- Key conversion of `UntypedDictSerializer`, chosen by the first key, serializer.py:177-183. -/
def untypedKey (env : Env) : List (Key × (Ty → Res Json)) → Key → Res Str
  | (.enum _ _, _) :: _ => keyValue env
  | _ => keyStr env

/-- `{key(k): generate(v) for k, v in obj.items()}`. -/
def genPairs (key : Key → Res Str) (t : Ty) : List (Str × Json) → List (Key × (Ty → Res Json)) → Res Json
  | acc, [] => .ok (.obj acc)
  | acc, (k, f) :: r =>
    match key k with
    | .error e => .error e
    | .ok s => match f t with
      | .error e => .error e
      | .ok j => genPairs key t (upsert s j acc) r

/-- Name under which the serializer writes a field (`python_field_to_json_property(field_name, field_type)`,
serializer.py:292-300): `field_type` is the annotation as written for data classes, the resolved one for others. -/
def writeProp (kind : ClassKind) (f : FieldDef) : Str :=
  match kind with
  | .dataclass _ => fieldToProperty f.name (if f.strAnn then Option.none else f.ty.alias)
  | _ => fieldToProperty f.name f.ty.alias

/-- `TypedClassSerializer.generate` with `FieldSerializer` (serializer.py:265-286) and its `generate_field`, serializer.py:283-307. -/
def genProps (kind : ClassKind) (fs : List (Str × Val × (Ty → Res Json))) :
    List (Str × Json) → List FieldDef → Res Json
  | acc, [] => .ok (.obj acc)
  | acc, fd :: r =>
    match lookupKey fd.name fs with
    | Option.none => .error .attribute
    | some (v, f) =>
      if v.isNone then genProps kind fs acc r
      else match f fd.ty with
        | .error e => .error e
        | .ok j => genProps kind fs (upsert (writeProp kind fd) j acc) r

/-- `UntypedNamedTupleSerializer.generate`, serializer.py:344-360. -/
def genUntypedTuple (fs : List (Str × Val × (Ty → Res Json))) : List (Str × Json) → List FieldDef → Res Json
  | acc, [] => .ok (.obj acc)
  | acc, fd :: r =>
    match lookupKey fd.name fs with
    | Option.none => .error .attribute
    | some (_, f) => match f dynTy with
      | .error e => .error e
      | .ok j => genUntypedTuple fs (upsert (fieldToProperty fd.name Option.none) j acc) r

/-- Order of strings by code points. -/
def strLe : Str → Str → Bool
  | [], _ => true
  | _ :: _, [] => false
  | a :: s, b :: t => a.toNat < b.toNat || (a.toNat = b.toNat && strLe s t)

/-- Insertion into a list sorted by name. -/
def insertByName (x : Str × α) : List (Str × α) → List (Str × α)
  | [] => [x]
  | y :: r => if strLe x.1 y.1 then x :: y :: r else y :: insertByName x r

/-- The attributes in the order of `dir(obj)`. -/
def sortByName (fs : List (Str × α)) : List (Str × α) := fs.foldr insertByName []

/-- `is_reserved_property`, inspection.py:725-736, for identifiers. -/
def isReserved (s : Str) : Bool :=
  (5 ≤ s.length && s.take 2 = c!"__" && endsWith c!"__" s) || s = c!"_abc_impl"

/-- `UntypedClassSerializer.generate`, serializer.py:363-381, for an object whose class has no attributes other than
special ones and methods. -/
def genUntyped : List (Str × Json) → List (Str × Val × (Ty → Res Json)) → Res Json
  | acc, [] => .ok (.obj acc)
  | acc, (name, v, f) :: r =>
    if isReserved name || v.isNone then genUntyped acc r
    else match f dynTy with
      | .error e => .error e
      | .ok j => genUntyped (upsert (fieldToProperty name Option.none) j acc) r

/-- `generate` of the serializer of class `c`, serializer.py:496-517: `CustomSerializer` (serializer.py:255-262),
`TypedNamedTupleSerializer` (serializer.py:310-312), `DataclassSerializer` (serializer.py:315-317), the untyped ones (344-381). -/
def genCls (env : Env) (raw : Val) (kids : VKids) (c : Nat) : Res Json :=
  match env.classes[c]? with
  | Option.none => .error .outOfModel
  | some cd =>
    match cd.toJson with
    | some f => f raw
    | Option.none =>
      match kids with
      | .obj fs =>
        (match cd.kind with
         | .namedTuple false => genUntypedTuple fs [] cd.fields
         | .plain => if cd.fields.isEmpty then genUntyped [] (sortByName fs) else genProps cd.kind fs [] cd.fields
         | _ => genProps cd.kind fs [] cd.fields)
      | _ => .error .outOfModel

/-- `generate` of the serializer of enumeration `e`, serializer.py:167-169, 496-502. -/
def genEnum (env : Env) (raw : Val) (e : Nat) : Res Json :=
  match env.enums[e]?, raw with
  | some ed, .enum e' m =>
    (match ed.toJson with
     | some f => if e' = e then f m else .error .outOfModel
     | Option.none => match enumValue env e' m with | .ok s => .ok s.toJson | .error err => .error err)
  | _, _ => .error .outOfModel

/-- Serializers that return their argument unchanged, serializer.py:48-75. -/
def genSame (v : Val) : Res Json :=
  match v.scalar with
  | some s => .ok s.toJson
  | Option.none => .error .outOfModel

/-- A list of results as JSON array. -/
def arrOf (r : Res (List Json)) : Res Json :=
  match r with
  | .ok js => .ok (.arr js)
  | .error e => .error e

/-- `generate` for all types but unions and annotated types: the plain serializers (serializer.py:48-75), `BytesSerializer` (78-80),
`DateTimeSerializer` (83-90), `DateSerializer.generate` (serializer.py:94-95), `TimeSerializer.generate` (serializer.py:99-100),
`TimeDeltaSerializer` (103-149), `UUIDSerializer.generate` (serializer.py:153-154), `IPv4Serializer.generate` (serializer.py:158-159),
`IPv6Serializer.generate` (serializer.py:163-164), the containers without type arguments (`UntypedListSerializer` serializer.py:172-174,
`UntypedDictSerializer` serializer.py:177-183, `UntypedSetSerializer` serializer.py:186-188, `UntypedTupleSerializer`
serializer.py:191-193) and with them (`TypedCollectionSerializer` and `TypedListSerializer` serializer.py:196-205,
`TypedStringDictSerializer` serializer.py:208-213, `TypedEnumDictSerializer` serializer.py:216-237, `TypedSetSerializer`
serializer.py:240-242, `TypedTupleSerializer` serializer.py:245-252), `LiteralSerializer` (serializer.py:325-341), and the serializers
of enumerations and classes.  Values that the type does not allow are outside the model. -/
def genShape (env : Env) (raw : Val) (kids : VKids) : Ty → Res Json
  | .none => .ok .null
  | .bool | .int | .float | .str => genSame raw
  | .bytes => (match raw with | .bytes b => .ok (.str (b64Encode b)) | _ => .error .outOfModel)
  | .datetime =>
    (match raw with
     | .datetime d => (match dtSerialize d with | .ok s => .ok (.str s) | .error e => .error e)
     | _ => .error .outOfModel)
  | .date => (match raw with | .date d => .ok (.str (dateIso d)) | _ => .error .outOfModel)
  | .time => (match raw with | .time t => .ok (.str (timeIso t)) | _ => .error .outOfModel)
  | .timedelta => (match raw with | .timedelta d => .ok (.str (tdSerialize d)) | _ => .error .outOfModel)
  | .uuid => (match raw with | .uuid n => .ok (.str (uuidStr n)) | _ => .error .outOfModel)
  | .ipv4 => (match raw with | .ipv4 n => .ok (.str (ipv4Str n)) | _ => .error .outOfModel)
  | .ipv6 => (match raw with | .ipv6 n s => .ok (.str (ipv6StrScope n s)) | _ => .error .outOfModel)
  | .bareList | .bareSet | .bareTuple =>
    (match kids with | .seq fs => arrOf (mapRes (fun f => f dynTy) fs) | _ => .error .outOfModel)
  | .bareDict => (match kids with | .dict fs => genPairs (untypedKey env fs) dynTy [] fs | _ => .error .outOfModel)
  | .list t | .set t => (match kids with | .seq fs => arrOf (mapRes (fun f => f t) fs) | _ => .error .outOfModel)
  | .tuple ts =>
    (match kids with | .seq fs => arrOf (mapRes (fun p => p.2 p.1) (ts.zip fs)) | _ => .error .outOfModel)
  | .dict k t =>
    (match kids with
     | .dict fs =>
       (match k with
        | .str => genPairs keySelf t [] fs
        | .enum _ => genPairs (keyValue env) t [] fs
        | .int | .other => .error .outOfModel)
     | _ => .error .outOfModel)
  | .literal ls =>
    -- `LiteralSerializer`, serializer.py:325-341
    (match ls with
     | .enum e _ :: _ => genEnum env raw e
     | .none :: _ => .ok .null
     | _ => genSame raw)
  | .enum e => genEnum env raw e
  | .cls c => genCls env raw kids c
  | .union _ | .annotated _ _ => .error .outOfModel

/-- `generate` of the serializer created for a type.  For unions this is `object_to_json` (serializer.py:320-322,
520-535), for annotated types the serializer of the wrapped type (serializer.py:492-493). -/
def genD (env : Env) (raw : Val) (kids : VKids) : Ty → Res Json
  | .union _ =>
    (match serCreate env (typeOf raw) with
     | .error e => .error e
     | .ok _ => genShape env raw kids (typeOf raw))
  | .annotated t _ => genD env raw kids t
  | t => genShape env raw kids t

mutual
/-- `Serializer.generate(obj)` (serializer.py:43-45) of the serializer created for a type. -/
def gen (env : Env) : Val → Ty → Res Json
  | .list vs => genD env (.list vs) (.seq (genSeq env vs))
  | .set vs => genD env (.set vs) (.seq (genSeq env vs))
  | .tuple vs => genD env (.tuple vs) (.seq (genSeq env vs))
  | .dict kvs => genD env (.dict kvs) (.dict (genDict env kvs))
  | .obj c fs => genD env (.obj c fs) (.obj (genObj env fs))
  | .none => genD env .none .none
  | .bool b => genD env (.bool b) .none
  | .int i => genD env (.int i) .none
  | .float f => genD env (.float f) .none
  | .str s => genD env (.str s) .none
  | .bytes b => genD env (.bytes b) .none
  | .datetime d => genD env (.datetime d) .none
  | .date d => genD env (.date d) .none
  | .time t => genD env (.time t) .none
  | .timedelta d => genD env (.timedelta d) .none
  | .uuid n => genD env (.uuid n) .none
  | .ipv4 n => genD env (.ipv4 n) .none
  | .ipv6 n s => genD env (.ipv6 n s) .none
  | .enum e m => genD env (.enum e m) .none
/-- Items of a list, set or tuple. -/
def genSeq (env : Env) : List Val → List (Ty → Res Json)
  | [] => []
  | v :: vs => gen env v :: genSeq env vs
/-- Items of a dictionary. -/
def genDict (env : Env) : List (Key × Val) → List (Key × (Ty → Res Json))
  | [] => []
  | (k, v) :: r => (k, gen env v) :: genDict env r
/-- Attributes of an object. -/
def genObj (env : Env) : List (Str × Val) → List (Str × Val × (Ty → Res Json))
  | [] => []
  | (k, v) :: r => (k, v, gen env v) :: genObj env r
end

/-- `create_serializer(T).generate(obj)`. -/
def dumps (env : Env) (t : Ty) (v : Val) : Res Json :=
  match serCreate env t with
  | .error e => .error e
  | .ok _ => gen env v t

/-- `object_to_json(obj)`, serializer.py:520-535, serialization.py:23-38. -/
def objectToJson (env : Env) (v : Val) : Res Json := dumps env (typeOf v) v

end Verif
