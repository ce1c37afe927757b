import Verif.Model.Serializer
import Verif.Spec.JsonTypes
/-!
# Objects that do not have the declared type: strong_typing/serializer.py

Serializers do not test the types of objects: they use whatever operations an object has.  In Serializer such objects are outside the
model; here they are in it.  Since objects may be passed on unchanged, the result is a Python object, not a JSON value.

Simplifications: objects of classes can be iterated only if they are named tuples; what `str` returns, and which attributes built-in
objects have, are parameters.  What is still outside the model (`outOfModel`): attributes of built-in objects as members of a class,
objects of classes that have members named like the methods and attributes that serializers use (`isoformat`, `tzinfo`, `days`,
`items`, `keys`), and keys of enumerations with values other than `str` and `int`.
-/
namespace Verif

/-- `str(obj)`, and which attributes the objects of built-in types have. -/
structure Builtins where
  str : Val → Str
  has : Ty → Str → Bool

/-- A key as an object. -/
def Key.toVal : Key → Val
  | .str s => .str s
  | .int i => .int i
  | .enum e m => .enum e m

/-- The value of an enumeration member as an object. -/
def Scalar.toVal : Scalar → Val
  | .none => .none
  | .bool b => .bool b
  | .int i => .int i
  | .float f => .float f
  | .str s => .str s

/-- `iter(obj)`, in the loops of serializer.py:174, 188, 193, 205, 242, 252; `TypeError` if there is none. -/
def pyIter (env : Env) : Val → Option (List Val)
  | .list vs | .set vs | .tuple vs => some vs
  | .str s => some (s.map fun c => .str [c])
  | .bytes b => some (b.map fun x => .int x.val)
  | .dict kvs => some (kvs.map fun kv => kv.1.toVal)
  | .obj c fs => (match env.classes[c]? with
    | some cd => (match cd.kind with | .namedTuple _ => some (fs.map Prod.snd) | _ => Option.none)
    | Option.none => Option.none)
  | _ => Option.none

/-- An attribute that objects of the type at hand would have: `AttributeError`. -/
def noAttr (names : List Str) : Val → Res α
  | .obj _ fs => if fs.any (fun f => names.contains f.1) then .error .outOfModel else .error .attribute
  | _ => .error .attribute

/-- `[generate(item) for item in obj]`. -/
def wItems (f : Val → Res Val) (vs : List Val) : Res Val :=
  match mapRes f vs with | .error e => .error e | .ok rs => .ok (.list rs)

/-- `DateTimeSerializer.generate`, serializer.py:83-90: times of day have `tzinfo` and `isoformat`, too. -/
def wDateTime : Val → Res Val
  | .datetime d => (match dtSerialize d with | .error e => .error e | .ok s => .ok (.str s))
  | .time t =>
    (match t.off with
     | Option.none => .error .jsonValue
     | some _ => .ok (.str (if endsWith c!"+00:00" (timeIso t) then dropEnd 6 (timeIso t) ++ ['Z'] else timeIso t)))
  | v => noAttr [c!"tzinfo", c!"isoformat"] v

/-- `obj.isoformat()`, serializer.py:93-100. -/
def wIso : Val → Res Val
  | .datetime d => .ok (.str (dateTimeIso d))
  | .date d => .ok (.str (dateIso d))
  | .time t => .ok (.str (timeIso t))
  | v => noAttr [c!"isoformat"] v

/-- `EnumSerializer.generate`, serializer.py:167-169, or the method `to_json` of the enumeration (serializer.py:496-499); a member of
another enumeration has a `value`, too, as have objects with an attribute of this name. -/
def wEnum (env : Env) (e : Nat) (v : Val) : Res Val :=
  match env.enums[e]? with
  | Option.none => .error .outOfModel
  | some ed =>
    match ed.toJson with
    | some f =>
      (match v with
       | .enum e' m => if e' = e then (match f m with | .error e => .error e | .ok j => .ok j.asVal) else .error .outOfModel
       | _ => .error .outOfModel)
    | Option.none =>
      match v with
      | .enum e' m => (match enumValue env e' m with | .error e => .error e | .ok s => .ok s.toVal)
      | .obj _ fs => (match lookupKey c!"value" fs with | some x => .ok x | Option.none => .error .attribute)
      | _ => .error .attribute

/-- `key.value`, serializer.py:180, 237. -/
def wKeyValue (env : Env) : Key → Res Key
  | .enum e m => (match enumValue env e m with
    | .error e => .error e
    | .ok (.str s) => .ok (.str s)
    | .ok (.int i) => .ok (.int i)
    | .ok _ => .error .outOfModel)
  | _ => .error .attribute

/-- Keys of `UntypedDictSerializer`, serializer.py:177-183. -/
def wUntypedKey (env : Env) : List (Key × Val) → Key → Res Key
  | (.enum _ _, _) :: _ => wKeyValue env
  | _ => fun k => match keyStr env k with | .error e => .error e | .ok s => .ok (.str s)

/-- A loop that sets entries of a dictionary: for each item the key and the object, unless there is no entry for the item. -/
def wLoop (f : α → Res (Option (Key × Val))) : List (Key × Val) → List α → Res Val
  | acc, [] => .ok (.dict acc)
  | acc, x :: r =>
    match f x with
    | .error e => .error e
    | .ok Option.none => wLoop f acc r
    | .ok (some p) => wLoop f (upsert p.1 p.2 acc) r

/-- `key(k): generate(v)` for an item of a dictionary, serializer.py:180, 182, 213, 237. -/
def wPair (key : Key → Res Key) (gen : Val → Res Val) (kv : Key × Val) : Res (Option (Key × Val)) :=
  match key kv.1 with
  | .error e => .error e
  | .ok k => match gen kv.2 with
    | .error e => .error e
    | .ok x => .ok (some (k, x))

/-- `FieldSerializer.generate_field`, serializer.py:283-286, for an object with attributes `fs`. -/
def wField (kind : ClassKind) (gen : Val → Ty → Res Val) (fs : List (Str × Val)) (fd : FieldDef) : Res (Option (Key × Val)) :=
  match lookupKey fd.name fs with
  | Option.none => .error .attribute
  | some v =>
    if v.isNone then .ok Option.none
    else match gen v fd.ty with
      | .error e => .error e
      | .ok x => .ok (some (.str (writeProp kind fd), x))

/-- A member in `UntypedNamedTupleSerializer.generate`, serializer.py:344-360. -/
def wMember (gen : Val → Res Val) (fs : List (Str × Val)) (fd : FieldDef) : Res (Option (Key × Val)) :=
  match lookupKey fd.name fs with
  | Option.none => .error .attribute
  | some v => match gen v with
    | .error e => .error e
    | .ok x => .ok (some (.str (fieldToProperty fd.name Option.none), x))

/-- An attribute in `UntypedClassSerializer.generate`, serializer.py:363-381, as in Serializer. -/
def wAttr (gen : Val → Res Val) (f : Str × Val) : Res (Option (Key × Val)) :=
  if isReserved f.1 || f.2.isNone then .ok Option.none
  else match gen f.2 with
    | .error e => .error e
    | .ok x => .ok (some (.str (fieldToProperty f.1 Option.none), x))

/-- `generate` of the serializer of a class, serializer.py:496-517, for any object. -/
def wCls (py : Builtins) (env : Env) (gen : Val → Ty → Res Val) (c : Nat) (v : Val) : Res Val :=
  match env.classes[c]? with
  | Option.none => .error .outOfModel
  | some cd =>
    match cd.toJson with
    | some f => (match f v with | .error e => .error e | .ok j => .ok j.asVal)
    | Option.none =>
      match v with
      | .obj _ fs =>
        (match cd.kind with
         | .namedTuple false => wLoop (wMember (fun x => gen x dynTy) fs) [] cd.fields
         | .plain => if cd.fields.isEmpty then wLoop (wAttr (fun x => gen x dynTy)) [] (sortByName fs) else wLoop (wField cd.kind gen fs) [] cd.fields
         | _ => wLoop (wField cd.kind gen fs) [] cd.fields)
      | v =>
        if cd.kind = .plain && cd.fields.isEmpty then .error .outOfModel
        else match cd.fields with
          | [] => .ok (.dict [])
          | fd :: _ => if py.has (typeOf v) fd.name then .error .outOfModel else .error .attribute

/-- `generate` of the serializer for a type (serializer.py:43-381, 429-517), for any object, as far as calls are nested to a depth of
at most `n`.  Unions and elements without declared type are written by `object_to_json` (serializer.py:520-535). -/
def wgen (py : Builtins) (env : Env) : Nat → Val → Ty → Res Val
  | 0, _, _ => .error .outOfModel
  | n + 1, v, t =>
    match t with
    | .none => .ok .none
    | .bool | .int | .float | .str => .ok v
    | .bytes => (match v with | .bytes b => .ok (.str (b64Encode b)) | _ => .error .typeError)
    | .datetime => wDateTime v
    | .date | .time => wIso v
    | .timedelta => (match v with | .timedelta d => .ok (.str (tdSerialize d)) | v => noAttr [c!"days"] v)
    | .uuid | .ipv4 | .ipv6 => .ok (.str (py.str v))
    | .bareList | .bareSet | .bareTuple =>
      (match pyIter env v with | some vs => wItems (fun x => wgen py env n x dynTy) vs | Option.none => .error .typeError)
    | .list t | .set t =>
      (match pyIter env v with | some vs => wItems (fun x => wgen py env n x t) vs | Option.none => .error .typeError)
    | .tuple ts =>
      (match pyIter env v with
       | some vs => (match mapRes (fun p => wgen py env n p.2 p.1) (ts.zip vs) with | .error e => .error e | .ok rs => .ok (.list rs))
       | Option.none => .error .typeError)
    | .bareDict =>
      (match v with
       | .dict kvs => wLoop (wPair (wUntypedKey env kvs) (fun x => wgen py env n x dynTy)) [] kvs
       | v => noAttr [c!"items", c!"keys"] v)
    | .dict k t =>
      (match v with
       | .dict kvs =>
         (match k with
          | .str => wLoop (wPair .ok (fun x => wgen py env n x t)) [] kvs
          | .enum _ => wLoop (wPair (wKeyValue env) (fun x => wgen py env n x t)) [] kvs
          | .int | .other => .error .outOfModel)
       | v => noAttr [c!"items"] v)
    | .literal ls => (match ls with | .enum e _ :: _ => wEnum env e v | .none :: _ => .ok .none | _ => .ok v)
    | .enum e => wEnum env e v
    | .cls c => wCls py env (wgen py env n) c v
    | .annotated t _ => wgen py env n v t
    | .union _ =>
      (match serCreate env (typeOf v) with
       | .error e => .error e
       | .ok _ => wgen py env n v (typeOf v))

/-- `create_serializer(T).generate(obj)`, serializer.py:384-426. -/
def wdumps (py : Builtins) (env : Env) (n : Nat) (t : Ty) (v : Val) : Res Val :=
  match serCreate env t with
  | .error e => .error e
  | .ok _ => wgen py env n v t

end Verif
