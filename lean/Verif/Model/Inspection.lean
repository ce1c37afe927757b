import Verif.Model.Core
/-!
# Helpers for types and values: strong_typing/inspection.py

Types are as Python represents them: a union has at least two different members, none of which is a union, and an annotated
type is not directly wrapped in another one (`Ty.Norm`, Verif/Spec/Inspection.lean).  `Ty.union` stands for `Union[...]`;
the type `X | Y` is the same except in `is_generic_instance` and `RecursiveChecker.check`, where it raises `TypeError`.
-/
namespace Verif

/-! ### Unwrapping -/

/-- `get_annotation`, inspection.py:483-498, with `is_type_annotated`, inspection.py:477-480, for the annotations that satisfy `p`. -/
def getAnnotation (p : Meta → Bool) : Ty → Option Meta
  | .annotated _ ms => ms.find? p
  | _ => Option.none

/-- `Annotated[(T, *metadata)]`: annotations of `T` come first. -/
def mkAnnotated (t : Ty) (ms : List Meta) : Ty :=
  match t with
  | .annotated u ns => .annotated u (ns ++ ms)
  | t => .annotated t ms

/-- `rewrap_annotated_type`, inspection.py:512-533. -/
def rewrapAnnotated (f : Ty → Res Ty) : Ty → Res Ty
  | .annotated t ms =>
    (match f t with
     | .error e => .error e
     | .ok u => .ok (mkAnnotated u ms))
  | t => f t

/-- `Union[args]` for members that are different and not unions themselves: `Union[T]` is `T`. -/
def mkUnion : List Ty → Res Ty
  | [] => .error .typeError
  | [t] => .ok t
  | ts => .ok (.union ts)

/-- `_unwrap_optional_type`, inspection.py:312-322. -/
def unwrapOptionalInner : Ty → Res Ty
  | .union ts => mkUnion (ts.filter (fun t => !t.isNone))
  | _ => .error .typeError

/-- `unwrap_optional_type`, inspection.py:301-309. -/
def unwrapOptionalType (t : Ty) : Res Ty := rewrapAnnotated unwrapOptionalInner t

/-- `is_type_optional`, inspection.py:280-298. -/
def isTypeOptional (strict : Bool) (t : Ty) : Bool :=
  match t.unwrapAnn.unionArgs with
  | some ts => if strict && ts.length ≠ 2 then false else ts.any Ty.isNone
  | Option.none => false

/-- `is_type_union`, inspection.py:325-334. -/
def isTypeUnion (t : Ty) : Bool :=
  match t.unwrapAnn.unionArgs with
  | some ts => 2 < ts.length || !ts.any Ty.isNone
  | Option.none => false

/-- `unwrap_union_types`, inspection.py:337-354.  Unlike the other helpers it does not look inside an annotated type. -/
def unwrapUnionTypes : Ty → Res (List Ty)
  | .union ts => .ok ts
  | _ => .error .typeError

/-! ### is_generic_instance -/

/-- `all(f(x) for x in xs)`: ends at the first false value or exception. -/
def allRes (f : α → Res Bool) : List α → Res Bool
  | [] => .ok true
  | x :: xs =>
    match f x with
    | .error e => .error e
    | .ok false => .ok false
    | .ok true => allRes f xs

/-- The items of a tuple or named tuple. -/
def tupleItems (env : Env) : Val → Option (List Val)
  | .tuple vs => some vs
  | .obj c fs =>
    (match env.classes[c]? with
     | some cd => (match cd.kind with | .namedTuple _ => some (fs.map (·.2)) | _ => Option.none)
     | Option.none => Option.none)
  | _ => Option.none

/-- `isinstance(obj, typ)` for a class `typ`: `bool` is a subclass of `int`, `datetime` of `date`, and named tuples of
`tuple`. -/
def isInstance (env : Env) : Ty → Val → Bool
  | .none, .none => true
  | .bool, .bool _ => true
  | .int, .int _ => true
  | .int, .bool _ => true
  | .float, .float _ => true
  | .str, .str _ => true
  | .bytes, .bytes _ => true
  | .datetime, .datetime _ => true
  | .date, .date _ => true
  | .date, .datetime _ => true
  | .time, .time _ => true
  | .timedelta, .timedelta _ => true
  | .uuid, .uuid _ => true
  | .ipv4, .ipv4 _ => true
  | .ipv6, .ipv6 _ _ => true
  | .bareList, .list _ => true
  | .bareDict, .dict _ => true
  | .bareSet, .set _ => true
  | .bareTuple, v => (tupleItems env v).isSome
  | .enum e, .enum e' _ => e = e'
  | .cls c, .obj c' _ => c = c'
  | _, _ => false

/-- `isinstance(key, key_type)`; key types other than `str`, `int` and enumerations are not modelled. -/
def keyInstance : KeyTy → Key → Res Bool
  | .str, .str _ => .ok true
  | .str, _ => .ok false
  | .enum e, .enum e' _ => .ok (e = e')
  | .enum _, _ => .ok false
  | .int, .int _ => .ok true
  | .int, _ => .ok false
  | .other, _ => .error .outOfModel

/-- `f(key) and g(value)`. -/
def andRes (a : Res Bool) (b : Unit → Res Bool) : Res Bool :=
  match a with
  | .error e => .error e
  | .ok false => .ok false
  | .ok true => b ()

mutual
/-- `is_generic_instance`, inspection.py:815-877. -/
def isGeneric (env : Env) : Ty → Val → Res Bool
  | .list t, v => (match v with | .list vs => allRes (isGeneric env t) vs | _ => .ok false)
  | .dict k t, v =>
    (match v with
     | .dict kvs => allRes (fun kv => andRes (keyInstance k kv.1) (fun _ => isGeneric env t kv.2)) kvs
     | _ => .ok false)
  | .set t, v => (match v with | .set vs => allRes (isGeneric env t) vs | _ => .ok false)
  | .tuple ts, v => (match tupleItems env v with | some vs => isGenericZip env ts vs | Option.none => .ok false)
  | .union ts, v => isGenericAny env ts v
  | .literal _, _ => .error .typeError
  | .annotated _ _, _ => .error .typeError
  | t, v => .ok (isInstance env t v)
/-- The loop over the items of a tuple with `zip`, which ends with the shorter list, inspection.py:865-871. -/
def isGenericZip (env : Env) : List Ty → List Val → Res Bool
  | [], _ => .ok true
  | _ :: _, [] => .ok true
  | t :: ts, v :: vs => andRes (isGeneric env t v) (fun _ => isGenericZip env ts vs)
/-- The loop over the members of a union, inspection.py:872-873. -/
def isGenericAny (env : Env) : List Ty → Val → Res Bool
  | [], _ => .ok false
  | t :: ts, v =>
    match isGeneric env t v with
    | .error e => .error e
    | .ok true => .ok true
    | .ok false => isGenericAny env ts v
end

/-! ### RecursiveChecker -/

mutual
/-- Types without annotations at any level, as `typing.get_type_hints` returns them without `include_extras`.
Members of a union that become equal are not merged here. -/
def Ty.stripAnn : Ty → Ty
  | .annotated t _ => t.stripAnn
  | .list t => .list t.stripAnn
  | .dict k t => .dict k t.stripAnn
  | .set t => .set t.stripAnn
  | .tuple ts => .tuple (stripAnnL ts)
  | .union ts => .union (stripAnnL ts)
  | t => t
/-- The same for a list of types. -/
def stripAnnL : List Ty → List Ty
  | [] => []
  | t :: ts => t.stripAnn :: stripAnnL ts
end

/-- The parts of a value, each with the function that checks it for a given type. -/
inductive CKids where
  | none
  | list (fs : List (Ty → Res Bool))
  | set (fs : List (Ty → Res Bool))
  | dict (fs : List (Ty → Res Bool))
  | tuple (fs : List (Ty → Res Bool))
  | obj (fs : List (Str × (Ty → Res Bool)))

/-- `all(self.check(type of field, getattr(obj, name of field)) ...)`, inspection.py:966-986.  `hint` gives the type that
is looked up for the field. -/
def checkFields (hint : FieldDef → Ty) (kids : List (Str × (Ty → Res Bool))) (fs : List FieldDef) : Res Bool :=
  allRes (fun f => match lookupKey f.name kids with | some g => g (hint f) | Option.none => .error .attribute) fs

/-- `self.check(tuple_item_type, item)` for the pairs of item types and items, inspection.py:946-952. -/
def checkZip (ts : List Ty) (fs : List (Ty → Res Bool)) : Res Bool :=
  allRes (fun (q : Ty × (Ty → Res Bool)) => q.2 q.1) (ts.zip fs)

/-- Attributes and items of a named tuple, if the parts are those of a tuple of any kind. -/
def CKids.asTuple (env : Env) (raw : Val) : CKids → Option (List (Str × (Ty → Res Bool)))
  | .tuple _ => some []
  | .obj fs => if (tupleItems env raw).isSome then some fs else Option.none
  | _ => Option.none

/-- `RecursiveChecker.check`, inspection.py:898-986, for an object with given parts. -/
def checkD (env : Env) (p : Ty → Val → Bool) (raw : Val) (kids : CKids) : Ty → Res Bool
  | .none => .ok (p .none raw)
  | .bool => .ok (p .bool raw)
  | .int => .ok (p .int raw)
  | .float => .ok (p .float raw)
  | .str => .ok (p .str raw)
  | .bytes => .ok (p .bytes raw)
  | .datetime => .ok (p .datetime raw)
  | .date => .ok (p .date raw)
  | .time => .ok (p .time raw)
  | .timedelta => .ok (p .timedelta raw)
  | .uuid => .ok (p .uuid raw)
  | .list t => (match kids with | .list fs => allRes (fun f => f t) fs | _ => .error .typeError)
  | .dict _ t => (match kids with | .dict fs => allRes (fun f => f t) fs | _ => .error .typeError)
  | .set t => (match kids with | .set fs => allRes (fun f => f t) fs | _ => .error .typeError)
  | .tuple ts =>
    (match kids with
     | .tuple fs => checkZip ts fs
     | .obj fs => if (tupleItems env raw).isSome then checkZip ts (fs.map (fun kf => kf.2)) else .error .typeError
     | _ => .error .typeError)
  | .union ts => .ok (p (.union ts) raw)
  | .literal _ => .error .typeError
  | .annotated _ _ => .error .typeError
  | .enum e => (match raw with | .enum _ _ => .ok (p (.enum e) raw) | _ => .error .typeError)
  | .cls c =>
    (match env.classes[c]? with
     | Option.none => .error .outOfModel
     | some cd =>
       match cd.kind with
       | .namedTuple _ =>
         (match kids.asTuple env raw with
          | some fs => checkFields (fun f => f.ty.stripAnn) fs cd.hints
          | Option.none => .error .typeError)
       | _ =>
         match raw, kids with
         | .obj c' _, .obj fs => if c' = c then checkFields (fun f => f.ty) fs cd.hints else .error .typeError
         | _, _ => .error .typeError)
  | t => if isInstance env t raw then .ok true else .error .typeError

mutual
/-- `RecursiveChecker.check`, inspection.py:898-986. -/
def check (env : Env) (p : Ty → Val → Bool) : Val → Ty → Res Bool
  | .list vs => checkD env p (.list vs) (.list (checkSeq env p vs))
  | .set vs => checkD env p (.set vs) (.set (checkSeq env p vs))
  | .tuple vs => checkD env p (.tuple vs) (.tuple (checkSeq env p vs))
  | .dict kvs => checkD env p (.dict kvs) (.dict (checkDict env p kvs))
  | .obj c fs => checkD env p (.obj c fs) (.obj (checkObj env p fs))
  | .none => checkD env p .none .none
  | .bool b => checkD env p (.bool b) .none
  | .int i => checkD env p (.int i) .none
  | .float f => checkD env p (.float f) .none
  | .str s => checkD env p (.str s) .none
  | .bytes b => checkD env p (.bytes b) .none
  | .datetime d => checkD env p (.datetime d) .none
  | .date d => checkD env p (.date d) .none
  | .time t => checkD env p (.time t) .none
  | .timedelta d => checkD env p (.timedelta d) .none
  | .uuid n => checkD env p (.uuid n) .none
  | .ipv4 n => checkD env p (.ipv4 n) .none
  | .ipv6 n s => checkD env p (.ipv6 n s) .none
  | .enum e m => checkD env p (.enum e m) .none
/-- Items of a list, set or tuple. -/
def checkSeq (env : Env) (p : Ty → Val → Bool) : List Val → List (Ty → Res Bool)
  | [] => []
  | v :: vs => check env p v :: checkSeq env p vs
/-- Values of a dictionary. -/
def checkDict (env : Env) (p : Ty → Val → Bool) : List (Key × Val) → List (Ty → Res Bool)
  | [] => []
  | (_, v) :: r => check env p v :: checkDict env p r
/-- Attributes of an object. -/
def checkObj (env : Env) (p : Ty → Val → Bool) : List (Str × Val) → List (Str × (Ty → Res Bool))
  | [] => []
  | (k, v) :: r => (k, check env p v) :: checkObj env p r
end

/-- `type(obj)`. -/
def classOf : Val → Ty
  | .none => .none
  | .bool _ => .bool
  | .int _ => .int
  | .float _ => .float
  | .str _ => .str
  | .bytes _ => .bytes
  | .datetime _ => .datetime
  | .date _ => .date
  | .time _ => .time
  | .timedelta _ => .timedelta
  | .uuid _ => .uuid
  | .ipv4 _ => .ipv4
  | .ipv6 _ _ => .ipv6
  | .enum e _ => .enum e
  | .list _ => .bareList
  | .dict _ => .bareDict
  | .set _ => .bareSet
  | .tuple _ => .bareTuple
  | .obj c _ => .cls c

/-- `check_recursive`, inspection.py:989-1029. -/
def checkRecursive (env : Env) (obj : Val) (pred : Option (Ty → Val → Bool)) (typePred : Option (Ty → Bool))
    (valuePred : Option (Val → Bool)) : Res Bool :=
  match typePred, valuePred with
  | some tp, some vp =>
    if pred.isSome then .error .typeError else check env (fun t v => !tp t || vp v) obj (classOf obj)
  | Option.none, some vp => if pred.isSome then .error .typeError else check env (fun _ v => vp v) obj (classOf obj)
  | some _, Option.none => .error .typeError
  | Option.none, Option.none =>
    match pred with
    | some p => check env p obj (classOf obj)
    | Option.none => check env (fun _ _ => true) obj (classOf obj)

end Verif
