import Verif.Model.SchemaNode
import Verif.Model.ClassDef
import Verif.Model.EnumBuild
import Verif.Model.Schema
/-!
# Types made from schemas: `schema_to_type` and `node_to_typedef`, strong_typing/classdef.py

Classes and enumerations that are made are added to the program; the module in which they are made is the list of its
attributes that are types.

Left out: doc strings of the new classes; what is left behind in the module after an exception (see ClassBuildLeft).  `Decimal`, `JsonType`, and
`Literal` of a float are not types of the model (`outOfModel`), nor are negative lengths and attributes of classes and modules
whose names begin with two underscores.  Classes whose `__module__` is set are those of the program; that the `__module__` of
`uuid.UUID`, `ipaddress.IPv4Address` and `ipaddress.IPv6Address` may be set is recorded in `patched`.
-/
namespace Verif

/-- The name of the module (`module.__name__`), and character classes beyond ASCII: `\w` in regular expressions, and first and
further characters of identifiers. -/
structure BuildCfg where
  modName : Str
  word : Char → Bool
  idStart : Char → Bool
  idCont : Char → Bool

/-- The program, the attributes of the module, and the classes of the standard library whose `__module__` has been set. -/
structure BuildSt where
  env : Env
  attrs : List (Str × Ty)
  patched : List Ty := []

/-- `TypeDef`, classdef.py:189-192; the default is `MISSING` or a value. -/
structure TypeDef where
  ty : Ty
  dflt : Option Val := Option.none

/-! ### Types -/

mutual
/-- Python `==` on types; unions are compared as sets. -/
def Ty.same : Ty → Ty → Bool
  | .list a, .list b => Ty.same a b
  | .set a, .set b => Ty.same a b
  | .dict k a, .dict l b => k = l && Ty.same a b
  | .tuple as, .tuple bs => Ty.sameL as bs
  | .union as, .union bs => Ty.allIn as bs && bs.all (fun b => Ty.memOf as b)
  | .annotated a ms, .annotated b ns => Ty.same a b && decide (ms = ns)
  | .literal ls, .literal ms => ls = ms
  | .enum e, .enum f => e = f
  | .cls c, .cls d => c = d
  | .list _, _ | .set _, _ | .dict _ _, _ | .tuple _, _ | .union _, _ | .annotated _ _, _ | .literal _, _ | .enum _, _
  | .cls _, _ => false
  | a, b => a.ctorIdx = b.ctorIdx
/-- Equality member by member. -/
def Ty.sameL : List Ty → List Ty → Bool
  | [], [] => true
  | a :: as, b :: bs => Ty.same a b && Ty.sameL as bs
  | _, _ => false
/-- Is every type in the second list? -/
def Ty.allIn : List Ty → List Ty → Bool
  | [], _ => true
  | a :: as, bs => bs.any (fun b => Ty.same a b) && Ty.allIn as bs
/-- Is the type in the list? -/
def Ty.memOf : List Ty → Ty → Bool
  | [], _ => false
  | a :: as, b => Ty.same a b || Ty.memOf as b
end

/-- Members of unions in place of the unions (`typing._flatten_literal_params` and `typing._remove_dups_flatten`). -/
def flattenUnions (ts : List Ty) : List Ty :=
  ts.flatMap fun t => match t with | .union us => us | t => [t]

/-- The first of each group of equal types, in order (`typing._deduplicate`). -/
def dedupTys : List Ty → List Ty → List Ty
  | seen, [] => seen
  | seen, t :: ts => if seen.any (fun u => Ty.same u t) then dedupTys seen ts else dedupTys (seen ++ [t]) ts

/-- `Union[tuple]` of the standard library. -/
def pyUnion (ts : List Ty) : Res Ty :=
  match dedupTys [] (flattenUnions ts) with
  | [] => .error .typeError
  | [t] => .ok t
  | us => .ok (.union us)

/-- The auxiliary type with the given annotations: `int16`, `int32`, `int64`, auxiliary.py:168-196. -/
def IntType.toTy : IntType → Ty
  | .int16 => .annotated .int [.signed true, .storage 2, .intRange (-32768) 32767]
  | .int32 => .annotated .int [.signed true, .storage 4, .intRange (-2147483648) 2147483647]
  | .int64 => .annotated .int [.signed true, .storage 8, .intRange (-9223372036854775808) 9223372036854775807]
  | .int => .int
  | .lit i => .literal [.int i]

/-! ### Values -/

/-- `json_to_value`, classdef.py:195-199. -/
def jsonToValue (env : Env) (t : Ty) (j : Option Json) : Res (Option Val) :=
  match j with
  | Option.none => .ok Option.none
  | some j => match loads env false t j with | .error e => .error e | .ok v => .ok (some v)

/-- The type with the default value of a node. -/
def typeWithDefault (st : BuildSt) (t : Ty) (j : Option Json) : Res (TypeDef × BuildSt) :=
  match jsonToValue st.env t j with
  | .error e => .error e
  | .ok d => .ok (⟨t, d⟩, st)

/-! ### Names -/

/-- The longest part from the start that consists of word characters, and the rest. -/
def spanWord (uni : Char → Bool) : Str → Str × Str
  | [] => ([], [])
  | c :: r => if isWordChar uni c then (c :: (spanWord uni r).1, (spanWord uni r).2) else ([], c :: r)

/-- `re.match(r"^#/definitions/(\w+)$", ref)` and its group, classdef.py:204-208; `$` also matches before a line feed at the
end. -/
def refTarget (uni : Char → Bool) (ref : Str) : Option Str :=
  let p := c!"#/definitions/"
  if ref.take p.length = p then
    match spanWord uni (ref.drop p.length) with
    | ([], _) => Option.none
    | (n, []) => some n
    | (n, ['\n']) => some n
    | _ => Option.none
  else Option.none

/-- Names with a meaning of their own for classes and modules. -/
def isDunderName (n : Str) : Bool := n.take 2 = c!"__"

/-- `str.isidentifier`. -/
def isIdentifier (cfg : BuildCfg) (n : Str) : Bool :=
  match n with
  | [] => false
  | c :: r =>
    (if c.toNat < 128 then isWordChar cfg.idStart c && !isDig c else cfg.idStart c) && r.all (isWordChar cfg.idCont)

/-- The checks of `dataclasses.make_dataclass` on names of fields (Lib/dataclasses.py:1413-1435), in order; `seen` are the
names before. -/
def checkFieldNames (cfg : BuildCfg) : List Str → List Str → Res Unit
  | _, [] => .ok ()
  | seen, n :: r =>
    if !isIdentifier cfg n then .error .typeError
    else if isKeyword n then .error .typeError
    else if n ∈ seen then .error .typeError
    else if isDunderName n then .error .outOfModel
    else checkFieldNames cfg (n :: seen) r

/-- `t[2].default is not dataclasses.MISSING`, classdef.py:345. -/
def FieldDef.hasDefault (f : FieldDef) : Bool :=
  match f.dflt with
  | .missing => false
  | _ => true

/-- The check of the generated `__init__` that no field without default follows one with default (Lib/dataclasses.py:538-546);
`seen` tells whether there was a field with default. -/
def defaultsOrdered : Bool → List FieldDef → Bool
  | _, [] => true
  | seen, f :: r => if f.hasDefault then defaultsOrdered true r else !seen && defaultsOrdered seen r

/-- `dataclasses.make_dataclass(name, fields, namespace={"__module__": ...})` and `setattr(module, name, ...)`,
classdef.py:346-358.  No default is a value that cannot be hashed. -/
def makeDataclass (cfg : BuildCfg) (st : BuildSt) (name : Str) (fields : List FieldDef) : Res (TypeDef × BuildSt) :=
  match checkFieldNames cfg [] (fields.map (·.name)) with
  | .error e => .error e
  | .ok _ =>
    if '\x00' ∈ name then .error .valueError
    else if !defaultsOrdered false fields then .error .typeError
    else
      let t := Ty.cls st.env.classes.length
      let cd : ClassDef := { module := cfg.modName, name, kind := .dataclass false, fields }
      .ok (⟨t, Option.none⟩,
        { st with env := { st.env with classes := st.env.classes ++ [cd] }, attrs := upsert name t st.attrs })

/-- `enum_values_to_type` as called by `node_to_typedef`, classdef.py:150-164, 296-303. -/
def makeEnum (cfg : BuildCfg) (st : BuildSt) (name : Str) (values : List Str) : Res (Ty × BuildSt) :=
  if '\x00' ∈ name then .error .valueError
  else
    match enumFromSchema cfg.word name values with
    | .error e => .error e
    | .ok ms =>
      let t := Ty.enum st.env.enums.length
      .ok (t, { st with env := { st.env with enums := st.env.enums ++ [{ module := cfg.modName, name, members := ms }] },
                        attrs := upsert name t st.attrs })

/-! ### `node_to_typedef` -/

/-- Does `round(math.log10(x))` return a number?  classdef.py:255, 260 -/
def roundLog10 : PyFloat → Res Unit
  | .nan => .error .valueError
  | .inf neg => .error (if neg then .valueError else .overflow)
  | .fin neg m _ => if neg || m = 0 then .error .valueError else .ok ()

/-- `x == -y`, classdef.py:253. -/
def floatEqNeg (x : PyFloat) : PyFloat → Bool
  | .nan => false
  | .inf neg => floatEq x (.inf (!neg))
  | .fin neg m e => floatEq x (.fin (!neg) m e)

/-- `integer_digits`, classdef.py:250-257: is it given? -/
def integerDigits (exMin exMax : Option PyFloat) : Res Bool :=
  match exMin, exMax with
  | some lo, some hi =>
    if floatEqNeg lo hi then (match roundLog10 hi with | .error e => .error e | .ok _ => .ok true) else .ok false
  | _, _ => .ok false

/-- `decimal_digits`, classdef.py:259-262: is it given? -/
def decimalDigits (multipleOf : Option PyFloat) : Res Bool :=
  match multipleOf with
  | some m => (match roundLog10 m with | .error e => .error e | .ok _ => .ok true)
  | Option.none => .ok false

/-- `number_type`, classdef.py:244-271. -/
def numberType (format : Option Str) (exMin exMax multipleOf : Option PyFloat) : Res Ty :=
  if format = some c!"float32" then .ok (.annotated .float [.storage 4])
  else if format = some c!"float64" then .ok (.annotated .float [.storage 8])
  else
    match integerDigits exMin exMax with
    | .error e => .error e
    | .ok i =>
      match decimalDigits multipleOf with
      | .error e => .error e
      -- `Annotated[decimal.Decimal, Precision(...)]`
      | .ok d => if i && d then .error .outOfModel else .ok .float

/-- The types that belong to a format, classdef.py:281-294. -/
def formatType (format : Option Str) : Option Ty :=
  if format = some c!"date-time" then some .datetime
  else if format = some c!"date" then some .date
  else if format = some c!"time" then some .time
  else if format = some c!"duration" then some .timedelta
  else if format = some c!"uuid" then some .uuid
  else if format = some c!"ipv4" then some .ipv4
  else if format = some c!"ipv6" then some .ipv6
  else Option.none

/-- `string_type`, classdef.py:280-309. -/
def stringType (cfg : BuildCfg) (ctx : Str) (st : BuildSt) (format : Option Str) (enum : Option (List Str))
    (maxLength : Option Int) : Res (Ty × BuildSt) :=
  match formatType format with
  | some t => .ok (t, st)
  | Option.none =>
    match enum with
    | some vs => makeEnum cfg st ctx vs
    | Option.none =>
      match maxLength with
      | some (.ofNat n) => .ok (.annotated .str [.maxLength n], st)
      | some (.negSucc _) => .error .outOfModel
      | Option.none => .ok (.str, st)

/-- `node_to_typedef` for a reference, classdef.py:203-209. -/
def refTypedef (cfg : BuildCfg) (st : BuildSt) (ref : Str) : Res (TypeDef × BuildSt) :=
  match refTarget cfg.word ref with
  | Option.none => .error .valueError
  | some n =>
    match lookupKey n st.attrs with
    | some t => .ok (⟨t, Option.none⟩, st)
    | Option.none => .error (if isDunderName n then .outOfModel else .attribute)

/-- `node_to_typedef` for `boolean`, classdef.py:211-216. -/
def boolTypedef (st : BuildSt) (const dflt : Option Bool) : Res (TypeDef × BuildSt) :=
  match const with
  | some b => .ok (⟨.literal [.bool b], Option.none⟩, st)
  | Option.none => typeWithDefault st .bool (dflt.map Json.bool)

/-- `node_to_typedef` for `integer`, classdef.py:218-238. -/
def intTypedef (st : BuildSt) (n : IntNode) (dflt : Option Int) : Res (TypeDef × BuildSt) :=
  match intNodeType n with
  | .error e => .error e
  | .ok (.lit i) => .ok (⟨.literal [.int i], Option.none⟩, st)
  | .ok t => typeWithDefault st t.toTy (dflt.map Json.int)

/-- `node_to_typedef` for `number`, classdef.py:240-274. -/
def numTypedef (st : BuildSt) (format : Option Str) (const dflt exMin exMax multipleOf : Option PyFloat) :
    Res (TypeDef × BuildSt) :=
  match const with
  | some _ => .error .outOfModel
  | Option.none =>
    match numberType format exMin exMax multipleOf with
    | .error e => .error e
    | .ok t => typeWithDefault st t (dflt.map Json.float)

/-- `node_to_typedef` for `string`, classdef.py:276-312. -/
def strTypedef (cfg : BuildCfg) (ctx : Str) (st : BuildSt) (format const dflt : Option Str) (enum : Option (List Str))
    (maxLength : Option Int) : Res (TypeDef × BuildSt) :=
  match const with
  | some s => .ok (⟨.literal [.str s], Option.none⟩, st)
  | Option.none =>
    match stringType cfg ctx st format enum maxLength with
    | .error e => .error e
    | .ok (t, st') => typeWithDefault st' t (dflt.map Json.str)

/-- The name of the class or enumeration for a property, classdef.py:335. -/
def propContext (ctx prop : Str) : Str := ctx ++ c!"__" ++ prop

/-- The field for a property, classdef.py:336-340. -/
def propField (required : List Str) (name : Str) (d : TypeDef) : Res FieldDef :=
  match (if name ∈ required then .ok d.ty else pyUnion [.none, d.ty]) with
  | .error e => .error e
  | .ok t => .ok { name, ty := t, dflt := match d.dflt with | some v => .value v | Option.none => .missing }

/-- `fields.sort(key=...)` with a truth value as key: stable, `False` before `True`. -/
def defaultsLast (fs : List FieldDef) : List FieldDef := fs.filter (fun f => !f.hasDefault) ++ fs.filter (·.hasDefault)

/-- The types of the members of a union, classdef.py:361-365. -/
def unionTypedef (ds : List TypeDef) (st : BuildSt) : Res (TypeDef × BuildSt) :=
  if ds.any (·.dflt.isSome) then .error .typeError
  else match pyUnion (ds.map (·.ty)) with
    | .error e => .error e
    | .ok t => .ok (⟨t, Option.none⟩, st)

/-- `list[T]`, classdef.py:315-319. -/
def listTypedef (d : TypeDef) (st : BuildSt) : Res (TypeDef × BuildSt) :=
  if d.dflt.isSome then .error .typeError else .ok (⟨.list d.ty, Option.none⟩, st)

mutual
/-- `node_to_typedef`, classdef.py:202-367. -/
def nodeToTypedef (cfg : BuildCfg) : TNode → Str → BuildSt → Res (TypeDef × BuildSt)
  | .ref r, _, st => refTypedef cfg st r
  | .bool c d, _, st => boolTypedef st c d
  | .int f c d e lo hi, _, st => intTypedef st { format := f, const := c, enum := e, minimum := lo, maximum := hi } d
  | .num f c d lo hi m, _, st => numTypedef st f c d lo hi m
  | .str f c d e m, ctx, st => strTypedef cfg ctx st f c d e m
  | .arr n, ctx, st =>
    (match nodeToTypedef cfg n ctx st with
     | .error e => .error e
     | .ok (d, st') => listTypedef d st')
  -- `JsonType`
  | .obj Option.none _ _, _, _ => .error .outOfModel
  | .obj (some ps) a req, ctx, st =>
    if a ≠ some false then .error .typeError
    else
      (match propTypedefs cfg ps ctx (req.getD []) st with
       | .error e => .error e
       | .ok (fs, st') => makeDataclass cfg st' ctx (defaultsLast fs))
  | .oneOf ns, ctx, st =>
    (match memberTypedefs cfg ns ctx st with
     | .error e => .error e
     | .ok (ds, st') => unionTypedef ds st')
/-- The loop over the properties of an object, classdef.py:334-343. -/
def propTypedefs (cfg : BuildCfg) : List (Str × TNode) → Str → List Str → BuildSt → Res (List FieldDef × BuildSt)
  | [], _, _, st => .ok ([], st)
  | (name, n) :: r, ctx, req, st =>
    match nodeToTypedef cfg n (propContext ctx name) st with
    | .error e => .error e
    | .ok (d, st') =>
      match propField req name d with
      | .error e => .error e
      | .ok f =>
        match propTypedefs cfg r ctx req st' with
        | .error e => .error e
        | .ok (fs, st'') => .ok (f :: fs, st'')
/-- The loop over the members of a union, classdef.py:361. -/
def memberTypedefs (cfg : BuildCfg) : List TNode → Str → BuildSt → Res (List TypeDef × BuildSt)
  | [], _, st => .ok ([], st)
  | n :: r, ctx, st =>
    match nodeToTypedef cfg n ctx st with
    | .error e => .error e
    | .ok (d, st') =>
      match memberTypedefs cfg r ctx st' with
      | .error e => .error e
      | .ok (ds, st'') => .ok (d :: ds, st'')
end

/-! ### `schema_to_type` -/

/-- `type.__module__ = module.__name__`, classdef.py:183, in CPython 3.11: built-in classes are immutable, `list[T]` has no such
attribute. -/
def setModule (cfg : BuildCfg) (st : BuildSt) : Ty → Res BuildSt
  | .cls c =>
    .ok { st with env := { st.env with classes := st.env.classes.modify c fun cd => { cd with module := cfg.modName } } }
  | .enum e =>
    .ok { st with env := { st.env with enums := st.env.enums.modify e fun ed => { ed with module := cfg.modName } } }
  | .uuid => .ok { st with patched := .uuid :: st.patched }
  | .ipv4 => .ok { st with patched := .ipv4 :: st.patched }
  | .ipv6 => .ok { st with patched := .ipv6 :: st.patched }
  | .annotated _ _ | .union _ | .literal _ => .ok st
  | .list _ | .dict _ _ | .set _ | .tuple _ => .error .attribute
  | _ => .error .typeError

/-- The loop over the definitions, classdef.py:178-184. -/
def buildDefinitions (cfg : BuildCfg) : List (Str × TNode) → BuildSt → Res BuildSt
  | [], st => .ok st
  | (name, n) :: r, st =>
    match nodeToTypedef cfg n name st with
    | .error e => .error e
    | .ok (d, st') =>
      if d.dflt.isSome then .error .typeError
      else match setModule cfg st' d.ty with
        | .error e => .error e
        | .ok st'' => buildDefinitions cfg r { st'' with attrs := upsert name d.ty st''.attrs }

/-- `schema_to_type`, classdef.py:167-186. -/
def schemaToType (cfg : BuildCfg) (className : Str) (schema : Json) (st : BuildSt) : Res (Ty × BuildSt) :=
  match readTop schema with
  | .error e => .error e
  | .ok top =>
    match buildDefinitions cfg (top.definitions.getD []) st with
    | .error e => .error e
    | .ok st' =>
      match nodeToTypedef cfg top.node className st' with
      | .error e => .error e
      | .ok (d, st'') => .ok (d.ty, st'')

end Verif
