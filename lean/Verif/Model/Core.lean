import Verif.Model.Duration
import Verif.Model.Base64
import Verif.Model.Uuid
import Verif.Model.Ip
import Verif.Model.DateTime
import Verif.Model.Mapping
import Verif.Model.Float
/-!
# JSON values, Python values, types and class definitions

The common vocabulary of the models of the serializer, the deserializer and the schema generator.
Types are modelled after resolution of forward references (`evaluate_type`, `typing.get_type_hints`).
-/
namespace Verif

/-- JSON values as produced by `json.loads` (`JsonType`, strong_typing/core.py).  A Python `dict` with string keys is a
list of pairs in iteration order. -/
inductive Json where
  | null
  | bool (b : Bool)
  | int (i : Int)
  | float (f : PyFloat)
  | str (s : Str)
  | arr (xs : List Json)
  | obj (kvs : List (Str × Json))

/-- Values of enumeration members that the model covers: `None`, `bool`, `int`, `float`, `str`. -/
inductive Scalar where
  | none
  | bool (b : Bool)
  | int (i : Int)
  | float (f : PyFloat)
  | str (s : Str)
  deriving DecidableEq, Repr

/-- Arguments of `Literal[...]` (without `bytes`).  `enum e m` is member number `m` of enumeration number `e`. -/
inductive Lit where
  | none
  | bool (b : Bool)
  | int (i : Int)
  | str (s : Str)
  | enum (e m : Nat)
  deriving DecidableEq, Repr

/-- Keys of Python dictionaries that the model covers. -/
inductive Key where
  | str (s : Str)
  | int (i : Int)
  | enum (e m : Nat)
  deriving DecidableEq, Repr

/-- Python objects.  `enum e m` is member number `m` (in definition order) of enumeration `e`; `obj c fs` is an instance
of class number `c` with attribute values `fs`.  The list in `set` is the iteration order, which is not observable by
`==`. -/
inductive Val where
  | none
  | bool (b : Bool)
  | int (i : Int)
  | float (f : PyFloat)
  | str (s : Str)
  | bytes (b : List Byte)
  | datetime (d : PyDateTime)
  | date (d : PyDate)
  | time (t : PyTime)
  | timedelta (d : TimeDelta)
  | uuid (n : Nat)
  | ipv4 (n : Nat)
  | ipv6 (n : Nat) (scope : Option Str)
  | enum (e m : Nat)
  | list (vs : List Val)
  | dict (kvs : List (Key × Val))
  | set (vs : List Val)
  | tuple (vs : List Val)
  | obj (c : Nat) (fs : List (Str × Val))

/-- Key types of `dict[K, V]`; `other` is any class that is neither `str` nor `int` nor an enumeration. -/
inductive KeyTy where
  | str
  | int
  | enum (e : Nat)
  | other
  deriving DecidableEq, Repr

/-- Annotations in `Annotated[T, ...]`, strong_typing/auxiliary.py:90-166. -/
inductive Meta where
  | alias (name : Str)
  | intRange (lo hi : Int)
  | precision (significant decimal : Nat)
  | length (n : Nat)
  | minLength (n : Nat)
  | maxLength (n : Nat)
  | signed (b : Bool)
  | storage (n : Nat)
  | other
  deriving DecidableEq, Repr

/-- Type annotations.  `bareList` etc. are the unparametrized classes; `union` covers `Union`, `Optional` and `|`;
enumerations and classes are referred to by number. -/
inductive Ty where
  | none | bool | int | float | str | bytes | datetime | date | time | timedelta | uuid | ipv4 | ipv6
  | bareList | bareDict | bareSet | bareTuple
  | list (t : Ty)
  | dict (k : KeyTy) (t : Ty)
  | set (t : Ty)
  | tuple (ts : List Ty)
  | union (ts : List Ty)
  | literal (ls : List Lit)
  | annotated (t : Ty) (ms : List Meta)
  | enum (e : Nat)
  | cls (c : Nat)

/-- A class derived from `enum.Enum` (without mixed-in data type) with its canonical members.  `toJson` is a `to_json`
method, if any. -/
structure EnumDef where
  module : Str
  name : Str
  members : List (Str × Scalar)
  toJson : Option (Nat → Res Json) := .none

/-- Default of a data class field: `dataclasses.MISSING`, `default` or `default_factory` (a function that always
returns a fresh copy of the same value). -/
inductive Dflt where
  | missing
  | value (v : Val)
  | factory (v : Val)

/-- A field of a class: name, resolved annotation, whether the annotation was written as a string (then
`dataclasses.Field.type` is a `str`), default, and whether the names of classes and enumerations in the annotation are
strings, as in `Optional["Node"]` or `list["Node"]`. -/
structure FieldDef where
  name : Str
  ty : Ty
  strAnn : Bool := false
  dflt : Dflt := .missing
  fwd : Bool := false

/-- Data class, named tuple (`typed = false`: made by `collections.namedtuple`), or any other class. -/
inductive ClassKind where
  | dataclass (frozen : Bool)
  | namedTuple (typed : Bool)
  | plain
  deriving DecidableEq, Repr

/-- A class.  `module` and `name` are `__module__` and `__name__`; `toJson` and `fromJson` are the methods `to_json` and
`from_json`, if any. -/
structure ClassDef where
  module : Str
  name : Str
  kind : ClassKind
  fields : List FieldDef
  toJson : Option (Val → Res Json) := .none
  fromJson : Option (Json → Res Val) := .none

/-- The program: its enumerations, its classes, and the iteration order that Python uses for a set of strings
(some permutation that depends on the hash seed). -/
structure Env where
  enums : List EnumDef
  classes : List ClassDef
  setOrder : List Str → List Str := id

/-! ### Python equality -/

/-- Integer value of a `bool` or `int`. -/
def Scalar.asInt : Scalar → Option Int
  | .bool b => some (if b then 1 else 0)
  | .int i => some i
  | _ => Option.none

/-- Python `==` on scalars: `True == 1 == 1.0`, strings and `None` only equal themselves. -/
def Scalar.pyEq : Scalar → Scalar → Bool
  | .none, .none => true
  | .str s, .str t => s = t
  | .float f, .float g => floatEq f g
  | .float f, b => match b.asInt with | some i => floatEqInt f i | Option.none => false
  | a, .float g => match a.asInt with | some i => floatEqInt g i | Option.none => false
  | a, b => match a.asInt, b.asInt with | some i, some j => i = j | _, _ => false

/-- The scalar in a JSON value, if it is not an array or object. -/
def Json.scalar : Json → Option Scalar
  | .null => some .none
  | .bool b => some (.bool b)
  | .int i => some (.int i)
  | .float f => some (.float f)
  | .str s => some (.str s)
  | .arr _ => Option.none
  | .obj _ => Option.none

/-- A scalar as JSON value. -/
def Scalar.toJson : Scalar → Json
  | .none => .null
  | .bool b => .bool b
  | .int i => .int i
  | .float f => .float f
  | .str s => .str s

/-- Python value of a literal argument. -/
def Lit.toVal : Lit → Val
  | .none => .none
  | .bool b => .bool b
  | .int i => .int i
  | .str s => .str s
  | .enum e m => .enum e m

/-- `type(value)` of a literal argument. -/
def Lit.ty : Lit → Ty
  | .none => .none
  | .bool _ => .bool
  | .int _ => .int
  | .str _ => .str
  | .enum e _ => .enum e

/-- The scalar value of a literal argument; enumeration members are not scalars. -/
def Lit.scalar : Lit → Option Scalar
  | .none => some .none
  | .bool b => some (.bool b)
  | .int i => some (.int i)
  | .str s => some (.str s)
  | .enum _ _ => Option.none

/-- Python `==` on literal arguments. -/
def Lit.pyEq (a b : Lit) : Bool :=
  match a.scalar, b.scalar with
  | some s, some t => s.pyEq t
  | Option.none, Option.none => a = b
  | _, _ => false

/-- Python `==` of a literal argument and a JSON value. -/
def Lit.eqJson (a : Lit) (j : Json) : Bool :=
  match a.scalar, j.scalar with
  | some s, some t => s.pyEq t
  | _, _ => false

/-- Do two literal arguments have the same type? -/
def Lit.sameTy : Lit → Lit → Bool
  | .none, .none => true
  | .bool _, .bool _ => true
  | .int _, .int _ => true
  | .str _, .str _ => true
  | .enum e _, .enum f _ => e = f
  | _, _ => false

/-! ### Type helpers: strong_typing/inspection.py -/

/-- `typ is type(None)`. -/
def Ty.isNone : Ty → Bool
  | .none => true
  | _ => false

/-- `unwrap_annotated_type`, inspection.py:501-509. -/
def Ty.unwrapAnn : Ty → Ty
  | .annotated t _ => t
  | t => t

/-- `_is_union_like` and its type arguments, inspection.py:267-270. -/
def Ty.unionArgs : Ty → Option (List Ty)
  | .union ts => some ts
  | _ => Option.none

/-- `is_type_optional`, inspection.py:280-298. -/
def Ty.isOptional (t : Ty) : Bool :=
  match t.unwrapAnn.unionArgs with
  | some ts => ts.any Ty.isNone
  | Option.none => false

/-- `_unwrap_optional_type`, inspection.py:312-322, for a union. -/
def Ty.unwrapOpt : Ty → Ty
  | .union ts =>
    match ts.filter (fun t => !t.isNone) with
    | [t] => t
    | ts' => .union ts'
  | t => t

/-- `unwrap_optional_type`, inspection.py:301-309 with `rewrap_annotated_type`, inspection.py:512-533. -/
def Ty.unwrapOptional : Ty → Ty
  | .annotated t ms => .annotated t.unwrapOpt ms
  | t => t.unwrapOpt

/-- The type checked for a field by the deserializer: `unwrap_optional_type(T)` if optional, else `T`
(deserializer.py:734-737, 782-785). -/
def Ty.required (t : Ty) : Ty := if t.isOptional then t.unwrapOptional else t

/-- First `Alias` in a list of annotations. -/
def aliasIn : List Meta → Option Str
  | [] => Option.none
  | .alias a :: _ => some a
  | _ :: ms => aliasIn ms

/-- `get_annotation(typ, Alias)`, inspection.py:483-498. -/
def Ty.alias : Ty → Option Str
  | .annotated _ ms => aliasIn ms
  | _ => Option.none

/-- `is_type_literal` and the literal values, inspection.py:357-361, 379-388. -/
def Ty.litArgs (t : Ty) : Option (List Lit) :=
  match t.unwrapAnn with
  | .literal ls => some ls
  | _ => Option.none

/-- `isinstance(typ, type)` in CPython 3.11: classes, but not generic aliases or special forms. -/
def Ty.isType : Ty → Bool
  | .list _ | .dict _ _ | .set _ | .tuple _ | .union _ | .literal _ | .annotated _ _ => false
  | _ => true

/-- `enum_value_types`, inspection.py:229-235, has exactly one element and it is `str`. -/
def EnumDef.strValued (e : EnumDef) : Bool :=
  !e.members.isEmpty && e.members.all (fun m => match m.2 with | .str _ => true | _ => false)

/-- Fields that `get_resolved_hints` reports (inspection.py:554-555): a named tuple made by `collections.namedtuple` has
no annotations. -/
def ClassDef.hints (c : ClassDef) : List FieldDef :=
  match c.kind with
  | .namedTuple false => []
  | _ => c.fields

/-- Cache keys of deserializers: `(typ.__module__, typ.__name__)`. -/
abbrev TKey := Str × Str

/-- Key of a class. -/
def ClassDef.key (c : ClassDef) : TKey := (c.module, c.name)

/-- Key of an enumeration. -/
def EnumDef.key (e : EnumDef) : TKey := (e.module, e.name)

/-! ### Lists of results -/

/-- `[f(x) for x in xs]` where `f` may raise. -/
def mapRes (f : α → Res β) : List α → Res (List β)
  | [] => .ok []
  | x :: xs =>
    match f x with
    | .error e => .error e
    | .ok y =>
      match mapRes f xs with
      | .error e => .error e
      | .ok ys => .ok (y :: ys)

/-- `d[k] = v` on a dictionary in insertion order. -/
def upsert [DecidableEq κ] (k : κ) (v : α) : List (κ × α) → List (κ × α)
  | [] => [(k, v)]
  | (k', v') :: r => if k' = k then (k', v) :: r else (k', v') :: upsert k v r

/-- `d.get(k)`. -/
def lookupKey [DecidableEq κ] (k : κ) : List (κ × α) → Option α
  | [] => Option.none
  | (k', v) :: r => if k' = k then some v else lookupKey k r

end Verif
