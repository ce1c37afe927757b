import Verif.Model.Core
/-!
# Derived classes

What `strong_typing` learns about the members of a class with base classes: `typing.get_type_hints` and `dataclasses.fields`, for
classes made by class statements.  Left out: `ClassVar`, `InitVar`, `KW_ONLY`, `dataclasses.field` in a class without the decorator, and
class attributes without annotation.
-/
namespace Verif

/-- A class statement: base classes (the classes of the program are numbered), the decorator `@dataclass(frozen=…)` if any, and the
annotations of the body, with the values assigned. -/
structure ClassStmt where
  bases : List Nat
  decorated : Option Bool
  own : List FieldDef

/-- A class: annotations in its `__dict__`, `__mro__` (without `object`), its own `__dataclass_params__.frozen` and
`__dataclass_fields__`. -/
structure PyClass where
  own : List FieldDef
  mro : List Nat
  frozen : Option Bool
  fields : List (Str × FieldDef)

/-! ### Method resolution order -/

/-- The first head of a list that is in no tail. -/
def c3Head (all : List (List Nat)) : List (List Nat) → Option Nat
  | [] => none
  | [] :: ls => c3Head all ls
  | (h :: _) :: ls => if all.all (fun l => !l.tail.contains h) then some h else c3Head all ls

/-- `pmerge` of `type.mro` (CPython, Objects/typeobject.c); `none` if there is no consistent order. -/
def c3Merge : Nat → List (List Nat) → Option (List Nat)
  | 0, ls => if ls.all List.isEmpty then some [] else none
  | n + 1, ls =>
    if ls.all List.isEmpty then some []
    else match c3Head ls ls with
      | none => none
      | some h => (c3Merge n (ls.map fun l => if l.head? = some h then l.tail else l)).map (h :: ·)

/-- `type.mro` of a class with given bases, without the class itself and `object`. -/
def c3 (mro : Nat → List Nat) (bases : List Nat) : Option (List Nat) :=
  let ls := bases.map mro ++ [bases]
  c3Merge (ls.map List.length).sum ls

/-! ### Members -/

/-- `d.update(…)` for dictionaries. -/
def updateMap (d fs : List (Str × α)) : List (Str × α) := fs.foldl (fun d f => upsert f.1 f.2 d) d

/-- Annotations as a dictionary. -/
def named (fs : List FieldDef) : List (Str × FieldDef) := fs.map fun f => (f.name, f)

/-- `typing.get_type_hints(cls, include_extras=True)` (Lib/typing.py), `get_resolved_hints`, inspection.py:554-555, for a class with
given `__mro__`. -/
def typeHints (w : List PyClass) (mro : List Nat) : List (Str × FieldDef) :=
  mro.reverse.foldl (fun d b => match w[b]? with | some c => updateMap d (named c.own) | none => d) []

/-- An attribute that is looked up along the `__mro__`. -/
def findAttr (w : List PyClass) (p : PyClass → Option α) : List Nat → Option α
  | [] => none
  | b :: r => match w[b]? with
    | some c => (match p c with | some a => some a | none => findAttr w p r)
    | none => findAttr w p r

/-- `getattr(cls, "__dataclass_fields__", None)`, for a class with given `__mro__`. -/
def fieldsAttr (w : List PyClass) (mro : List Nat) : Option (List (Str × FieldDef)) :=
  findAttr w (fun c => c.frozen.map fun _ => c.fields) mro

/-- `cls.__dataclass_params__.frozen`. -/
def frozenAttr (w : List PyClass) (mro : List Nat) : Option Bool := findAttr w PyClass.frozen mro

/-- The class attribute that holds the value assigned to a field. -/
def valueAttr (w : List PyClass) (n : Str) (mro : List Nat) : Option Val :=
  findAttr w (fun c => match lookupKey n (named c.own) with | some f => (match f.dflt with | .value v => some v | _ => none) | none => none) mro

/-- `dataclasses._get_field`: the default is `getattr(cls, name, MISSING)`, which may be inherited. -/
def ownField (w : List PyClass) (bases : List Nat) (f : FieldDef) : FieldDef :=
  match f.dflt with
  | .missing => (match valueAttr w f.name bases with | some v => { f with dflt := .value v } | none => f)
  | _ => f

/-- The fields of the base classes, in the loop over `cls.__mro__[-1:0:-1]` (Lib/dataclasses.py:911-918). -/
def baseFields (w : List PyClass) (bases : List Nat) : List (Str × FieldDef) :=
  bases.reverse.foldl (fun d b => match w[b]? with
    | some c => (match fieldsAttr w c.mro with | some fs => updateMap d fs | none => d)
    | none => d) []

/-- No field without default after one with a default (`_init_fn`, Lib/dataclasses.py:538-546). -/
def fieldOrderOk : Bool → List (Str × FieldDef) → Bool
  | _, [] => true
  | seen, (_, f) :: r => match f.dflt with | .missing => !seen && fieldOrderOk seen r | _ => fieldOrderOk true r

/-- Some class in the list is frozen, itself or by inheritance. -/
def anyFrozen (w : List PyClass) (bases : List Nat) : Bool :=
  bases.any fun b => match w[b]? with | some c => frozenAttr w c.mro = some true | none => false

/-- Some class in the list has `__dataclass_fields__`. -/
def anyDataclass (w : List PyClass) (bases : List Nat) : Bool :=
  bases.any fun b => match w[b]? with | some c => (fieldsAttr w c.mro).isSome | none => false

/-- A class statement, with the decorator (`_process_class`, Lib/dataclasses.py:884-1098). -/
def classStmt (w : List PyClass) (s : ClassStmt) : Res (List PyClass) :=
  if s.bases.all (· < w.length) then
    match c3 (fun b => match w[b]? with | some c => c.mro | none => []) s.bases with
    | none => .error .typeError
    | some bases =>
      match s.decorated with
      | none => .ok (w ++ [{ own := s.own, mro := w.length :: bases, frozen := none, fields := [] }])
      | some frozen =>
        let fields := updateMap (baseFields w bases) (named (s.own.map (ownField w bases)))
        if anyDataclass w bases && (anyFrozen w bases != frozen) then .error .typeError
        else if fieldOrderOk false fields then
          .ok (w ++ [{ own := s.own, mro := w.length :: bases, frozen := some frozen, fields }])
        else .error .typeError
  else .error .name

/-- Class statements one after the other. -/
def classStmts (w : List PyClass) : List ClassStmt → Res (List PyClass)
  | [] => .ok w
  | s :: r => match classStmt w s with | .error e => .error e | .ok w => classStmts w r

/-! ### What readers and writers see -/

/-- `get_class_properties`, inspection.py:558-565: names and types for the serializer (serializer.py:292-300) and for the schema
(schema.py:434). -/
def memberTypes (w : List PyClass) (c : PyClass) : List (Str × Ty) :=
  match fieldsAttr w c.mro with
  | some fs => fs.map fun f => (f.1, f.2.ty)
  | none => (typeHints w c.mro).map fun f => (f.1, f.2.ty)

/-- Names and types for the deserializer: `DataclassDeserializer.build`, deserializer.py:723-727, `TypedClassDeserializer.build`,
deserializer.py:775-777; `KeyError` for a field without type hint. -/
def readTypes (w : List PyClass) (c : PyClass) : Res (List (Str × Ty)) :=
  match fieldsAttr w c.mro with
  | some fs => mapRes (fun f => match lookupKey f.1 (typeHints w c.mro) with
      | some h => .ok (f.1, h.ty)
      | none => .error .key) fs
  | none => .ok ((typeHints w c.mro).map fun f => (f.1, f.2.ty))

end Verif
