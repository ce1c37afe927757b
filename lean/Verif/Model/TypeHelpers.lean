import Verif.Model.Inspection
/-!
# Tests of types, their parameters, and lookup of fields: strong_typing/inspection.py
-/
namespace Verif

/-! ### Tests -/

/-- `is_dataclass_type`, inspection.py:135-139. -/
def isDataclassType (env : Env) (t : Ty) : Bool :=
  match t.unwrapAnn with
  | .cls c =>
    (match env.classes[c]? with
     | some cd => (match cd.kind with | .dataclass _ => true | _ => false)
     | Option.none => false)
  | _ => false

/-- `is_named_tuple_type`, inspection.py:183-207.  The test `isinstance(typ, type)` comes before the annotation is taken
away. -/
def isNamedTupleType (env : Env) (t : Ty) : Bool :=
  if !t.isType then false
  else
    match t.unwrapAnn with
    | .cls c =>
      (match env.classes[c]? with
       | some cd => (match cd.kind with | .namedTuple _ => true | _ => false)
       | Option.none => false)
    | _ => false

/-- `is_type_enum`, inspection.py:212-216. -/
def isTypeEnum (t : Ty) : Bool :=
  match t.unwrapAnn with
  | .enum _ => true
  | _ => false

/-- `is_type_literal`, inspection.py:357-361. -/
def isTypeLiteral (t : Ty) : Bool :=
  match t.unwrapAnn with
  | .literal _ => true
  | _ => false

/-- `is_generic_list`, inspection.py:402-406. -/
def isGenericList (t : Ty) : Bool :=
  match t.unwrapAnn with
  | .list _ => true
  | _ => false

/-- `is_generic_set`, inspection.py:427-431. -/
def isGenericSet (t : Ty) : Bool :=
  match t.unwrapAnn with
  | .set _ => true
  | _ => false

/-- `is_generic_dict`, inspection.py:452-456. -/
def isGenericDict (t : Ty) : Bool :=
  match t.unwrapAnn with
  | .dict _ _ => true
  | _ => false

/-! ### Parameters -/

/-- A parameter of a type: a type, the type of keys, a value of a literal type, or an annotation. -/
inductive TypeArg where
  | ty (t : Ty)
  | key (k : KeyTy)
  | lit (l : Lit)
  | annot (m : Meta)

/-- `typing.get_args` (Python 3.11). -/
def getArgs : Ty → List TypeArg
  | .list t => [.ty t]
  | .set t => [.ty t]
  | .dict k t => [.key k, .ty t]
  | .tuple ts => ts.map .ty
  | .union ts => ts.map .ty
  | .literal ls => ls.map .lit
  | .annotated t ms => .ty t :: ms.map .annot
  | _ => []

/-- `Annotated[(arg, *metadata)]`; only types can be annotated. -/
def annotateArg (ms : List Meta) : TypeArg → Res TypeArg
  | .ty t => .ok (.ty (mkAnnotated t ms))
  | _ => .error .outOfModel

/-- `(item_type,) = typing.get_args(typ)`, inspection.py:420-424 (`_unwrap_generic_list`) and 445-449
(`_unwrap_generic_set`). -/
def unwrapSingle (t : Ty) : Res TypeArg :=
  match getArgs t with
  | [a] => .ok a
  | _ => .error .valueError

/-- `rewrap_annotated_type`, inspection.py:512-533, with `unwrapSingle`. -/
def rewrapSingle : Ty → Res TypeArg
  | .annotated t ms =>
    (match unwrapSingle t with
     | .error e => .error e
     | .ok a => annotateArg ms a)
  | t => unwrapSingle t

/-- `unwrap_generic_list`, inspection.py:409-417. -/
def unwrapGenericList (t : Ty) : Res TypeArg := rewrapSingle t

/-- `unwrap_generic_set`, inspection.py:434-442. -/
def unwrapGenericSet (t : Ty) : Res TypeArg := rewrapSingle t

/-- `unwrap_generic_dict`, inspection.py:459-467, with `_unwrap_generic_dict`, inspection.py:470-474. -/
def unwrapGenericDict (t : Ty) : Res (TypeArg × TypeArg) :=
  match getArgs t.unwrapAnn with
  | [k, v] => .ok (k, v)
  | _ => .error .valueError

/-- `unwrap_literal_values`, inspection.py:379-388. -/
def unwrapLiteralValues (t : Ty) : List TypeArg := getArgs t.unwrapAnn

/-- `unwrap_literal_value`, inspection.py:364-376. -/
def unwrapLiteralValue (t : Ty) : Res TypeArg :=
  match unwrapLiteralValues t with
  | [a] => .ok a
  | _ => .error .typeError

/-- `type(value)` for the values of literal types. -/
def argClass : TypeArg → Res Ty
  | .lit l => .ok l.ty
  | _ => .error .outOfModel

/-- `unwrap_literal_types`, inspection.py:391-399. -/
def unwrapLiteralTypes (t : Ty) : Res (List Ty) := (unwrapLiteralValues t).mapM argClass

/-! ### Fields -/

/-- An annotation of a class: as text or not, and with names of classes as text inside or not. -/
structure PropType where
  name : Str
  ty : Ty
  text : Bool
  fwd : Bool

/-- `get_class_properties`, inspection.py:558-565. -/
def classProperties (cd : ClassDef) : List PropType :=
  match cd.kind with
  | .dataclass _ => cd.fields.map fun f => ⟨f.name, f.ty, f.strAnn, f.fwd⟩
  | _ => cd.hints.map fun f => ⟨f.name, f.ty, false, false⟩

/-- The loop of `get_class_property`. -/
def findProperty (name : Str) : List PropType → Option PropType
  | [] => Option.none
  | p :: ps => if name = p.name then some p else findProperty name ps

/-- `get_class_property`, inspection.py:568-574.  The result of the code is the type alone. -/
def getClassProperty (cd : ClassDef) (name : Str) : Option PropType := findProperty name (classProperties cd)

/-- `DataclassField`, inspection.py:148-157; `default = none` stands for `dataclasses.MISSING`. -/
structure DcField where
  name : Str
  ty : Ty
  fwd : Bool
  default : Option Val := Option.none

/-- `field.default`: a field with a factory has none. -/
def Dflt.plain : Dflt → Option Val
  | .value v => some v
  | _ => Option.none

/-- `dataclass_fields`, inspection.py:160-164, with `evaluate_member_type` and `evaluate_type`, inspection.py:86-127: a text is
evaluated, names of classes as text inside it are not. -/
def dataclassFields (cd : ClassDef) : List DcField :=
  cd.fields.map fun f => { name := f.name, ty := f.ty, fwd := f.fwd, default := f.dflt.plain }

/-- The loop of `dataclass_field_by_name`. -/
def findField (name : Str) : List FieldDef → Res DcField
  | [] => .error .lookup
  | f :: fs => if f.name = name then .ok { name := f.name, ty := f.ty, fwd := f.fwd } else findField name fs

/-- `dataclass_field_by_name`, inspection.py:167-174, for a data class.  The default is not passed on. -/
def dataclassFieldByName (cd : ClassDef) (name : Str) : Res DcField := findField name cd.fields

end Verif
