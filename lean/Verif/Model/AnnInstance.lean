import Verif.Model.Annotations
import Verif.Model.Inspection
/-!
# Objects checked against types with names in them

`is_generic_instance` for types as they stand in annotations, with forward references.

Simplifications, in addition to those of Annotations: Python's `isinstance(obj, cls)` for a class is a parameter; there are no
subclasses of `list`, `set`, `dict` and `tuple`; in the text of a forward reference the object that is checked has no attributes.
-/
namespace Verif

/-- Python objects: instances of classes are numbered. -/
inductive AnnVal where
  | none
  | inst (k : Nat)
  | list (vs : List AnnVal)
  | set (vs : List AnnVal)
  | dict (kvs : List (AnnVal × AnnVal))
  | tuple (vs : List AnnVal)

/-- The objects of a program: `isinstance(obj, cls)`, and whether an object is one of the values of a literal. -/
structure Objects where
  isInst : AnnVal → Nat → Bool
  isLit : AnnVal → AnnObj → Bool

/-- The collection of an object. -/
def AnnVal.isColl : Coll → AnnVal → Bool
  | .list, .list _ | .set, .set _ | .dict, .dict _ | .tuple, .tuple _ => true
  | _, _ => false

/-- `isinstance(typ, type)`: classes, `list` etc., and in Python 3.11 also `typing.Annotated` and `types.UnionType`. -/
def AnnObj.isType : AnnObj → Bool
  | .noneType | .cls _ | .form (.builtin _) | .form .annotated | .form .pipe => true
  | _ => false

/-- `_is_type_like`, inspection.py:46-67 (`is_type_like`, inspection.py:73-83); the special form `Any` is left out. -/
def AnnObj.isTypeLike : AnnObj → Bool
  | .gen _ _ | .form (.typing _) | .ref _ => true
  | o => o.isType

/-- `isinstance(obj, typ)` for such a type. -/
def Objects.isInstanceOf (P : Objects) : AnnObj → AnnVal → Bool
  | .noneType, .none => true
  | .cls c, v => P.isInst v c
  | .form (.builtin c), v => v.isColl c
  | _, _ => false

/-- The object that is checked, as the value of the name `obj`. -/
def AnnVal.asName : AnnVal → AnnObj
  | .none => .none
  | _ => .const 0

/-- Names for `eval(identifier)`, inspection.py:831-833: the variables of the function, then the names of the module of the function,
whose number is `lib`, then built-in names. -/
def AnnWorld.libLook (w : AnnWorld) (lib : Nat) (s : Str) (v : AnnVal) (n : Str) : Option AnnObj :=
  if n = c!"obj" then some v.asName
  else if n = c!"typ" then some (.ref s)
  else if n = c!"fwd" then some (.ref s)
  else if n = c!"identifier" then some (.text s)
  else match w.inModule lib n with | some o => some o | Option.none => lookupKey n w.builtins

/-- The branch for a forward reference, inspection.py:830-837. -/
def AnnWorld.refInstance (w : AnnWorld) (P : Objects) (lib : Nat) (s : Str) (v : AnnVal) : Res Bool :=
  match w.evalText (w.libLook lib s v) s with
  | .error e => .error e
  | .ok o => if o.isType then .ok (P.isInstanceOf o v) else .ok false

namespace AnnWorld
variable (w : AnnWorld) (P : Objects) (lib : Nat)

mutual
/-- `is_generic_instance`, inspection.py:815-877. -/
def checkObj : AnnObj → AnnVal → Res Bool
  | .ref s, v => w.refInstance P lib s v
  | .gen (.builtin c) os, v => checkColl c os v
  | .gen (.typing c) os, v => checkColl c os v
  | .gen .union os, v => checkAny os v
  | .form (.typing .tuple), v => .ok (v.isColl .tuple)
  | .form (.typing c), v => if v.isColl c then .error .valueError else .ok false
  | o, v => if o.isType then .ok (P.isInstanceOf o v) else .error .typeError
/-- The branches for `list`, `dict`, `set` and `tuple`, inspection.py:841-871; the arguments are unpacked after the test of the object. -/
def checkColl : Coll → List AnnObj → AnnVal → Res Bool
  | .list, os, .list vs => checkEach os vs
  | .set, os, .set vs => checkEach os vs
  | .dict, os, .dict kvs => checkPairs os kvs
  | .tuple, os, .tuple vs => checkZip os vs
  | _, _, _ => .ok false
/-- Items against the only argument, inspection.py:844-846 and 859-861. -/
def checkEach : List AnnObj → List AnnVal → Res Bool
  | [o], vs => allRes (checkObj o) vs
  | _, _ => .error .valueError
/-- Keys and values, inspection.py:850-855. -/
def checkPairs : List AnnObj → List (AnnVal × AnnVal) → Res Bool
  | [k, o], kvs => allRes (fun kv => andRes (checkObj k kv.1) fun _ => checkObj o kv.2) kvs
  | _, _ => .error .valueError
/-- The loop over the items of a tuple with `zip`, inspection.py:865-871. -/
def checkZip : List AnnObj → List AnnVal → Res Bool
  | [], _ => .ok true
  | _ :: _, [] => .ok true
  | o :: os, v :: vs => andRes (checkObj o v) fun _ => checkZip os vs
/-- The loop over the members of a union, inspection.py:872-873. -/
def checkAny : List AnnObj → AnnVal → Res Bool
  | [], _ => .ok false
  | o :: os, v =>
    match checkObj o v with
    | .error e => .error e
    | .ok true => .ok true
    | .ok false => checkAny os v
end
end AnnWorld
end Verif
