import Verif.Model.SchemaNode
import Verif.Model.Serializer
import Verif.Model.Flatten
/-!
# `flatten_schema`: from schema to schema

The schema is read into objects of the data classes of strong_typing/classdef.py (`schemaEnv`), flattened there, and the resulting
object is written as JSON.
-/
namespace Verif

/-- `isinstance(node, JsonSchemaObject)`, classdef.py:400. -/
def isObjectNode : Val → Bool
  | .obj c _ => c = nObject ∨ c = nTop
  | _ => false

/-- The items of a dictionary or of `None` as in `d or {}`, classdef.py:393. -/
def dictItems : Val → List (Key × Val)
  | .dict kvs => kvs
  | _ => []

/-- The texts in a list or in `None` as in `l or []`, classdef.py:396. -/
def textItems : Val → List Str
  | .list vs => vs.filterMap Val.asStr
  | _ => []

/-- `f"{name}.{n}"` or `n` for the key of a dictionary, classdef.py:412. -/
def qualifyKey (o : FlatOpts) (name : Key) (n : Key) : Key :=
  match name, n with
  | .str name, .str n => .str (qualify o name n)
  | _, _ => n

/-- `d.update(items)`. -/
def updateDict (d : List (Key × Val)) : List (Key × Val) → List (Key × Val)
  | [] => d
  | (k, v) :: r => updateDict (upsert k v d) r

/-- The text of a key. -/
def keyName : Key → Str
  | .str s => s
  | _ => []

/-- `target_props` and `target_reqs` after a nested object, classdef.py:410-419. -/
def addNested (o : FlatOpts) (name : Key) (obj : Val) (st : List (Key × Val) × List Str) : List (Key × Val) × List Str :=
  match obj with
  | .obj _ fs =>
    (updateDict st.1 ((dictItems (attrOf c!"properties" fs)).map fun p => (qualifyKey o name p.1, p.2)),
     st.2 ++ (textItems (attrOf c!"required" fs)).map (qualify o (keyName name)))
  | _ => st

/-- The state after one property, classdef.py:399-419; `obj` is the nested node after flattening. -/
def flatStepV (o : FlatOpts) (src : List Str) (name : Key) (prop obj : Val) (st : List (Key × Val) × List Str) :
    List (Key × Val) × List Str :=
  if isObjectNode prop then addNested o name (if o.recursive then obj else prop) st
  else (upsert name prop st.1, if keyName name ∈ src then st.2 ++ [keyName name] else st.2)

/-- `setattr(obj, name, value)` for an attribute that exists, classdef.py:422-424. -/
def setAttr (name : Str) (v : Val) : List (Str × Val) → List (Str × Val)
  | [] => []
  | (k, w) :: r => if k = name then (k, v) :: r else (k, w) :: setAttr name v r

/-- `target_props or None`, classdef.py:422. -/
def dictOrNone (d : List (Key × Val)) : Val := if d.isEmpty then .none else .dict d

/-- `target_reqs or None`, classdef.py:424. -/
def listOrNone (l : List Str) : Val := if l.isEmpty then .none else .list (l.map .str)

/-- The copy of a node with new properties and required names, classdef.py:421-425. -/
def setNode (st : List (Key × Val) × List Str) (fs : List (Str × Val)) : List (Str × Val) :=
  setAttr c!"required" (listOrNone st.2) (setAttr c!"additionalProperties" (.bool false) (setAttr c!"properties" (dictOrNone st.1) fs))

mutual
/-- `SchemaFlattener.flatten`, classdef.py:389-425, for any object; it is called only for objects of class `JsonSchemaObject` or
`JsonSchemaTopLevelObject`, whose attribute `type` is always `"object"`. -/
def flattenVal (o : FlatOpts) : Val → Val
  | .obj c fs => .obj c (setNode (flattenAttr o (textItems (attrOf c!"required" fs)) fs) fs)
  | v => v
/-- The loop of `flatten` for the attribute `properties`, classdef.py:393-419. -/
def flattenAttr (o : FlatOpts) (src : List Str) : List (Str × Val) → List (Key × Val) × List Str
  | [] => ([], [])
  | (k, v) :: r => if k = c!"properties" then flattenDict o src v else flattenAttr o src r
/-- The loop of `flatten` for a dictionary, classdef.py:399-419. -/
def flattenDict (o : FlatOpts) (src : List Str) : Val → List (Key × Val) × List Str
  | .dict kvs => flattenItems o src kvs ([], [])
  | _ => ([], [])
/-- The loop of `flatten`, classdef.py:399-419. -/
def flattenItems (o : FlatOpts) (src : List Str) : List (Key × Val) → List (Key × Val) × List Str → List (Key × Val) × List Str
  | [], st => st
  | (k, v) :: r, st => flattenItems o src r (flatStepV o src k v (flattenVal o v) st)
end

/-- `flatten_schema`, classdef.py:376-380. -/
def flattenSchema (o : FlatOpts) (j : Json) : Res Json :=
  match loads schemaEnv false (.cls nTop) j with
  | .error e => .error e
  | .ok v => objectToJson schemaEnv (flattenVal o v)

end Verif
