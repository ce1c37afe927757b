import Verif.Model.Core
import Verif.Model.StrOps
/-!
# Flattening of schemas

`SchemaFlattener` (strong_typing/classdef.py:383-425) after the schema has been read into node objects and before the result is
written back (strong_typing/classdef.py:376-380); reading and writing of data classes is modelled elsewhere.

Simplified: a node that is not a `JsonSchemaObject` is opaque; so are the members of an object node that flattening only copies
(title, description, format, and for the top-level node `$schema` and `definitions`).
-/
namespace Verif

/-- `SchemaFlatteningOptions` (strong_typing/classdef.py:370-373). -/
structure FlatOpts where
  qualified : Bool := false
  recursive : Bool := false

/-- Schema nodes: `JsonSchemaObject` (strong_typing/classdef.py:87-91) or any other member of `JsonSchemaAny`. -/
inductive SNode where
  | leaf (payload : Json)
  | object (props : Option (List (Str × SNode))) (addl : Option Bool) (required : Option (List Str)) (rest : Json)

/-- `d.update(items)`. -/
def updateProps (d : List (Str × SNode)) : List (Str × SNode) → List (Str × SNode)
  | [] => d
  | (k, v) :: r => updateProps (upsert k v d) r

/-- `x or None` for a list or dictionary. -/
def orNone (l : List α) : Option (List α) := if l.isEmpty then none else some l

/-- `f"{name}.{n}"` or `n` (strong_typing/classdef.py:411-419). -/
def qualify (o : FlatOpts) (name n : Str) : Str := if o.qualified then name ++ ('.' :: n) else n

/-- `obj.properties` and `obj.required` of an object node. -/
def SNode.props : SNode → Option (List (Str × SNode))
  | .leaf _ => none
  | .object p _ _ _ => p
def SNode.required : SNode → Option (List Str)
  | .leaf _ => none
  | .object _ _ r _ => r

/-- `target_props` after a nested object (strong_typing/classdef.py:410-414). -/
def addProps (o : FlatOpts) (name : Str) (obj : SNode) (tp : List (Str × SNode)) : List (Str × SNode) :=
  match obj.props with
  | none => tp
  | some l => updateProps tp (l.map (fun p => (qualify o name p.1, p.2)))

/-- `target_reqs` after a nested object (strong_typing/classdef.py:415-419). -/
def addReqs (o : FlatOpts) (name : Str) (obj : SNode) (tr : List Str) : List Str :=
  match obj.required with
  | none => tr
  | some l => tr ++ l.map (qualify o name)

/-- The state after one property (strong_typing/classdef.py:399-419); `obj` is the nested node after flattening. -/
def flatStep (o : FlatOpts) (src : List Str) (name : Str) (prop obj : SNode) (st : List (Str × SNode) × List Str) :
    List (Str × SNode) × List Str :=
  match prop with
  | .leaf j => (upsert name (.leaf j) st.1, if name ∈ src then st.2 ++ [name] else st.2)
  | .object p a r x =>
    let obj' := if o.recursive then obj else .object p a r x
    (addProps o name obj' st.1, addReqs o name obj' st.2)

mutual

/-- `flatten` (strong_typing/classdef.py:389-425). -/
def flatten (o : FlatOpts) : SNode → SNode
  | .leaf j => .leaf j
  | .object none _ _ rest => .object none (some false) none rest
  | .object (some l) _ reqs rest =>
    let st := flattenProps o (reqs.getD []) l ([], [])
    .object (orNone st.1) (some false) (orNone st.2) rest

/-- The loop over `source_props.items()` (strong_typing/classdef.py:399-419). -/
def flattenProps (o : FlatOpts) (src : List Str) : List (Str × SNode) → List (Str × SNode) × List Str →
    List (Str × SNode) × List Str
  | [], st => st
  | (name, prop) :: r, st => flattenProps o src r (flatStep o src name prop (flatten o prop) st)

end

end Verif
