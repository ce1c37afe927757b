import Verif.Model.Deserializer
/-!
# Schema nodes: the data classes of strong_typing/classdef.py

`schema_to_type` and `flatten_schema` first read a schema with `json_to_object` into objects of the data classes
`JsonSchema...`.  These classes are given here as classes of the deserializer model; an object that has been read is then
viewed as a `TNode`.

Left out: `title`, `description` and `examples` (which are read but are not part of a `TNode`); `JsonSchemaNode`,
`JsonSchemaType`, `JsonSchemaAllOf` and `JsonSchemaAnyOf`, which are not members of `JsonSchemaAny`.
-/
namespace Verif

/-- `Optional[T]`. -/
abbrev optTy (t : Ty) : Ty := .union [t, .none]

/-- Numbers of the classes in `schemaEnv`. -/
def nRef : Nat := 0
def nBoolean : Nat := 1
def nInteger : Nat := 2
def nNumber : Nat := 3
def nString : Nat := 4
def nArray : Nat := 5
def nObject : Nat := 6
def nOneOf : Nat := 7
def nTop : Nat := 8

/-- `JsonSchemaAny`, classdef.py:114-123. -/
def anyNodeTy : Ty :=
  .union [.cls 0, .cls 1, .cls 2, .cls 3, .cls 4, .cls 5, .cls 6, .cls 7]

/-- Fields of `JsonSchemaNode`, classdef.py:25-28. -/
def nodeFields : List FieldDef := [{ name := c!"title", ty := optTy .str }, { name := c!"description", ty := optTy .str }]

/-- Fields of a subclass of `JsonSchemaType` (classdef.py:31-34) that redefines `type` as a literal. -/
def typeFields (type : Str) : List FieldDef :=
  nodeFields ++ [{ name := c!"type", ty := .literal [.str type] }, { name := c!"format", ty := optTy .str }]

/-- A data class of classdef.py. -/
def nodeClass (name : Str) (fields : List FieldDef) : ClassDef :=
  { module := c!"strong_typing.classdef", name, kind := .dataclass false, fields }

/-- Fields of `JsonSchemaObject`, classdef.py:86-91. -/
def objectFields : List FieldDef :=
  typeFields c!"object" ++
    [{ name := c!"properties", ty := optTy (.dict .str anyNodeTy), fwd := true },
     { name := c!"additionalProperties", ty := optTy .bool },
     { name := c!"required", ty := optTy (.list .str) }]

/-- The data classes of classdef.py:37-129. -/
def schemaEnv : Env where
  enums := []
  classes :=
    [-- `JsonSchemaRef`, classdef.py:94-96
     nodeClass c!"JsonSchemaRef" (nodeFields ++ [{ name := c!"ref", ty := .annotated .str [.alias c!"$ref"] }]),
     -- `JsonSchemaBoolean`, classdef.py:37-42
     nodeClass c!"JsonSchemaBoolean" (typeFields c!"boolean" ++
       [{ name := c!"const", ty := optTy .bool }, { name := c!"default", ty := optTy .bool },
        { name := c!"examples", ty := optTy (.list .bool) }]),
     -- `JsonSchemaInteger`, classdef.py:45-53
     nodeClass c!"JsonSchemaInteger" (typeFields c!"integer" ++
       [{ name := c!"const", ty := optTy .int }, { name := c!"default", ty := optTy .int },
        { name := c!"examples", ty := optTy (.list .int) }, { name := c!"enum", ty := optTy (.list .int) },
        { name := c!"minimum", ty := optTy .int }, { name := c!"maximum", ty := optTy .int }]),
     -- `JsonSchemaNumber`, classdef.py:56-66
     nodeClass c!"JsonSchemaNumber" (typeFields c!"number" ++
       [{ name := c!"const", ty := optTy .float }, { name := c!"default", ty := optTy .float },
        { name := c!"examples", ty := optTy (.list .float) }, { name := c!"minimum", ty := optTy .float },
        { name := c!"maximum", ty := optTy .float }, { name := c!"exclusiveMinimum", ty := optTy .float },
        { name := c!"exclusiveMaximum", ty := optTy .float }, { name := c!"multipleOf", ty := optTy .float }]),
     -- `JsonSchemaString`, classdef.py:69-77
     nodeClass c!"JsonSchemaString" (typeFields c!"string" ++
       [{ name := c!"const", ty := optTy .str }, { name := c!"default", ty := optTy .str },
        { name := c!"examples", ty := optTy (.list .str) }, { name := c!"enum", ty := optTy (.list .str) },
        { name := c!"minLength", ty := optTy .int }, { name := c!"maxLength", ty := optTy .int }]),
     -- `JsonSchemaArray`, classdef.py:80-83
     nodeClass c!"JsonSchemaArray" (typeFields c!"array" ++ [{ name := c!"items", ty := anyNodeTy, strAnn := true }]),
     nodeClass c!"JsonSchemaObject" objectFields,
     -- `JsonSchemaOneOf`, classdef.py:109-111
     nodeClass c!"JsonSchemaOneOf" (nodeFields ++ [{ name := c!"oneOf", ty := .list anyNodeTy, fwd := true }]),
     -- `JsonSchemaTopLevelObject`, classdef.py:126-129
     nodeClass c!"JsonSchemaTopLevelObject" (objectFields ++
       [{ name := c!"schema", ty := .annotated .str [.alias c!"$schema"] },
        { name := c!"definitions", ty := optTy (.dict .str anyNodeTy) }])]

/-! ### Nodes -/

/-- An object of one of the members of `JsonSchemaAny`, with the attributes that are used later. -/
inductive TNode where
  | ref (ref : Str)
  | bool (const dflt : Option Bool)
  | int (format : Option Str) (const dflt : Option Int) (enum : Option (List Int)) (minimum maximum : Option Int)
  | num (format : Option Str) (const dflt : Option PyFloat) (exMin exMax multipleOf : Option PyFloat)
  | str (format const dflt : Option Str) (enum : Option (List Str)) (maxLength : Option Int)
  | arr (items : TNode)
  | obj (props : Option (List (Str × TNode))) (addl : Option Bool) (required : Option (List Str))
  | oneOf (nodes : List TNode)

/-- An attribute annotated as `Optional[...]`; the function tells what values are expected. -/
def optAttr (f : Val → Option α) : Val → Option (Option α)
  | .none => some Option.none
  | v => match f v with | some a => some (some a) | Option.none => Option.none

/-- Attributes of a certain type. -/
def Val.asBool : Val → Option Bool
  | .bool b => some b
  | _ => Option.none
def Val.asIntV : Val → Option Int
  | .int i => some i
  | _ => Option.none
def Val.asFloat : Val → Option PyFloat
  | .float f => some f
  | _ => Option.none
def Val.asStr : Val → Option Str
  | .str s => some s
  | _ => Option.none

/-- All results, if there are only results. -/
def allSome (f : α → Option β) : List α → Option (List β)
  | [] => some []
  | x :: xs =>
    match f x with
    | Option.none => Option.none
    | some y => match allSome f xs with | Option.none => Option.none | some ys => some (y :: ys)

/-- A list of values of a certain type. -/
def Val.asList (f : Val → Option α) : Val → Option (List α)
  | .list vs => allSome f vs
  | _ => Option.none

/-- An attribute as nodes: a node, a list of nodes, or a dictionary of nodes. -/
inductive NodeAttr where
  | other
  | node (n : TNode)
  | list (ns : List TNode)
  | dict (ns : List (Str × TNode))

/-- An attribute by name. -/
def attrOf (name : Str) (fs : List (Str × Val)) : Val := (lookupKey name fs).getD .none

/-- An attribute as nodes by name. -/
def nodeAttrOf (name : Str) (fs : List (Str × NodeAttr)) : NodeAttr := (lookupKey name fs).getD .other

/-- An attribute of type `Optional[dict[str, JsonSchemaAny]]`. -/
def optDict (v : Val) (a : NodeAttr) : Option (Option (List (Str × TNode))) :=
  match v, a with
  | .none, _ => some Option.none
  | _, .dict ns => some (some ns)
  | _, _ => Option.none

/-- The object part of a node, classdef.py:86-91. -/
def objectNode (fs : List (Str × Val)) (ns : List (Str × NodeAttr)) : Option TNode :=
  match optDict (attrOf c!"properties" fs) (nodeAttrOf c!"properties" ns),
    optAttr Val.asBool (attrOf c!"additionalProperties" fs), optAttr (Val.asList Val.asStr) (attrOf c!"required" fs) with
  | some ps, some a, some r => some (.obj ps a r)
  | _, _, _ => Option.none

/-- The node of an object of class number `c`, given its attributes. -/
def nodeOf (c : Nat) (fs : List (Str × Val)) (ns : List (Str × NodeAttr)) : Option TNode :=
  if c = nRef then (attrOf c!"ref" fs).asStr.map TNode.ref
  else if c = nBoolean then
    match optAttr Val.asBool (attrOf c!"const" fs), optAttr Val.asBool (attrOf c!"default" fs) with
    | some c, some d => some (.bool c d)
    | _, _ => Option.none
  else if c = nInteger then
    match optAttr Val.asStr (attrOf c!"format" fs), optAttr Val.asIntV (attrOf c!"const" fs),
      optAttr Val.asIntV (attrOf c!"default" fs), optAttr (Val.asList Val.asIntV) (attrOf c!"enum" fs),
      optAttr Val.asIntV (attrOf c!"minimum" fs), optAttr Val.asIntV (attrOf c!"maximum" fs) with
    | some f, some c, some d, some e, some lo, some hi => some (.int f c d e lo hi)
    | _, _, _, _, _, _ => Option.none
  else if c = nNumber then
    match optAttr Val.asStr (attrOf c!"format" fs), optAttr Val.asFloat (attrOf c!"const" fs),
      optAttr Val.asFloat (attrOf c!"default" fs), optAttr Val.asFloat (attrOf c!"exclusiveMinimum" fs),
      optAttr Val.asFloat (attrOf c!"exclusiveMaximum" fs), optAttr Val.asFloat (attrOf c!"multipleOf" fs) with
    | some f, some c, some d, some lo, some hi, some m => some (.num f c d lo hi m)
    | _, _, _, _, _, _ => Option.none
  else if c = nString then
    match optAttr Val.asStr (attrOf c!"format" fs), optAttr Val.asStr (attrOf c!"const" fs),
      optAttr Val.asStr (attrOf c!"default" fs), optAttr (Val.asList Val.asStr) (attrOf c!"enum" fs),
      optAttr Val.asIntV (attrOf c!"maxLength" fs) with
    | some f, some c, some d, some e, some m => some (.str f c d e m)
    | _, _, _, _, _ => Option.none
  else if c = nArray then
    match nodeAttrOf c!"items" ns with
    | .node n => some (.arr n)
    | _ => Option.none
  else if c = nObject then objectNode fs ns
  else if c = nOneOf then
    match nodeAttrOf c!"oneOf" ns with
    | .list ns => some (.oneOf ns)
    | _ => Option.none
  else Option.none

mutual
/-- An attribute of a node as nodes. -/
def toAttr : Val → NodeAttr
  | .obj c fs => (match nodeOf c fs (toAttrs fs) with | some n => .node n | Option.none => .other)
  | .list vs => (match toNodes vs with | some ns => .list ns | Option.none => .other)
  | .dict kvs => (match toNodeDict kvs with | some ns => .dict ns | Option.none => .other)
  | _ => .other
/-- All attributes as nodes. -/
def toAttrs : List (Str × Val) → List (Str × NodeAttr)
  | [] => []
  | (k, v) :: r => (k, toAttr v) :: toAttrs r
/-- A list of nodes. -/
def toNodes : List Val → Option (List TNode)
  | [] => some []
  | v :: vs =>
    match toAttr v, toNodes vs with
    | .node n, some ns => some (n :: ns)
    | _, _ => Option.none
/-- A dictionary of nodes. -/
def toNodeDict : List (Key × Val) → Option (List (Str × TNode))
  | [] => some []
  | (k, v) :: r =>
    match k, toAttr v, toNodeDict r with
    | .str s, .node n, some ns => some ((s, n) :: ns)
    | _, _, _ => Option.none
end

/-- The node in a value. -/
def toNode (v : Val) : Option TNode :=
  match toAttr v with
  | .node n => some n
  | _ => Option.none

/-- An object of class `JsonSchemaTopLevelObject`: the object and its definitions. -/
structure TopNode where
  node : TNode
  definitions : Option (List (Str × TNode))

/-- The top-level node in a value. -/
def toTop : Val → Option TopNode
  | .obj c fs =>
    if c = nTop then
      match objectNode fs (toAttrs fs), optDict (attrOf c!"definitions" fs) (nodeAttrOf c!"definitions" (toAttrs fs)) with
      | some n, some ds => some ⟨n, ds⟩
      | _, _ => Option.none
    else Option.none
  | _ => Option.none

/-- `json_to_object(JsonSchemaTopLevelObject, schema)`, classdef.py:176, 377. -/
def readTop (j : Json) : Res TopNode :=
  match loads schemaEnv false (.cls nTop) j with
  | .error e => .error e
  | .ok v => match toTop v with | some n => .ok n | Option.none => .error .outOfModel

end Verif
