import Verif.Model.Schema
import Verif.Model.Deserializer
/-!
# Unrestricted JSON types: strong_typing/core.py

Types that stand for any JSON value.  `JsonType` and `StrictJsonType` refer to themselves by name, so the model has types with names in
place of types (`Ty` has not), reading such types, and the part of the schema generator that applies to them.
-/
namespace Verif

/-- The type expressions in core.py, and `typing.Any`.  `fwd` is a text in place of a type, as in `list["JsonType"]`. -/
inductive JTy where
  | none | bool | int | float | str | any | object | array
  | dict (t : JTy)
  | list (t : JTy)
  | union (ts : List JTy)
  | fwd (name : Str)

/-- `JsonType`, core.py:18-27. -/
def jsonType : JTy := .union [.none, .bool, .int, .float, .str, .dict (.fwd c!"JsonType"), .list (.fwd c!"JsonType")]

/-- `StrictJsonType`, core.py:29-37. -/
def strictJsonType : JTy := .union [.bool, .int, .float, .str, .dict (.fwd c!"StrictJsonType"), .list (.fwd c!"StrictJsonType")]

mutual
/-- Equality of types. -/
def JTy.same : JTy → JTy → Bool
  | .none, .none | .bool, .bool | .int, .int | .float, .float | .str, .str | .any, .any | .object, .object | .array, .array => true
  | .dict t, .dict u => JTy.same t u
  | .list t, .list u => JTy.same t u
  | .union ts, .union us => JTy.sameL ts us
  | .fwd n, .fwd m => n = m
  | _, _ => false
/-- Member by member. -/
def JTy.sameL : List JTy → List JTy → Bool
  | [], [] => true
  | t :: ts, u :: us => JTy.same t u && JTy.sameL ts us
  | _, _ => false
end

/-! ### Reading -/

/-- The names of a module that are types. -/
abbrev Context := List (Str × JTy)

mutual
/-- `_get_deserializer` and `build` for a type, deserializer.py:835-877; `known` are the names whose deserializers are in the cache,
`make` makes the one for a new name. -/
def jBuildWith (ctx : Option Context) (make : List Str → Str → JTy → Res (List Str)) (known : List Str) : JTy → Res (List Str)
  | .none | .bool | .int | .float | .str => .ok known
  | .dict t | .list t => jBuildWith ctx make known t
  | .union ts => jBuildWithL ctx make known ts
  | .fwd n =>
    match ctx with
    | Option.none => .error .typeError
    | some names =>
      match lookupKey n names with
      | Option.none => .error .name
      | some t => if n ∈ known then .ok known else make (n :: known) n t
  | .any | .object | .array => .error .outOfModel
/-- One type after the other. -/
def jBuildWithL (ctx : Option Context) (make : List Str → Str → JTy → Res (List Str)) (known : List Str) : List JTy → Res (List Str)
  | [] => .ok known
  | t :: ts => match jBuildWith ctx make known t with | .error e => .error e | .ok known => jBuildWithL ctx make known ts
end

/-- The same, with at most so many names made one within the other. -/
def jBuild (ctx : Option Context) : Nat → List Str → JTy → Res (List Str)
  | 0, _, _ => .error .outOfModel
  | n + 1, known, t => jBuildWith ctx (fun known _ t => jBuild ctx n known t) known t

/-- The type for a text in place of a type (`evaluate_type`, inspection.py:98-127). -/
def JTy.evaluate (ctx : Option Context) : JTy → JTy
  | .fwd n => (match ctx with | some names => (match lookupKey n names with | some t => t | Option.none => .fwd n) | Option.none => .fwd n)
  | t => t

/-- The parts of a JSON value with functions that read them. -/
inductive JKids where
  | none
  | arr (fs : List (JTy → Res Val))
  | obj (fs : List (Str × (JTy → Res Val)))

/-- `dict((str(key), parse(value)) for …)`, deserializer.py:340-343. -/
def jPairs (t : JTy) : List (Key × Val) → List (Str × (JTy → Res Val)) → Res (List (Key × Val))
  | acc, [] => .ok acc
  | acc, (k, f) :: r => match f t with | .error e => .error e | .ok v => jPairs t (upsert (.str k) v acc) r

mutual
/-- `parse` for a type: scalars (deserializer.py:98-140), `ListDeserializer.parse` (deserializer.py:281-286), `DictDeserializer.parse`
(deserializer.py:334-343). -/
def jParseD (raw : Json) (kids : JKids) : JTy → Res Val
  | .none => parseNone raw
  | .bool => parseBool raw
  | .int => parseInt raw
  | .float => parseFloat raw
  | .str => parseStr raw
  | .list t =>
    (match kids with
     | .arr fs => (match mapRes (fun f => f t) fs with | .ok vs => .ok (.list vs) | .error e => .error e)
     | _ => .error .jsonType)
  | .dict t =>
    (match kids with
     | .obj fs => (match jPairs t [] fs with | .ok kvs => .ok (.dict kvs) | .error e => .error e)
     | _ => .error .jsonType)
  | .union ts => jParseU raw kids ts
  | .fwd _ | .any | .object | .array => .error .outOfModel
/-- The loop of `UnionDeserializer.parse`, deserializer.py:414-426. -/
def jParseU (raw : Json) (kids : JKids) : List JTy → Res Val
  | [] => .error .jsonKey
  | t :: ts =>
    match jParseD raw kids t with
    | .ok v => .ok v
    | .error e => if e = .jsonKey ∨ e = .jsonType then jParseU raw kids ts else .error e
end

mutual
/-- `Deserializer.parse(data)`, deserializer.py:65-72, of the deserializer for a type; the one for a name is that of the type named. -/
def jParse (ctx : Option Context) : Json → JTy → Res Val
  | .arr xs => fun t => jParseD (.arr xs) (.arr (jParseArr ctx xs)) (t.evaluate ctx)
  | .obj kvs => fun t => jParseD (.obj kvs) (.obj (jParseObj ctx kvs)) (t.evaluate ctx)
  | .null => fun t => jParseD .null .none (t.evaluate ctx)
  | .bool b => fun t => jParseD (.bool b) .none (t.evaluate ctx)
  | .int i => fun t => jParseD (.int i) .none (t.evaluate ctx)
  | .float f => fun t => jParseD (.float f) .none (t.evaluate ctx)
  | .str s => fun t => jParseD (.str s) .none (t.evaluate ctx)
/-- Items of an array. -/
def jParseArr (ctx : Option Context) : List Json → List (JTy → Res Val)
  | [] => []
  | x :: xs => jParse ctx x :: jParseArr ctx xs
/-- Properties of an object. -/
def jParseObj (ctx : Option Context) : List (Str × Json) → List (Str × (JTy → Res Val))
  | [] => []
  | (k, x) :: r => (k, jParse ctx x) :: jParseObj ctx r
end

/-- `create_deserializer(T, context).parse(data)`, deserializer.py:799-829; `T` is not a class, so without a context there is none. -/
def jLoads (ctx : Option Context) (t : JTy) (j : Json) : Res Val :=
  match jBuild ctx (match ctx with | some names => names.length + 1 | Option.none => 1) [] t with
  | .error e => .error e
  | .ok _ => jParse ctx j t

/-- The types among the names of strong_typing/serialization.py, which is the context of `json_to_object` (serialization.py:41-68,
71-99: the caller of `json_to_generic` is `json_to_object`). -/
def serializationContext : Context := [(c!"JsonType", jsonType)]

/-! ### Schemas -/

/-- `_simple_type_to_schema`, schema.py:227-280. -/
def jSimpleSchema : JTy → Option Sch
  | .none => some [(c!"type", js c!"null")]
  | .bool => some [(c!"type", js c!"boolean")]
  | .int => some [(c!"type", js c!"integer")]
  | .float => some [(c!"type", js c!"number")]
  | .str => some [(c!"type", js c!"string")]
  | .any => some [(c!"oneOf", .arr [.obj [(c!"type", js c!"null")], .obj [(c!"type", js c!"boolean")], .obj [(c!"type", js c!"number")],
      .obj [(c!"type", js c!"string")], .obj [(c!"type", js c!"array")], .obj [(c!"type", js c!"object")]])]
  | .object => some [(c!"type", js c!"object")]
  | .array => some [(c!"type", js c!"array")]
  | _ => Option.none

/-- An entry of the catalog: a type, its identifier and examples. -/
structure JEntry where
  ty : JTy
  identifier : Str
  examples : List Json

/-- The types registered in schema.py:673-702. -/
def jCatalog : List JEntry :=
  let common := [(c!"property2", .bool true), (c!"property3", .int 64), (c!"property4", .str c!"string"), (c!"property5", .arr [.str c!"item"]),
    (c!"property6", .obj [(c!"key", .str c!"value")])]
  let strict := [(c!"property1", .bool true), (c!"property2", .int 64), (c!"property3", .str c!"string"), (c!"property4", .arr [.str c!"item"]),
    (c!"property5", .obj [(c!"key", .str c!"value")])]
  [⟨.object, c!"JsonObject", []⟩, ⟨.array, c!"JsonArray", []⟩, ⟨jsonType, c!"JsonType", [.obj ((c!"property1", .null) :: common)]⟩,
   ⟨strictJsonType, c!"StrictJsonType", [.obj strict]⟩]

/-- The types among the names of schema.py, where texts in place of types are evaluated (`type_from_ref`, schema.py:106-117). -/
def schemaNames : Context :=
  [(c!"JsonArray", .array), (c!"JsonObject", .object), (c!"JsonType", jsonType), (c!"StrictJsonType", strictJsonType)]

/-- `TypeCatalog.get`, schema.py:162-168. -/
def jEntry (t : JTy) : Option JEntry := jCatalog.find? fun e => e.ty.same t

/-- `types_used.setdefault(…)` and `types_used[…] = …`: names and types are the same in all entries. -/
def jUse (used : Context) (n : Str) (t : JTy) : Context := upsert n t used

mutual
/-- `type_to_schema(data_type, force_expand)`, schema.py:282-402, with the names and types entered into `types_used`.  A text in place
of a type is not expanded: `types_used` has the types. -/
def jSchema (cfg : SchemaCfg) (force : Bool) : JTy → Res (Sch × Context)
  | .union ts =>
    (match if force then Option.none else jEntry (.union ts) with
     | some e => .ok (refSch cfg e.identifier, [(e.identifier, .union ts)])
     | Option.none =>
       match jSchemas cfg ts with
       | .error e => .error e
       | .ok (ss, us) => .ok ([(c!"oneOf", .arr (ss.map .obj))], us))
  | .list t =>
    (match if force then Option.none else jEntry (.list t) with
     | some e => .ok (refSch cfg e.identifier, [(e.identifier, .list t)])
     | Option.none =>
       match jSchema cfg false t with
       | .error e => .error e
       | .ok (s, us) => .ok ([(c!"type", js c!"array"), (c!"items", .obj s)], us))
  | .dict t =>
    (match if force then Option.none else jEntry (.dict t) with
     | some e => .ok (refSch cfg e.identifier, [(e.identifier, .dict t)])
     | Option.none =>
       match jSchema cfg false t with
       | .error e => .error e
       | .ok (s, us) => .ok ([(c!"type", js c!"object"), (c!"additionalProperties", .obj s)], us))
  | .fwd n =>
    if force then .error .outOfModel
    else match lookupKey n schemaNames with
      | some t => .ok (refSch cfg n, [(n, t)])
      | Option.none => .ok (refSch cfg n, [])
  | t => match jSimpleSchema t with | some s => .ok (s, []) | Option.none => .error .outOfModel
/-- The members of a union. -/
def jSchemas (cfg : SchemaCfg) : List JTy → Res (List Sch × Context)
  | [] => .ok ([], [])
  | t :: ts =>
    match jSchema cfg false t with
    | .error e => .error e
    | .ok (s, us) => match jSchemas cfg ts with | .error e => .error e | .ok (ss, vs) => .ok (s :: ss, us ++ vs)
end

/-- `_type_to_schema_with_lookup`, schema.py:487-510; the types are not classes, so there are no descriptions (except for `JsonObject`
and `JsonArray`, which are never referred to). -/
def jLookupSchema (cfg : SchemaCfg) (t : JTy) : Res (Sch × Context) :=
  match jEntry t with
  | Option.none => .error .key
  | some e => match jSchema cfg true t with | .error e => .error e | .ok (s, us) => .ok (withExamples cfg (some e.examples) s, us)

/-- The `for` loop of `classdef_to_schema`, schema.py:539-540. -/
def jDefineAll (cfg : SchemaCfg) : Context → Context → List (Str × Sch) → Res (Context × List (Str × Sch))
  | [], used, defined => .ok (used, defined)
  | (n, t) :: r, used, defined =>
    match jLookupSchema cfg t with
    | .error e => .error e
    | .ok (s, us) => jDefineAll cfg r (us.foldl (fun used u => jUse used u.1 u.2) used) (upsert n s defined)

/-- The `while` loop of `classdef_to_schema`, schema.py:529-540, for at most `fuel` rounds. -/
def jDefineLoop (cfg : SchemaCfg) : Nat → Context → List (Str × Sch) → Res (List (Str × Sch))
  | n, used, defined =>
    if defined.length < used.length then
      match n with
      | 0 => .error .outOfModel
      | n + 1 =>
        match jDefineAll cfg (used.filter fun u => (lookupKey u.1 defined).isNone) used defined with
        | .error e => .error e
        | .ok (used', defined') => jDefineLoop cfg n used' defined'
    else .ok defined

/-- `classdef_to_schema`, schema.py:512-546 and 558-591, with the default validator. -/
def jDocument (cfg : SchemaCfg) (t : JTy) : Res Sch :=
  match jSchema cfg false t with
  | .error e => .error e
  | .ok (s, us) =>
    match jDefineLoop cfg (jCatalog.length + 1) (us.foldl (fun used u => jUse used u.1 u.2) []) [] with
    | .error e => .error e
    | .ok defs =>
      let body := updateSch (if defs.isEmpty then [] else [(c!"definitions", .obj ((sortByName defs).map fun d => (d.1, .obj d.2)))]) s
      if cfg.metaOk body then .ok (updateSch [(c!"$schema", js metaSchemaId)] body) else .error .typeError

end Verif
