import Verif.Model.ClassBuild
/-!
# What `schema_to_type` leaves behind, also after an exception, strong_typing/classdef.py

The functions of Model/ClassBuild once more, with the program and the module as they are when the function returns or raises.  Steps
that set an attribute of the module do so last, so that an exception in them leaves nothing behind (`settle`).

Left out: as in Model/ClassBuild.
-/
namespace Verif

/-- A step that leaves nothing behind if it fails: `setattr` is the last of its effects, classdef.py:150-164, 346-358. -/
def settle {α : Type} (st : BuildSt) : Res (α × BuildSt) → Res α × BuildSt
  | .error e => (.error e, st)
  | .ok (x, st') => (.ok x, st')

mutual
/-- `node_to_typedef`, classdef.py:202-367. -/
def nodeLeft (cfg : BuildCfg) : TNode → Str → BuildSt → Res TypeDef × BuildSt
  | .ref r, _, st => settle st (refTypedef cfg st r)
  | .bool c d, _, st => settle st (boolTypedef st c d)
  | .int f c d e lo hi, _, st => settle st (intTypedef st { format := f, const := c, enum := e, minimum := lo, maximum := hi } d)
  | .num f c d lo hi m, _, st => settle st (numTypedef st f c d lo hi m)
  | .str _ (some s) _ _ _, _, st => (.ok ⟨.literal [.str s], Option.none⟩, st)
  -- the enumeration is made before the default value is read, classdef.py:296-311
  | .str f Option.none d e m, ctx, st =>
    (match stringType cfg ctx st f e m with
     | .error err => (.error err, st)
     | .ok (t, st') => settle st' (typeWithDefault st' t (d.map Json.str)))
  | .arr n, ctx, st =>
    (match nodeLeft cfg n ctx st with
     | (.error e, st') => (.error e, st')
     | (.ok d, st') => settle st' (listTypedef d st'))
  | .obj Option.none _ _, _, st => (.error .outOfModel, st)
  | .obj (some ps) a req, ctx, st =>
    if a ≠ some false then (.error .typeError, st)
    else
      (match propsLeft cfg ps ctx (req.getD []) st with
       | (.error e, st') => (.error e, st')
       | (.ok fs, st') => settle st' (makeDataclass cfg st' ctx (defaultsLast fs)))
  | .oneOf ns, ctx, st =>
    (match membersLeft cfg ns ctx st with
     | (.error e, st') => (.error e, st')
     | (.ok ds, st') => settle st' (unionTypedef ds st'))
/-- The loop over the properties of an object, classdef.py:334-343. -/
def propsLeft (cfg : BuildCfg) : List (Str × TNode) → Str → List Str → BuildSt → Res (List FieldDef) × BuildSt
  | [], _, _, st => (.ok [], st)
  | (name, n) :: r, ctx, req, st =>
    match nodeLeft cfg n (propContext ctx name) st with
    | (.error e, st') => (.error e, st')
    | (.ok d, st') =>
      match propField req name d with
      | .error e => (.error e, st')
      | .ok f =>
        match propsLeft cfg r ctx req st' with
        | (.error e, st'') => (.error e, st'')
        | (.ok fs, st'') => (.ok (f :: fs), st'')
/-- The loop over the members of a union, classdef.py:361. -/
def membersLeft (cfg : BuildCfg) : List TNode → Str → BuildSt → Res (List TypeDef) × BuildSt
  | [], _, st => (.ok [], st)
  | n :: r, ctx, st =>
    match nodeLeft cfg n ctx st with
    | (.error e, st') => (.error e, st')
    | (.ok d, st') =>
      match membersLeft cfg r ctx st' with
      | (.error e, st'') => (.error e, st'')
      | (.ok ds, st'') => (.ok (d :: ds), st'')
end

/-- The loop over the definitions, classdef.py:178-184. -/
def definitionsLeft (cfg : BuildCfg) : List (Str × TNode) → BuildSt → Res Unit × BuildSt
  | [], st => (.ok (), st)
  | (name, n) :: r, st =>
    match nodeLeft cfg n name st with
    | (.error e, st') => (.error e, st')
    | (.ok d, st') =>
      if d.dflt.isSome then (.error .typeError, st')
      else match setModule cfg st' d.ty with
        | .error e => (.error e, st')
        | .ok st'' => definitionsLeft cfg r { st'' with attrs := upsert name d.ty st''.attrs }

/-- `schema_to_type`, classdef.py:167-186. -/
def schemaLeft (cfg : BuildCfg) (className : Str) (schema : Json) (st : BuildSt) : Res Ty × BuildSt :=
  match readTop schema with
  | .error e => (.error e, st)
  | .ok top =>
    match definitionsLeft cfg (top.definitions.getD []) st with
    | (.error e, st') => (.error e, st')
    | (.ok _, st') =>
      match nodeLeft cfg top.node className st' with
      | (.error e, st'') => (.error e, st'')
      | (.ok d, st'') => (.ok d.ty, st'')

end Verif
