import Verif.Model.TypeName
import Verif.Model.Basic
/-!
# Short names of types

`python_type_to_name` (strong_typing/name.py:226-287).  The type of `None` is meant by `TypeExpr.none` (`list[None]` and
`dict[str, None]` have the value `None` as an argument, for which the function raises `TypeError`); literals have values.
-/
namespace Verif

/-- `python_type_to_name(t)` without `force` (strong_typing/name.py:233-243, 283-287). -/
def TypeExpr.shortName : TypeExpr → Res Str
  | .annotated t ms =>
    match auxExact t ms with
    | some a => .ok a.name
    | Option.none => TypeExpr.shortName t
  | .none => .ok c!"NoneType"
  | .any => .ok c!"Any"
  | .named n => .ok n
  | .generic o ts => if ts.isEmpty then .ok o else .error .typeError
  | .union _ => .error .typeError
  | .literal _ => .error .typeError
  | .ellipsis => .error .typeError
  | .argList _ => .error .typeError

/-- The names of several types, one after the other. -/
def shortNames : List TypeExpr → Res (List Str)
  | [] => .ok []
  | t :: ts => do
    let n ← t.shortName
    let ns ← shortNames ts
    .ok (n :: ns)

/-- `python_type_to_name` of a type with a single argument. -/
def prefixed1 (pre : Str) : List TypeExpr → Res Str
  | [t] => do
    let n ← t.shortName
    .ok (pre ++ n)
  | _ => .error .valueError

/-- Branches for generic types (strong_typing/name.py:245-274); the names of the two arguments of `dict` are found in their order. -/
def genericName (o : Str) (ts : List TypeExpr) : Res Str :=
  if o = c!"dict" then
    match ts with
    | [k, v] => do
      let kn ← k.shortName
      let vn ← v.shortName
      .ok (c!"Dict__" ++ (kn ++ (c!"__" ++ vn)))
    | _ => .error .valueError
  else if o = c!"list" then prefixed1 c!"List__" ts
  else if o = c!"set" then prefixed1 c!"Set__" ts
  else if o = c!"frozenset" then prefixed1 c!"FrozenSet__" ts
  else if o = c!"tuple" then do
    let ns ← shortNames ts
    .ok (c!"Tuple__" ++ joinStr c!"__" ns)
  else if o = c!"type" then prefixed1 c!"Type__" ts
  else if ts.isEmpty then .ok o
  else .error .typeError

/-- Branches for unions (strong_typing/name.py:275-281): `is_type_optional(data_type, strict=True)` as in `optionalArgs`, and
`unwrap_optional_type` leaves out `type(None)` (strong_typing/inspection.py:319-322). -/
def unionName (ts : List TypeExpr) : Res Str :=
  if optionalArgs ts then prefixed1 c!"Optional__" (ts.filter fun t => !t.isNone)
  else do
    let ns ← shortNames ts
    .ok (c!"Union__" ++ joinStr c!"__" ns)

/-- `python_type_to_name(t, force=force)` (strong_typing/name.py:226-287); `force` is not passed on. -/
def TypeExpr.pyName (force : Bool) (t : TypeExpr) : Res Str :=
  if force then
    match t with
    | .generic o ts => genericName o ts
    | .union ts => unionName ts
    | _ => t.shortName
  else t.shortName

end Verif
