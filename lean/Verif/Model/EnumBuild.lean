import Verif.Model.Core
/-!
# Enumerations created at run time

`enum.Enum(name, values)` and `enum.unique` of CPython 3.11 (Lib/enum.py), `extend_enum` (strong_typing/inspection.py) and
the enumerations made from string schemas (strong_typing/classdef.py).  Values are strings, integers, booleans, floats other
than NaN, or `None`.
-/
namespace Verif

/-- `enum._is_dunder`, Lib/enum.py:48-57. -/
def isDunder (n : Str) : Bool :=
  4 < n.length && n.take 2 = c!"__" && endsWith c!"__" n && n[2]? ≠ some '_' && n[n.length - 3]? ≠ some '_'

/-- `enum._is_sunder`, Lib/enum.py:59-68. -/
def isSunder (n : Str) : Bool :=
  2 < n.length && n.take 1 = c!"_" && endsWith c!"_" n && n[1]? ≠ some '_' && n[n.length - 2]? ≠ some '_'

/-- `enum._is_private`, Lib/enum.py:79-91; the comparison of a string with a list in the third line of the condition is
always true. -/
def isPrivate (cls n : Str) : Bool :=
  let pattern := '_' :: cls ++ c!"__"
  pattern.length < n.length && n.take pattern.length = pattern && !endsWith c!"__" n

/-- Names in single underscores with a meaning of their own, Lib/enum.py; not modelled. -/
def enumSunders : List Str :=
  [c!"_order_", c!"_generate_next_value_", c!"_numeric_repr_", c!"_missing_", c!"_ignore_", c!"_iter_member_",
   c!"_iter_member_by_value_", c!"_iter_member_by_def_"]

/-- `_EnumDict.__setitem__`, Lib/enum.py, for plain values: is the name used for a member? -/
def isMember (cls n : Str) : Res Bool :=
  if isPrivate cls n then .ok false
  else if isSunder n then (if n ∈ enumSunders then .error .outOfModel else .error .valueError)
  else if isDunder n then .ok false
  else .ok true

/-- The loop of `EnumType._create_` over a mapping, Lib/enum.py: the members in order. -/
def memberNames (cls : Str) : List (Str × Scalar) → Res (List (Str × Scalar))
  | [] => .ok []
  | (n, v) :: r =>
    match isMember cls n with
    | .error e => .error e
    | .ok b =>
      match memberNames cls r with
      | .error e => .error e
      | .ok ms => .ok (if b then (n, v) :: ms else ms)

/-- Canonical members and aliases (`_proto_member.__set_name__`, Lib/enum.py): a member with the value of an earlier one is
an alias. -/
def splitAliases : List (Str × Scalar) → List (Str × Scalar) → List (Str × Scalar) × List (Str × Scalar)
  | seen, [] => (seen, [])
  | seen, (n, v) :: r =>
    if seen.any (fun m => m.2.pyEq v) then
      let (cs, as) := splitAliases seen r
      (cs, (n, v) :: as)
    else splitAliases (seen ++ [(n, v)]) r

/-- `enum.Enum(cls, values)`: canonical members and aliases.  The names `mro` and the empty string are invalid,
Lib/enum.py:518-523. -/
def pyEnum (cls : Str) (values : List (Str × Scalar)) : Res (List (Str × Scalar) × List (Str × Scalar)) :=
  match memberNames cls values with
  | .error e => .error e
  | .ok ms => if ms.any (fun m => m.1 = c!"mro" || m.1 = []) then .error .valueError else .ok (splitAliases [] ms)

/-- `enum.unique(enum.Enum(cls, values))`: `ValueError` if there is an alias. -/
def pyEnumUnique (cls : Str) (values : List (Str × Scalar)) : Res (List (Str × Scalar)) :=
  match pyEnum cls values with
  | .error e => .error e
  | .ok (ms, as) => if as.isEmpty then .ok ms else .error .valueError

/-- `d.update(pairs)`. -/
def updateAll [DecidableEq κ] (d : List (κ × α)) : List (κ × α) → List (κ × α)
  | [] => d
  | (k, v) :: r => updateAll (upsert k v d) r

/-- `extend_enum(source)(extend)`, inspection.py:238-262: the members of the result.  `name` is `extend.__name__`. -/
def extendEnum (name : Str) (source extend : List (Str × Scalar)) : Res (List (Str × Scalar)) :=
  pyEnumUnique name (updateAll (updateAll [] source) extend)

/-- `\w` in a regular expression for `str`: ASCII letters, digits and underscore; `uni` decides for other characters. -/
def isWordChar (uni : Char → Bool) (c : Char) : Bool :=
  if c.toNat < 128 then isDig c || (65 ≤ c.toNat && c.toNat ≤ 90) || (97 ≤ c.toNat && c.toNat ≤ 122) || c = '_'
  else uni c

/-- `enum_safe_name`, classdef.py:141-147. -/
def enumSafeName (uni : Char → Bool) (name : Str) : Str :=
  let name := name.map (fun c => if isWordChar uni c then c else '_')
  if name.take 2 = c!"__" || (name.take 1 = c!"_" && endsWith c!"_" name) then 'v' :: name else name

/-- The enumeration made from a string schema with `enum`, classdef.py:296-303 and `enum_values_to_type`,
classdef.py:150-164. -/
def enumFromSchema (uni : Char → Bool) (context : Str) (values : List Str) : Res (List (Str × Scalar)) :=
  pyEnumUnique context (updateAll [] (values.map (fun v => (enumSafeName uni v, Scalar.str v))))

end Verif
