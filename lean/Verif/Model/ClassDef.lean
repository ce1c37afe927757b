import Verif.Model.Core
/-!
# Types from schemas: strong_typing/classdef.py
-/
namespace Verif

/-! ### Integers -/

/-- The types that `node_to_typedef` gives to an integer schema. -/
inductive IntType where
  | int16 | int32 | int64 | int
  | lit (i : Int)
  deriving DecidableEq, Repr

/-- `integer_range_to_type`, classdef.py:132-138, for integer bounds. -/
def rangeToType (lo hi : Int) : IntType :=
  if -(2 ^ 15) ≤ lo ∧ hi < 2 ^ 15 then .int16
  else if -(2 ^ 31) ≤ lo ∧ hi < 2 ^ 31 then .int32
  else .int64

/-- `JsonSchemaInteger`, classdef.py:45-53, the attributes that matter. -/
structure IntNode where
  format : Option Str := none
  const : Option Int := none
  enum : Option (List Int) := none
  minimum : Option Int := none
  maximum : Option Int := none
  deriving Repr

/-- Python `min(xs)`; `ValueError` for an empty list. -/
def minList : List Int → Res Int
  | [] => .error .valueError
  | x :: xs => .ok (xs.foldl (fun a b => if b < a then b else a) x)

/-- Python `max(xs)`; `ValueError` for an empty list. -/
def maxList : List Int → Res Int
  | [] => .error .valueError
  | x :: xs => .ok (xs.foldl (fun a b => if a < b then b else a) x)

/-- `node_to_typedef` for an integer schema, classdef.py:218-238, without the default value. -/
def intNodeType (n : IntNode) : Res IntType :=
  match n.const with
  | some c => .ok (.lit c)
  | none =>
    if n.format = some c!"int16" then .ok .int16
    else if n.format = some c!"int32" then .ok .int32
    else if n.format = some c!"int64" then .ok .int64
    else
      match n.enum with
      | some vs =>
        (match minList vs with
         | .error e => .error e
         | .ok lo => match maxList vs with
           | .error e => .error e
           | .ok hi => .ok (rangeToType lo hi))
      | none =>
        match n.minimum, n.maximum with
        | some lo, some hi => .ok (rangeToType lo hi)
        | _, _ => .ok .int

end Verif
