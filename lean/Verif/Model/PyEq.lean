import Verif.Model.Core
/-!
# Hashing and equality of Python objects, as far as sets of deserialized values need them
-/
namespace Verif

/-- Days in the months before month `m` of year `y` (`_days_before_month`). -/
def daysBeforeMonth (y : Nat) : Nat → Nat
  | 0 => 0
  | m + 1 => (if m = 0 then 0 else daysBeforeMonth y m + daysInMonth y m)

/-- `date.toordinal()`. -/
def dateOrdinal (d : PyDate) : Nat := daysBeforeYear d.year + daysBeforeMonth d.year d.month + d.day

/-- Microseconds since midnight. -/
def PyTime.micros (t : PyTime) : Nat := ((t.hour * 60 + t.minute) * 60 + t.second) * 1000000 + t.micro

/-- `==` on `datetime`: naive and aware never equal, aware ones compare as instants. -/
def dateTimeEq (a b : PyDateTime) : Bool :=
  match a.time.off, b.time.off with
  | none, none => a = b
  | some o, some p =>
    ((dateOrdinal a.date * 86400000000 + a.time.micros : Nat) : Int) - o =
      ((dateOrdinal b.date * 86400000000 + b.time.micros : Nat) : Int) - p
  | _, _ => false

/-- `==` on `time`: naive and aware never equal; aware ones with different offsets compare seconds after subtracting the
whole seconds of the offset, then microseconds (CPython Modules/_datetimemodule.c `time_richcompare`). -/
def timeEq (a b : PyTime) : Bool :=
  match a.off, b.off with
  | none, none => a = b
  | some o, some p =>
    if o = p then a = b
    else (((a.hour * 60 + a.minute) * 60 + a.second : Nat) : Int) - o / 1000000 =
        (((b.hour * 60 + b.minute) * 60 + b.second : Nat) : Int) - p / 1000000 && a.micro = b.micro
  | _, _ => false

/-- Class kind of class number `c`. -/
def Env.kind (env : Env) (c : Nat) : Option ClassKind := (env.classes[c]?).map (·.kind)

mutual
/-- Does `hash(v)` succeed?  Data classes with the default `eq=True` are hashable iff frozen; other classes inherit
`object.__hash__`. -/
def hashable (env : Env) : Val → Bool
  | .list _ | .dict _ | .set _ => false
  | .tuple vs => hashableL env vs
  | .obj c fs =>
    match env.kind c with
    | some (.dataclass frozen) => frozen && hashableF env fs
    | some (.namedTuple _) => hashableF env fs
    | _ => true
  | _ => true
def hashableL (env : Env) : List Val → Bool
  | [] => true
  | v :: vs => hashable env v && hashableL env vs
def hashableF (env : Env) : List (Str × Val) → Bool
  | [] => true
  | (_, v) :: fs => hashable env v && hashableF env fs
end

/-- Scalar view of a value. -/
def Val.scalar : Val → Option Scalar
  | .none => some .none
  | .bool b => some (.bool b)
  | .int i => some (.int i)
  | .float f => some (.float f)
  | .str s => some (.str s)
  | _ => Option.none

mutual
/-- Python `==` on two hashable objects that are not the same object.  Instances of classes that do not define `__eq__`
are never equal to another object; named tuples compare like tuples. -/
def valEq (env : Env) : Val → Val → Bool
  | .bytes a, w => match w with | .bytes b => a = b | _ => false
  | .datetime a, w => match w with | .datetime b => dateTimeEq a b | _ => false
  | .date a, w => match w with | .date b => a = b | _ => false
  | .time a, w => match w with | .time b => timeEq a b | _ => false
  | .timedelta a, w => match w with | .timedelta b => a = b | _ => false
  | .uuid a, w => match w with | .uuid b => a = b | _ => false
  | .ipv4 a, w => match w with | .ipv4 b => a = b | _ => false
  | .ipv6 a s, w => match w with | .ipv6 b t => a = b && s = t | _ => false
  | .enum e m, w => match w with | .enum f n => e = f && m = n | _ => false
  | .tuple vs, w =>
    match w with
    | .tuple ws => valEqL env vs ws
    | .obj d gs => (match env.kind d with | some (.namedTuple _) => valEqL env vs (gs.map (·.2)) | _ => false)
    | _ => false
  | .obj c fs, w =>
    match env.kind c, w with
    | some (.namedTuple _), .tuple ws => valEqF env fs ws
    | some (.namedTuple _), .obj d gs =>
      (match env.kind d with | some (.namedTuple _) => valEqF env fs (gs.map (·.2)) | _ => false)
    | some (.dataclass _), .obj d gs => c = d && valEqF env fs (gs.map (·.2))
    | _, _ => false
  | v, w => match v.scalar, w.scalar with | some a, some b => a.pyEq b | _, _ => false
def valEqL (env : Env) : List Val → List Val → Bool
  | [], [] => true
  | v :: vs, w :: ws => valEq env v w && valEqL env vs ws
  | _, _ => false
def valEqF (env : Env) : List (Str × Val) → List Val → Bool
  | [], [] => true
  | (_, v) :: vs, w :: ws => valEq env v w && valEqF env vs ws
  | _, _ => false
end

/-- `s.add(v)` on a set in insertion order: `TypeError` if `v` is not hashable, no change if an equal member exists. -/
def setAdd (env : Env) (acc : List Val) (v : Val) : Res (List Val) :=
  if hashable env v then .ok (if acc.any (fun w => valEq env v w) then acc else acc ++ [v])
  else .error .typeError

end Verif
