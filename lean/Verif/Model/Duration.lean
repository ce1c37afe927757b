import Verif.Model.Basic
/-!
# Durations (`datetime.timedelta`)

Mirrors `TimeDeltaSerializer` (strong_typing/serializer.py:103-149) and `TimeDeltaDeserializer`
(strong_typing/deserializer.py:187-238).
-/
namespace Verif

/-- A `datetime.timedelta` in CPython's normalised representation. -/
structure TimeDelta where
  days : Int
  seconds : Nat
  micros : Nat
  deriving DecidableEq, Repr

/-- Invariant that CPython maintains for every `timedelta` object (documented ranges of `timedelta`). -/
def TimeDelta.Valid (d : TimeDelta) : Prop :=
  -999999999 ≤ d.days ∧ d.days ≤ 999999999 ∧ d.seconds < 86400 ∧ d.micros < 1000000

instance (d : TimeDelta) : Decidable d.Valid := by unfold TimeDelta.Valid; infer_instance

/-- Total length in microseconds: determines a `timedelta` (Python `d // timedelta(microseconds=1)`). -/
def TimeDelta.total (d : TimeDelta) : Int := (d.days * 86400 + d.seconds) * 1000000 + d.micros

/-- serializer.py:134-139, the choice of the fractional part. -/
def tdFraction (micros : Nat) : Str :=
  if micros % 1000 ≠ 0 then '.' :: decPad 6 micros
  else if micros / 1000 ≠ 0 then '.' :: decPad 3 (micros / 1000)
  else []

/-- `TimeDeltaSerializer.iso8601_time_duration`, serializer.py:118-149. -/
def tdTime (total micros : Nat) : Str :=
  let hours := total / 3600
  let remaining := total % 3600
  let minutes := remaining / 60
  let seconds := remaining % 60
  let fractional := tdFraction micros
  if hours ≠ 0 then
    ['T'] ++ decStr hours ++ ['H'] ++ decStr minutes ++ ['M'] ++ decStr seconds ++ fractional ++ ['S']
  else if minutes ≠ 0 then ['T'] ++ decStr minutes ++ ['M'] ++ decStr seconds ++ fractional ++ ['S']
  else ['T'] ++ decStr seconds ++ fractional ++ ['S']

/-- `TimeDeltaSerializer.generate`, serializer.py:104-116. -/
def tdSerialize (d : TimeDelta) : Str :=
  let dayComponent := if d.days ≠ 0 then intStr d.days ++ ['D'] else []
  let timeComponent := if d.seconds ≠ 0 ∨ d.micros ≠ 0 then tdTime d.seconds d.micros else []
  if dayComponent ≠ [] ∨ timeComponent ≠ [] then ['P'] ++ dayComponent ++ timeComponent
  else c!"PT0S"

/-- One group `(?:(?P<x>\d+)U)?` of the regular expression, deserializer.py:202-206.  `\d+` is greedy and the
unit letter is not a digit, so backtracking never finds another match. -/
def optNum (u : Char) (s : Str) : Option Str × Str :=
  let ds := s.takeWhile isDig
  match s.dropWhile isDig with
  | c :: rest => if ds ≠ [] ∧ c = u then (some ds, rest) else (none, s)
  | [] => (none, s)

/-- The group `(?:(?P<seconds>\d+)(?:\.(?P<fractional>\d{1,9}))?S)?`, deserializer.py:207. -/
def optSec (s : Str) : Option (Str × Option Str) × Str :=
  let ds := s.takeWhile isDig
  if ds = [] then (none, s) else
  match s.dropWhile isDig with
  | 'S' :: rest => (some (ds, none), rest)
  | '.' :: r =>
    let fs := r.takeWhile isDig
    match r.dropWhile isDig with
    | 'S' :: rest => if 1 ≤ fs.length ∧ fs.length ≤ 9 then (some (ds, some fs), rest) else (none, s)
    | _ => (none, s)
  | _ => (none, s)

/-- `match.groupdict()` of the duration pattern. -/
structure DurMatch where
  weeks : Option Str
  days : Option Str
  hours : Option Str
  minutes : Option Str
  seconds : Option (Str × Option Str)
  deriving DecidableEq, Repr

/-- `$` without `re.MULTILINE`: end of string, or just before a final newline. -/
def atEnd (s : Str) : Bool := s = [] || s = ['\n']

/-- `pattern.match(data)`, deserializer.py:199-212. -/
def durScan : Str → Option DurMatch
  | 'P' :: r =>
    let (w, r) := optNum 'W' r
    let (d, r) := optNum 'D' r
    match r with
    | 'T' :: r =>
      let (h, r) := optNum 'H' r
      let (m, r) := optNum 'M' r
      let (s, r) := optSec r
      if atEnd r then some ⟨w, d, h, m, s⟩ else none
    | r => if atEnd r then some ⟨w, d, none, none, none⟩ else none
  | _ => none

/-- `int(s)` for a non-empty string of ASCII digits: CPython refuses more than 4300 digits
(`sys.int_info.default_max_str_digits`) with `ValueError`. -/
def pyIntDec (s : Str) : Res Nat := if s.length ≤ 4300 then .ok (decVal s) else .error .valueError

/-- `int(parts[x]) if parts[x] else 0`, deserializer.py:221-227. -/
def optInt : Option Str → Res Nat
  | none => .ok 0
  | some s => pyIntDec s

/-- `parts["fractional"].ljust(9, "0")` read as an integer, deserializer.py:230. -/
def fracNanos : Option Str → Nat
  | none => 0
  | some f => decVal (f ++ List.replicate (9 - f.length) '0')

/-- `datetime.timedelta(days=.., seconds=.., microseconds=..)` on naturals: normalisation and range check of CPython. -/
def mkTimeDelta (days seconds micros : Nat) : Res TimeDelta :=
  let s := seconds + micros / 1000000
  let d := days + s / 86400
  if d ≤ 999999999 then .ok ⟨d, s % 86400, micros % 1000000⟩ else .error .overflow

/-- `TimeDeltaDeserializer.parse` on a string, deserializer.py:199-238. -/
def tdParse (s : Str) : Res TimeDelta :=
  match durScan s with
  | none => .error .jsonValue
  | some p => do
    let weeks ← optInt p.weeks
    let days ← optInt p.days
    let hours ← optInt p.hours
    let minutes ← optInt p.minutes
    let seconds ← optInt (p.seconds.map (·.1))
    let nanos := fracNanos (p.seconds.bind (·.2))
    if nanos % 1000 ≠ 0 then .error .jsonValue
    else mkTimeDelta (7 * weeks + days) (3600 * hours + 60 * minutes + seconds) (nanos / 1000)

end Verif
