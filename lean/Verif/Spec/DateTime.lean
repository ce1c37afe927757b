import Verif.Model.DateTime
/-! # Valid dates and times (the ranges documented for Python's `datetime` module) -/
namespace Verif

/-- Gregorian month length. -/
def monthLength (y m : Nat) : Nat :=
  match m with
  | 1 => 31 | 3 => 31 | 5 => 31 | 7 => 31 | 8 => 31 | 10 => 31 | 12 => 31
  | 4 => 30 | 6 => 30 | 9 => 30 | 11 => 30
  | 2 => if (y % 4 = 0 ∧ ¬ y % 100 = 0) ∨ y % 400 = 0 then 29 else 28
  | _ => 0

/-- A date that `datetime.date` can represent. -/
structure PyDate.Valid (d : PyDate) : Prop where
  year : 1 ≤ d.year ∧ d.year ≤ 9999
  day : 1 ≤ d.day ∧ d.day ≤ monthLength d.year d.month

/-- A time of day that `datetime.time` can represent; offsets lie strictly between -24 and +24 hours. -/
structure PyTime.Valid (t : PyTime) : Prop where
  hour : t.hour ≤ 23
  minute : t.minute ≤ 59
  second : t.second ≤ 59
  micro : t.micro ≤ 999999
  off : ∀ o, t.off = some o → -(24 * 3600 * 1000000) < o ∧ o < 24 * 3600 * 1000000

/-- A timestamp that `datetime.datetime` can represent. -/
structure PyDateTime.Valid (d : PyDateTime) : Prop where
  date : d.date.Valid
  time : d.time.Valid

/-- The offset, if any, is zero or amounts to at least a second. -/
def PyTime.Coarse (t : PyTime) : Prop := ∀ o, t.off = some o → o = 0 ∨ 1000000 ≤ o.natAbs

/-- The timestamp carries a time zone. -/
def PyDateTime.Aware (d : PyDateTime) : Prop := ∃ o, d.time.off = some o

end Verif
