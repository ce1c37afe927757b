import Verif.Model.Basic
/-!
# Independent grammar of durations

The grammar documented in strong_typing/deserializer.py:187-195: optional weeks, days, hours, minutes, seconds and
a sub-second fraction.  Nothing here refers to the scanner.
-/
namespace Verif

/-- A numeral: one or more ASCII digits. -/
def IsNumeral (s : Str) : Prop := s ≠ [] ∧ ∀ c ∈ s, isDig c = true

/-- Components of a duration, as numerals. -/
structure DurSyntax where
  weeks : Option Str
  days : Option Str
  /-- `none`: no `T` part. -/
  time : Option (Option Str × Option Str × Option (Str × Option Str))

/-- Number followed by its unit letter; nothing if absent. -/
def unitText (u : Char) : Option Str → Str
  | none => []
  | some ds => ds ++ [u]

/-- Seconds with optional fraction. -/
def secText : Option (Str × Option Str) → Str
  | none => []
  | some (ds, none) => ds ++ ['S']
  | some (ds, some fs) => ds ++ ['.'] ++ fs ++ ['S']

/-- The text of a duration. -/
def DurSyntax.text (p : DurSyntax) : Str :=
  ['P'] ++ unitText 'W' p.weeks ++ unitText 'D' p.days ++
    (match p.time with
     | none => []
     | some (h, m, s) => ['T'] ++ unitText 'H' h ++ unitText 'M' m ++ secText s)

/-- All numerals of the text that denote whole units. -/
def DurSyntax.numerals (p : DurSyntax) : List Str :=
  p.weeks.toList ++ p.days.toList ++
    (match p.time with
     | none => []
     | some (h, m, s) => h.toList ++ m.toList ++ (s.map (·.1)).toList)

/-- The fraction digits, if any. -/
def DurSyntax.fraction (p : DurSyntax) : Option Str :=
  p.time.bind (fun t => t.2.2.bind (·.2))

/-- Components are numerals and the fraction has one to nine digits. -/
def DurSyntax.Wf (p : DurSyntax) : Prop :=
  (∀ n ∈ p.numerals, IsNumeral n) ∧ (∀ f, p.fraction = some f → IsNumeral f ∧ f.length ≤ 9)

/-- Value of an optional numeral. -/
def optVal : Option Str → Nat
  | none => 0
  | some s => decVal s

/-- Value of an optional fraction in units of `10⁻⁹`: `k` digits `f` count `f · 10^(9-k)`. -/
def fracVal : Option Str → Nat
  | none => 0
  | some f => decVal f * 10 ^ (9 - f.length)

/-- Denoted length in units of `10⁻⁹` seconds: the sum of all components. -/
def DurSyntax.nanos (p : DurSyntax) : Nat :=
  (optVal p.weeks * 604800 + optVal p.days * 86400 +
    (match p.time with
     | none => 0
     | some (h, m, s) => optVal h * 3600 + optVal m * 60 + optVal (s.map (·.1)))) * 1000000000 +
  fracVal p.fraction

end Verif
