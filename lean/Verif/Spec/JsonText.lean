import Verif.Model.JsonText
/-!
# What it means for JSON text to be compact, and what is assumed of the text of floats
-/
namespace Verif

/-- Where a position in a JSON text is: outside string literals, inside one, or after a backslash inside one. -/
inductive TextMode where
  | out | inside | esc
  deriving DecidableEq

/-- Reading one character of a JSON text (RFC 8259, section 7): a quote opens and closes a literal, a backslash protects one
character. -/
def TextMode.next : TextMode → Char → TextMode
  | .out, c => if c = '"' then .inside else .out
  | .inside, c => if c = '"' then .out else if c = '\\' then .esc else .inside
  | .esc, _ => .inside

/-- The state after a text. -/
def TextMode.after (m : TextMode) (s : Str) : TextMode := s.foldl TextMode.next m

/-- `c` occurs in the text outside the string literals (the quotes count as part of the literals). -/
def OutsideLiterals (s : Str) (c : Char) : Prop :=
  ∃ a b, s = a ++ c :: b ∧ TextMode.out.after a = .out ∧ c ≠ '"'

/-- Floats anywhere in a JSON value. -/
inductive Json.HasFloat (f : PyFloat) : Json → Prop
  | float : Json.HasFloat f (.float f)
  | arr {x xs} : x ∈ xs → Json.HasFloat f x → Json.HasFloat f (.arr xs)
  | obj {kv kvs} : kv ∈ kvs → Json.HasFloat f kv.2 → Json.HasFloat f (.obj kvs)

/-- Integers anywhere in a JSON value. -/
inductive Json.HasInt (i : Int) : Json → Prop
  | int : Json.HasInt i (.int i)
  | arr {x xs} : x ∈ xs → Json.HasInt i x → Json.HasInt i (.arr xs)
  | obj {kv kvs} : kv ∈ kvs → Json.HasInt i kv.2 → Json.HasInt i (.obj kvs)

/-- Text of a number with a fraction or an exponent, as `float.__repr__` writes it: sign, digits without superfluous zero, then
a fraction, an exponent, or both. -/
structure FloatSyntax (s : Str) : Prop where
  parts : ∃ (neg : Bool) (ds frac exp : Str),
    s = (if neg then ['-'] else []) ++ ds ++ frac ++ exp ∧
    (ds ≠ [] ∧ (∀ c ∈ ds, isDig c = true) ∧ (ds.head? = some '0' → ds = ['0'])) ∧
    (frac = [] ∨ ∃ r, frac = '.' :: r ∧ r ≠ [] ∧ ∀ c ∈ r, isDig c = true) ∧
    (exp = [] ∨ ∃ sg r, exp = 'e' :: sg :: r ∧ (sg = '+' ∨ sg = '-') ∧ r ≠ [] ∧ ∀ c ∈ r, isDig c = true) ∧
    (frac ≠ [] ∨ exp ≠ [])

/-- What the theorems assume of the Python runtime about a finite float: its text is a JSON number with fraction or exponent
and reading the text gives the float back. -/
structure FloatIO.Faithful (io : FloatIO) (f : PyFloat) : Prop where
  syn : FloatSyntax (io.repr f)
  inv : io.read (io.repr f) = f

/-- The assumption for every finite float of a JSON value. -/
def FloatIO.FaithfulOn (io : FloatIO) (j : Json) : Prop :=
  ∀ neg m e, Json.HasFloat (.fin neg m e) j → io.Faithful (.fin neg m e)

/-- CPython converts only integers of at most 4300 digits to text. -/
def Json.ShortInts (j : Json) : Prop := ∀ i, Json.HasInt i j → i.natAbs < 10 ^ 4300

end Verif
