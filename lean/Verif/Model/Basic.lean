/-!
# Basic notions shared by all models

Python `str` values are modelled as lists of characters, exceptions as values of `Err`.
-/
namespace Verif

/-- A Python `str`: a finite sequence of characters. -/
abbrev Str := List Char

/-- Character-list literal: `c!"abc"` is `['a', 'b', 'c']`. -/
macro:max "c!" s:str : term => do
  let cs := s.getString.toList.map (fun c => Lean.Syntax.mkCharLit c)
  `(([$(cs.toArray),*] : List Char))

/-- Exception classes that the modelled code can raise (messages are not modelled).
`jsonKey`, `jsonType`, `jsonValue` are the library's own classes (strong_typing/exception.py:8-17);
the others are Python built-ins.  `valueError` includes its subclasses `binascii.Error` and
`ipaddress.AddressValueError`.  `outOfModel` marks inputs on which the model makes no statement. -/
inductive Err where
  | jsonKey | jsonType | jsonValue
  | typeError | valueError | overflow | attribute | key | lookup | runtime | recursion | name
  | outOfModel
  deriving DecidableEq, Repr

/-- Results of functions that may raise. -/
abbrev Res (α : Type) := Except Err α

instance instDecEqExcept {ε α : Type} [DecidableEq ε] [DecidableEq α] : DecidableEq (Except ε α)
  | .ok a, .ok b => if h : a = b then isTrue (h ▸ rfl) else isFalse (fun e => h (by cases e; rfl))
  | .error a, .error b => if h : a = b then isTrue (h ▸ rfl) else isFalse (fun e => h (by cases e; rfl))
  | .ok _, .error _ => isFalse (fun e => by cases e)
  | .error _, .ok _ => isFalse (fun e => by cases e)

/-! ### Digits -/

/-- Digit character for `0 ≤ d < 16`, lower case (Python `'%x' % d`, `str(d)`). -/
def digitChar (d : Nat) : Char := if d < 10 then Char.ofNat (48 + d) else Char.ofNat (87 + d)

/-- ASCII decimal digit test (regular expression class `\d` with `re.ASCII`). -/
def isDig (c : Char) : Bool := 48 ≤ c.toNat && c.toNat ≤ 57

/-- Value of a decimal or hexadecimal digit character in either case. -/
def hexVal (c : Char) : Nat :=
  if c.toNat ≤ 57 then c.toNat - 48
  else if c.toNat ≤ 70 then c.toNat - 55
  else c.toNat - 87

/-- ASCII hexadecimal digit test (`ipaddress._BaseV6._HEX_DIGITS`). -/
def isHex (c : Char) : Bool :=
  isDig c || (65 ≤ c.toNat && c.toNat ≤ 70) || (97 ≤ c.toNat && c.toNat ≤ 102)

/-- Digits of `n` in base `b`, most significant first; `fuel > n` suffices. -/
def toBaseF (b : Nat) : Nat → Nat → Str
  | 0, _ => []
  | f + 1, n => if n < b then [digitChar n] else toBaseF b f (n / b) ++ [digitChar (n % b)]

/-- Python `str(n)` for a natural number. -/
def decStr (n : Nat) : Str := toBaseF 10 (n + 1) n

/-- Python `'%x' % n` for a natural number. -/
def hexStr (n : Nat) : Str := toBaseF 16 (n + 1) n

/-- Python `str(n)` for an integer. -/
def intStr : Int → Str
  | .ofNat n => decStr n
  | .negSucc n => '-' :: decStr (n + 1)

/-- Left-pad with zeros to width `w` (Python `%0wd`). -/
def padLeft (w : Nat) (s : Str) : Str := List.replicate (w - s.length) '0' ++ s

/-- Python `'%0wd' % n` for a natural number. -/
def decPad (w n : Nat) : Str := padLeft w (decStr n)

/-- Python `'%0wx' % n` for a natural number. -/
def hexPad (w n : Nat) : Str := padLeft w (hexStr n)

/-- Value of a digit string in base `b`. -/
def baseVal (b : Nat) (s : Str) : Nat := s.foldl (fun a c => a * b + hexVal c) 0

/-- Value of a string of ASCII decimal digits (Python `int(s)`). -/
def decVal (s : Str) : Nat := baseVal 10 s

end Verif
