import Verif.Model.StrOps
/-!
# UUIDs

`UUIDSerializer` (strong_typing/serializer.py:152-154) calls `str(uuid)`, `UUIDDeserializer`
(strong_typing/deserializer.py:241-247) calls `uuid.UUID(data)`.  Modelled after CPython 3.11 `uuid.py:174-179` (constructor from a
hexadecimal string) and `uuid.py:280-283` (`__str__`).  A UUID is its 128-bit integer.
-/
namespace Verif

/-- `UUID.__str__`. -/
def uuidStr (n : Nat) : Str :=
  let hex := hexPad 32 n
  hex.take 8 ++ ['-'] ++ (hex.drop 8).take 4 ++ ['-'] ++ (hex.drop 12).take 4 ++ ['-'] ++ (hex.drop 16).take 4 ++ ['-']
    ++ hex.drop 20

/-- Digits of `int(s, 16)` after sign and prefix: single underscores are allowed between digits. -/
def hexDigits : Bool → Nat → Str → Option Nat
  | prev, acc, [] => if prev then some acc else none
  | prev, acc, c :: r =>
    if isHex c then hexDigits true (acc * 16 + hexVal c) r
    else if c = '_' ∧ prev then hexDigits false acc r
    else none

/-- C `isspace`. -/
def isSpace (c : Char) : Bool := c = ' ' || (9 ≤ c.toNat && c.toNat ≤ 13)

/-- Optional plus sign in `int(s, 16)`. -/
def dropPlus : Str → Str
  | '+' :: r => r
  | s => s

/-- Optional prefix `0x` in `int(s, 16)`, possibly followed by one underscore. -/
def dropHexPrefix : Str → Str
  | '0' :: 'x' :: '_' :: r => r
  | '0' :: 'X' :: '_' :: r => r
  | '0' :: 'x' :: r => r
  | '0' :: 'X' :: r => r
  | s => s

/-- `int(s, 16)` for a `str` without a minus sign, on ASCII strings (CPython `PyLong_FromString`).  Non-ASCII strings are
outside the model: CPython also accepts other Unicode digits and spaces. -/
def pyIntHex (s : Str) : Res Nat :=
  if s.all (fun c => c.toNat < 128) then
    match hexDigits false 0 (dropHexPrefix (dropPlus (stripBy isSpace s))) with
    | some n => .ok n
    | none => .error .valueError
  else .error .outOfModel

/-- `uuid.UUID(data)`. -/
def uuidParse (s : Str) : Res Nat :=
  let hex := removeSub c!"uuid:" (removeSub c!"urn:" s)
  let hex := (stripBy (fun c => c = '{' || c = '}') hex).filter (· ≠ '-')
  if hex.length ≠ 32 then .error .valueError else pyIntHex hex

end Verif
