import Verif.Model.Core
import Verif.Model.Duration
/-!
# JSON text

`json_dump_string` (strong_typing/serialization.py:102-105) and `json_dump` (strong_typing/serialization.py:108-116) call the
standard library with `ensure_ascii=False`, `check_circular=False` and `separators=(",", ":")`.  Modelled after CPython 3.11
`json/encoder.py` and, for reading text back, `json/decoder.py` and `json/scanner.py`; where the C accelerator `_json` is
stricter than the Python version (digits of `\uXXXX` and of numbers are ASCII), the accelerator is followed.

The decimal text of a finite float is runtime behaviour: `FloatIO` stands for `float.__repr__` and `float(str)`.

Simplified: the recursion limit is ignored; lone surrogates are not characters of the model (`outOfModel`).
-/
namespace Verif

/-- `float.__repr__` of a finite float and `float(text)`. -/
structure FloatIO where
  repr : PyFloat → Str
  read : Str → PyFloat

/-- `ESCAPE_DCT` applied to a character that matches `ESCAPE` (json/encoder.py:18-33); other characters are left alone. -/
def escChar (c : Char) : Str :=
  if c = '\\' then c!"\\\\"
  else if c = '"' then c!"\\\""
  else if c.toNat = 8 then c!"\\b"
  else if c.toNat = 12 then c!"\\f"
  else if c.toNat = 10 then c!"\\n"
  else if c.toNat = 13 then c!"\\r"
  else if c.toNat = 9 then c!"\\t"
  else if c.toNat < 32 then c!"\\u" ++ hexPad 4 c.toNat
  else [c]

/-- `py_encode_basestring` (json/encoder.py:37-43). -/
def encodeStr (s : Str) : Str := '"' :: (s.flatMap escChar ++ ['"'])

/-- `int.__repr__` (json/encoder.py:272): CPython refuses more than 4300 digits. -/
def intRepr (i : Int) : Res Str :=
  if (decStr i.natAbs).length ≤ 4300 then .ok (intStr i) else .error .valueError

/-- `floatstr` (json/encoder.py:224-244) with `allow_nan=True`. -/
def floatText (io : FloatIO) : PyFloat → Str
  | .nan => c!"NaN"
  | .inf false => c!"Infinity"
  | .inf true => c!"-Infinity"
  | f => io.repr f

/-- `_item_separator` and `_key_separator` of `json_dump_string` (strong_typing/serialization.py:105). -/
def itemSep : Str := c!","
def keySep : Str := c!":"

mutual

/-- `_iterencode` (json/encoder.py:414-442), the yielded chunks joined. -/
def encJson (io : FloatIO) : Json → Res Str
  | .str s => .ok (encodeStr s)
  | .null => .ok c!"null"
  | .bool true => .ok c!"true"
  | .bool false => .ok c!"false"
  | .int i => intRepr i
  | .float f => .ok (floatText io f)
  | .arr xs =>
    match encItems io true xs with
    | .error e => .error e
    | .ok s => .ok ('[' :: (s ++ [']']))
  | .obj kvs =>
    match encPairs io true kvs with
    | .error e => .error e
    | .ok s => .ok ('{' :: (s ++ ['}']))

/-- Loop of `_iterencode_list` (json/encoder.py:278-332): the separator goes before every item but the first. -/
def encItems (io : FloatIO) : Bool → List Json → Res Str
  | _, [] => .ok []
  | first, x :: r =>
    match encJson io x with
    | .error e => .error e
    | .ok a =>
      match encItems io false r with
      | .error e => .error e
      | .ok b => .ok ((if first then [] else itemSep) ++ (a ++ b))

/-- Loop of `_iterencode_dict` (json/encoder.py:334-412). -/
def encPairs (io : FloatIO) : Bool → List (Str × Json) → Res Str
  | _, [] => .ok []
  | first, (k, x) :: r =>
    match encJson io x with
    | .error e => .error e
    | .ok a =>
      match encPairs io false r with
      | .error e => .error e
      | .ok b => .ok ((if first then [] else itemSep) ++ (encodeStr k ++ (keySep ++ (a ++ b))))

end

/-- `json_dump_string` (strong_typing/serialization.py:102-105). -/
def jsonDumpString (io : FloatIO) (j : Json) : Res Str := encJson io j

/-- `json_dump` (strong_typing/serialization.py:108-116): the content of the file after a call that does not raise.  The text is
followed by a line break (line 116). -/
def jsonDump (io : FloatIO) (j : Json) (file : Str) : Res Str :=
  match encJson io j with
  | .error e => .error e
  | .ok s => .ok (file ++ (s ++ ['\n']))

/-! ### Reading -/

/-- `WHITESPACE` (json/decoder.py:132-133). -/
def isJsonWs (c : Char) : Bool := c = ' ' || c = '\t' || c = '\n' || c = '\r'

/-- `_w(s, end).end()`. -/
def skipWs (s : Str) : Str := s.dropWhile isJsonWs

/-- `_decode_uXXXX` (json/decoder.py:59-67): four hexadecimal digits. -/
def hex4 (s : Str) : Option (Nat × Str) :=
  if (s.take 4).length = 4 ∧ (s.take 4).all isHex then some (baseVal 16 (s.take 4), s.drop 4) else none

/-- The character of a code point; a lone surrogate is out of the model. -/
def codeChar (n : Nat) : Res Char :=
  if 0xd800 ≤ n ∧ n ≤ 0xdfff then .error .outOfModel else .ok (Char.ofNat n)

/-- `BACKSLASH` (json/decoder.py:54-57). -/
def unescape (c : Char) : Option Char :=
  if c = '"' then some '"'
  else if c = '\\' then some '\\'
  else if c = '/' then some '/'
  else if c = 'b' then some (Char.ofNat 8)
  else if c = 'f' then some (Char.ofNat 12)
  else if c = 'n' then some '\n'
  else if c = 'r' then some '\r'
  else if c = 't' then some '\t'
  else none

/-- The part of `py_scanstring` after `\u` (json/decoder.py:116-124): the character and the rest of the text. -/
def scanUnicode (s : Str) : Res (Char × Str) :=
  match hex4 s with
  | none => .error .valueError
  | some (n, r) =>
    if 0xd800 ≤ n ∧ n ≤ 0xdbff ∧ r.take 2 = c!"\\u" then
      match hex4 (r.drop 2) with
      | none => .error .valueError
      | some (n2, r2) =>
        if 0xdc00 ≤ n2 ∧ n2 ≤ 0xdfff then .ok (Char.ofNat (0x10000 + ((n - 0xd800) * 1024 + (n2 - 0xdc00))), r2)
        else .error .outOfModel
    else
      match codeChar n with
      | .error e => .error e
      | .ok c => .ok (c, r)

/-- `py_scanstring` (json/decoder.py:69-127) with `strict=True`, after the opening quote: the string and the rest of the text. -/
def scanStr : Nat → Str → Res (Str × Str)
  | 0, _ => .error .valueError
  | _ + 1, [] => .error .valueError
  | f + 1, c :: r =>
    if c = '"' then .ok ([], r)
    else if c = '\\' then
      match r with
      | [] => .error .valueError
      | e :: r' =>
        if e = 'u' then
          match scanUnicode r' with
          | .error e => .error e
          | .ok (c', r'') =>
            match scanStr f r'' with
            | .error e => .error e
            | .ok (s, t) => .ok (c' :: s, t)
        else
          match unescape e with
          | none => .error .valueError
          | some c' =>
            match scanStr f r' with
            | .error e => .error e
            | .ok (s, t) => .ok (c' :: s, t)
    else if c.toNat < 32 then .error .valueError
    else
      match scanStr f r with
      | .error e => .error e
      | .ok (s, t) => .ok (c :: s, t)

/-- Optional minus sign. -/
def numSign (s : Str) : Bool × Str :=
  match s with
  | '-' :: r => (true, r)
  | _ => (false, s)

/-- `(?:0|[1-9]\d*)`. -/
def numDigits (s : Str) : Option (Str × Str) :=
  match s with
  | '0' :: r => some (['0'], r)
  | _ => if s.takeWhile isDig = [] then none else some (s.takeWhile isDig, s.dropWhile isDig)

/-- Group `(-?(?:0|[1-9]\d*))` of `NUMBER_RE` (json/scanner.py:11-13): sign, digits, rest. -/
def numInt (s : Str) : Option (Bool × Str × Str) :=
  match numDigits (numSign s).2 with
  | none => none
  | some (ds, r) => some ((numSign s).1, ds, r)

/-- Optional group `(\.\d+)`. -/
def numFrac (s : Str) : Str × Str :=
  match s with
  | '.' :: r => if r.takeWhile isDig = [] then ([], s) else ('.' :: r.takeWhile isDig, r.dropWhile isDig)
  | _ => ([], s)

/-- Optional group `([eE][-+]?\d+)`. -/
def numExp (s : Str) : Str × Str :=
  match s with
  | c :: r =>
    if c = 'e' ∨ c = 'E' then
      let (sg, r') : Str × Str := match r with
        | d :: r' => if d = '-' ∨ d = '+' then ([d], r') else ([], r)
        | [] => ([], r)
      if r'.takeWhile isDig = [] then ([], s) else (c :: (sg ++ r'.takeWhile isDig), r'.dropWhile isDig)
    else ([], s)
  | [] => ([], s)

/-- The number branch and the constants of `_scan_once` (json/scanner.py:48-63). -/
def scanNumber (io : FloatIO) (s : Str) : Res (Json × Str) :=
  match numInt s with
  | some (neg, ds, r) =>
    let (frac, r1) := numFrac r
    let (exp, r2) := numExp r1
    if frac = [] ∧ exp = [] then
      match pyIntDec ds with
      | .error e => .error e
      | .ok n => .ok (.int (if neg then -(n : Int) else n), r2)
    else .ok (.float (io.read ((if neg then ['-'] else []) ++ ds ++ frac ++ exp)), r2)
  | none =>
    if s.take 3 = c!"NaN" then .ok (.float .nan, s.drop 3)
    else if s.take 8 = c!"Infinity" then .ok (.float (.inf false), s.drop 8)
    else if s.take 9 = c!"-Infinity" then .ok (.float (.inf true), s.drop 9)
    else .error .valueError

mutual

/-- `_scan_once` (json/scanner.py:28-63): the value at the start of the text and the rest of the text.  Fuel: the length of the
text. -/
def scanVal (io : FloatIO) : Nat → Str → Res (Json × Str)
  | 0, _ => .error .valueError
  | _ + 1, [] => .error .valueError
  | f + 1, c :: r =>
    if c = '"' then
      match scanStr f r with
      | .error e => .error e
      | .ok (s, t) => .ok (.str s, t)
    else if c = '{' then
      match skipWs r with
      | [] => .error .valueError
      | d :: r' => if d = '}' then .ok (.obj [], r') else if d = '"' then scanPairs io f [] r' else .error .valueError
    else if c = '[' then
      match skipWs r with
      | [] => .error .valueError
      | d :: r' => if d = ']' then .ok (.arr [], r') else scanItems io f [] (d :: r')
    else if (c :: r).take 4 = c!"null" then .ok (.null, (c :: r).drop 4)
    else if (c :: r).take 4 = c!"true" then .ok (.bool true, (c :: r).drop 4)
    else if (c :: r).take 5 = c!"false" then .ok (.bool false, (c :: r).drop 5)
    else scanNumber io (c :: r)

/-- Loop of `JSONArray` (json/decoder.py:227-252). -/
def scanItems (io : FloatIO) : Nat → List Json → Str → Res (Json × Str)
  | 0, _, _ => .error .valueError
  | f + 1, acc, s =>
    match scanVal io f s with
    | .error e => .error e
    | .ok (v, r) =>
      match skipWs r with
      | [] => .error .valueError
      | d :: r' =>
        if d = ']' then .ok (.arr (acc ++ [v]), r')
        else if d = ',' then scanItems io f (acc ++ [v]) (skipWs r')
        else .error .valueError

/-- Loop of `JSONObject` (json/decoder.py:166-215), after the opening quote of a name; `dict(pairs)` keeps the last value of a
repeated name. -/
def scanPairs (io : FloatIO) : Nat → List (Str × Json) → Str → Res (Json × Str)
  | 0, _, _ => .error .valueError
  | f + 1, acc, s =>
    match scanStr f s with
    | .error e => .error e
    | .ok (k, r) =>
      match skipWs r with
      | [] => .error .valueError
      | d :: r1 =>
        if d ≠ ':' then .error .valueError
        else
          match scanVal io f (skipWs r1) with
          | .error e => .error e
          | .ok (v, r2) =>
            match skipWs r2 with
            | [] => .error .valueError
            | e :: r3 =>
              if e = '}' then .ok (.obj (upsert k v acc), r3)
              else if e = ',' then
                match skipWs r3 with
                | [] => .error .valueError
                | q :: r4 => if q = '"' then scanPairs io f (upsert k v acc) r4 else .error .valueError
              else .error .valueError

end

/-- `json.loads(s)` (json/__init__.py:334-346, json/decoder.py:332-341). -/
def jsonLoads (io : FloatIO) (s : Str) : Res Json :=
  if s.head? = some (Char.ofNat 0xfeff) then .error .valueError
  else
    match scanVal io (s.length + 1) (skipWs s) with
    | .error e => .error e
    | .ok (j, r) => if skipWs r = [] then .ok j else .error .valueError

end Verif
