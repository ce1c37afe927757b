import Verif.Model.StrOps
/-!
# IP addresses

`IPv4Serializer`, `IPv6Serializer` (strong_typing/serializer.py:157-164) call `str`, the deserializers
(strong_typing/deserializer.py:250-265) call the constructors of `ipaddress`.  Modelled after CPython 3.11 `ipaddress.py`.
All errors are `AddressValueError`, a subclass of `ValueError`.
-/
namespace Verif

/-- `_BaseV4._string_from_ip_int`, ipaddress.py:1250-1260. -/
def ipv4Str (n : Nat) : Str :=
  joinWith '.' [decStr (n / 16777216 % 256), decStr (n / 65536 % 256), decStr (n / 256 % 256), decStr (n % 256)]

/-- `_BaseV4._parse_octet`, ipaddress.py:1214-1247. -/
def parseOctet (s : Str) : Res Nat :=
  if s = [] then .error .valueError
  else if s.all isDig = false then .error .valueError
  else if 3 < s.length then .error .valueError
  else if s ≠ ['0'] ∧ s.head? = some '0' then .error .valueError
  else if 255 < decVal s then .error .valueError
  else .ok (decVal s)

/-- `IPv4Address(data)`: `__init__` and `_ip_int_from_string`, ipaddress.py:1188-1211, 1286-1319.  The test for `/` is
subsumed: an octet containing it is rejected with the same exception. -/
def ipv4Parse (s : Str) : Res Nat :=
  match splitOn '.' s with
  | [a, b, c, d] => do
    let a ← parseOctet a
    let b ← parseOctet b
    let c ← parseOctet c
    let d ← parseOctet d
    .ok (((a * 256 + b) * 256 + c) * 256 + d)
  | _ => .error .valueError

/-- The eight 16-bit groups of an IPv6 address. -/
def hextets (n : Nat) : List Nat :=
  [n / 2 ^ 112 % 65536, n / 2 ^ 96 % 65536, n / 2 ^ 80 % 65536, n / 2 ^ 64 % 65536,
   n / 2 ^ 48 % 65536, n / 2 ^ 32 % 65536, n / 2 ^ 16 % 65536, n % 65536]

/-- State of the loop in `_compress_hextets`: current index, best start and length, start and length of the current
run of zeros (`none` for `-1`). -/
structure RunState where
  index : Nat
  bestStart : Nat
  bestLen : Nat
  start : Option Nat
  len : Nat

/-- Loop body of `_compress_hextets`, ipaddress.py:1802-1814. -/
def runStep (st : RunState) (h : Str) : RunState :=
  if h = ['0'] then
    let len := st.len + 1
    let start := st.start.getD st.index
    if st.bestLen < len then ⟨st.index + 1, start, len, some start, len⟩
    else ⟨st.index + 1, st.bestStart, st.bestLen, some start, len⟩
  else ⟨st.index + 1, st.bestStart, st.bestLen, none, 0⟩

/-- `_compress_hextets`, ipaddress.py:1782-1827. -/
def compressHextets (hs : List Str) : List Str :=
  let st := hs.foldl runStep ⟨0, 0, 0, none, 0⟩
  if 1 < st.bestLen then
    let stop := st.bestStart + st.bestLen
    let hs' := if stop = hs.length then hs ++ [[]] else hs
    let hs'' := hs'.take st.bestStart ++ [[]] ++ hs'.drop stop
    if st.bestStart = 0 then [] :: hs'' else hs''
  else hs

/-- `_string_from_ip_int`, ipaddress.py:1830-1853, for a 128-bit integer. -/
def ipv6Str (n : Nat) : Str := joinWith ':' (compressHextets ((hextets n).map hexStr))

/-- `IPv6Address.__str__`, ipaddress.py:1963-1965. -/
def ipv6StrScope (n : Nat) : Option Str → Str
  | none => ipv6Str n
  | some s => ipv6Str n ++ '%' :: s

/-- `_parse_hextet`, ipaddress.py:1756-1779. -/
def parseHextet (s : Str) : Res Nat :=
  if s.all isHex = false then .error .valueError
  else if 4 < s.length then .error .valueError
  else if s = [] then .error .valueError
  else .ok (baseVal 16 s)

/-- Indices of the empty parts of a list whose first element has index `i`. -/
def emptyIdx : Nat → List Str → List Nat
  | _, [] => []
  | i, p :: ps => if p = [] then i :: emptyIdx (i + 1) ps else emptyIdx (i + 1) ps

/-- Indices in `range(1, len(parts) - 1)` of empty parts, ipaddress.py:1695-1702. -/
def emptyInner (parts : List Str) : List Nat := emptyIdx 1 parts.tail.dropLast

/-- Fold of the hextets into an integer, ipaddress.py:1743-1751. -/
def foldHextets (ip : Nat) (parts : List Str) : Res Nat :=
  parts.foldlM (fun ip p => do let h ← parseHextet p; .ok (ip * 65536 + h)) ip

/-- Replacement of an IPv4-style suffix, ipaddress.py:1677-1683. -/
def v4Suffix (parts : List Str) : Res (List Str) :=
  match parts.getLast? with
  | some last =>
    if '.' ∈ last then do
      let v ← ipv4Parse last
      .ok (parts.dropLast ++ [hexStr (v / 65536 % 65536), hexStr (v % 65536)])
    else .ok parts
  | none => .ok parts

/-- Second half of `_BaseV6._ip_int_from_string`: from the check for too many colons to the end, ipaddress.py:1685-1753. -/
def ipv6Parts (parts : List Str) : Res Nat :=
  if 9 < parts.length then .error .valueError
  else match emptyInner parts with
  | _ :: _ :: _ => .error .valueError
  | [skip] =>
    let hi := if parts.head? = some [] then skip - 1 else skip
    let lo := if parts.getLast? = some [] then parts.length - skip - 1 - 1 else parts.length - skip - 1
    if parts.head? = some [] ∧ hi ≠ 0 then .error .valueError
    else if parts.getLast? = some [] ∧ lo ≠ 0 then .error .valueError
    else if 8 < hi + lo + 1 then .error .valueError
    else do
      let ip ← foldHextets 0 (parts.take hi)
      foldHextets (ip * 65536 ^ (8 - (hi + lo))) (parts.drop (parts.length - lo))
  | [] =>
    if parts.length ≠ 8 then .error .valueError
    else if parts.head? = some [] then .error .valueError
    else if parts.getLast? = some [] then .error .valueError
    else foldHextets 0 parts

/-- `_BaseV6._ip_int_from_string`, ipaddress.py:1652-1753. -/
def ipv6Int (s : Str) : Res Nat :=
  if s = [] then .error .valueError
  else if (splitOn ':' s).length < 3 then .error .valueError
  else do
    let parts ← v4Suffix (splitOn ':' s)
    ipv6Parts parts

/-- `IPv6Address(data)`: `__init__` and `_split_scope_id`, ipaddress.py:1889-1906, 1923-1961.  The result is the integer
and the scope id. -/
def ipv6Parse (s : Str) : Res (Nat × Option Str) :=
  if '/' ∈ s then .error .valueError
  else
    let addr := s.takeWhile (· ≠ '%')
    match s.dropWhile (· ≠ '%') with
    | [] => do let n ← ipv6Int addr; .ok (n, none)
    | _ :: scope =>
      if scope = [] ∨ '%' ∈ scope then .error .valueError
      else do let n ← ipv6Int addr; .ok (n, some scope)

end Verif
