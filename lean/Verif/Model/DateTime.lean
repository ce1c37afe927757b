import Verif.Model.StrOps
/-!
# Dates, times and timestamps

`DateTimeSerializer`, `DateSerializer`, `TimeSerializer` (strong_typing/serializer.py:83-100) and the corresponding
deserializers (strong_typing/deserializer.py:152-184) on top of `isoformat` and `fromisoformat` of CPython 3.11
(Lib/datetime.py).

`fromisoformat` is modelled after the C implementation (`Modules/_datetimemodule.c`), which is the one that runs, and
not after the fallback in Lib/datetime.py.  The two differ: the C implementation ignores a character in front of the time
zone and text after the date, takes a fraction after hours or minutes, stops at a null character, and reads every time zone
offset of less than a second as UTC.  The C source is not at hand; the definitions below were compared with the
interpreter on random texts (DESIGN.md, section 7).

Simplification: a time zone is its fixed UTC offset in microseconds; `tzinfo` objects whose `utcoffset` returns `None`, and
the `fold` attribute, are not modelled.
-/
namespace Verif

/-- `datetime.date`. -/
structure PyDate where
  year : Nat
  month : Nat
  day : Nat
  deriving DecidableEq, Repr

/-- `datetime.time`; `off` is the UTC offset in microseconds. -/
structure PyTime where
  hour : Nat
  minute : Nat
  second : Nat
  micro : Nat
  off : Option Int
  deriving DecidableEq, Repr

/-- `datetime.datetime`. -/
structure PyDateTime where
  date : PyDate
  time : PyTime
  deriving DecidableEq, Repr

/-- `_is_leap`, datetime.py:41-43. -/
def isLeap (y : Nat) : Bool := y % 4 = 0 && (y % 100 ≠ 0 || y % 400 = 0)

/-- `_days_in_month`, datetime.py:51-56. -/
def daysInMonth (y m : Nat) : Nat :=
  if m = 2 && isLeap y then 29
  else if m = 2 then 28
  else if m = 4 || m = 6 || m = 9 || m = 11 then 30
  else 31

/-- `_check_date_fields`, datetime.py:515-526. -/
def checkDate (d : PyDate) : Res PyDate :=
  if d.year < 1 ∨ 9999 < d.year then .error .valueError
  else if d.month < 1 ∨ 12 < d.month then .error .valueError
  else if d.day < 1 ∨ daysInMonth d.year d.month < d.day then .error .valueError
  else .ok d

/-- `_check_time_fields`, datetime.py:528-543. -/
def checkTime (t : PyTime) : Res PyTime :=
  if 23 < t.hour then .error .valueError
  else if 59 < t.minute then .error .valueError
  else if 59 < t.second then .error .valueError
  else if 999999 < t.micro then .error .valueError
  else .ok t

/-! ### Formatting -/

/-- `date.isoformat`. -/
def dateIso (d : PyDate) : Str := decPad 4 d.year ++ '-' :: (decPad 2 d.month ++ '-' :: decPad 2 d.day)

/-- `_format_time` with `timespec='auto'`, datetime.py:161-180. -/
def formatTime (hh mm ss us : Nat) : Str :=
  decPad 2 hh ++ ':' :: (decPad 2 mm ++ ':' :: (decPad 2 ss ++ (if us = 0 then [] else '.' :: decPad 6 us)))

/-- Digits of `_format_offset` for a non-negative offset, datetime.py:190-197. -/
def formatOffsetAbs (a : Nat) : Str :=
  decPad 2 (a / 3600000000) ++ ':' :: (decPad 2 (a / 60000000 % 60) ++
    (if a % 60000000 = 0 then []
     else ':' :: (decPad 2 (a / 1000000 % 60) ++ (if a % 1000000 = 0 then [] else '.' :: decPad 6 (a % 1000000)))))

/-- `_format_offset`, datetime.py:182-198. -/
def formatOffset : Option Int → Str
  | none => []
  | some o => (if o < 0 then '-' else '+') :: formatOffsetAbs o.natAbs

/-- `time.isoformat`, datetime.py:1514-1529. -/
def timeIso (t : PyTime) : Str := formatTime t.hour t.minute t.second t.micro ++ formatOffset t.off

/-- `datetime.isoformat`, datetime.py:2005-2031. -/
def dateTimeIso (d : PyDateTime) : Str := dateIso d.date ++ 'T' :: timeIso d.time

/-! ### Parsing -/

/-- Two digits. -/
def twoDig : Str → Res (Nat × Str)
  | a :: b :: r => if isDig a && isDig b then .ok (decVal [a, b], r) else .error .valueError
  | _ => .error .valueError

/-- Four digits. -/
def fourDig : Str → Res (Nat × Str)
  | a :: b :: c :: d :: r =>
    if isDig a && isDig b && isDig c && isDig d then .ok (decVal [a, b, c, d], r) else .error .valueError
  | _ => .error .valueError

/-- One digit. -/
def oneDig : Str → Res (Nat × Str)
  | a :: r => if isDig a then .ok (decVal [a], r) else .error .valueError
  | _ => .error .valueError

/-- `_days_before_year`, datetime.py:45-48. -/
def daysBeforeYear (y : Nat) : Nat := (y - 1) * 365 + (y - 1) / 4 - (y - 1) / 100 + (y - 1) / 400

/-- `_DAYS_BEFORE_MONTH`, in a common year. -/
def commonDaysBefore : Nat → Nat
  | 1 => 0 | 2 => 31 | 3 => 59 | 4 => 90 | 5 => 120 | 6 => 151 | 7 => 181 | 8 => 212 | 9 => 243 | 10 => 273 | 11 => 304
  | _ => 334

/-- Month and day of the day with the given number (from zero) in a year; the end of `_ord2ymd`, datetime.py:134-149. -/
def monthDay (leap : Bool) (n : Nat) : Nat × Nat :=
  let month := (n + 50) / 32
  let preceding := commonDaysBefore month + (if 2 < month && leap then 1 else 0)
  if n < preceding then
    let month' := month - 1
    (month', n - (commonDaysBefore month' + (if 2 < month' && leap then 1 else 0)) + 1)
  else (month, n - preceding + 1)

/-- `_ord2ymd`, datetime.py:87-149. -/
def ordToYmd (n : Nat) : PyDate :=
  let n := n - 1
  let n400 := n / 146097
  let n := n % 146097
  let n100 := n / 36524
  let n := n % 36524
  let n4 := n / 1461
  let n := n % 1461
  let n1 := n / 365
  let n := n % 365
  let year := n400 * 400 + 1 + n100 * 100 + n4 * 4 + n1
  if n1 = 4 ∨ n100 = 4 then ⟨year - 1, 12, 31⟩
  else
    let md := monthDay (isLeap year) n
    ⟨year, md.1, md.2⟩

/-- Weekday of the first of January, Monday being 0. -/
def janWeekday (y : Nat) : Nat := (daysBeforeYear y + 1 + 6) % 7

/-- `_isoweek_to_gregorian`, datetime.py:459-490. -/
def isoWeekDate (y week day : Nat) : Res PyDate :=
  if y < 1 ∨ 9999 < y then .error .valueError
  else if ¬ (0 < week ∧ week < 53) ∧
      ¬ (week = 53 ∧ (janWeekday y = 3 ∨ (janWeekday y = 2 ∧ isLeap y = true))) then .error .valueError
  else if ¬ (0 < day ∧ day < 8) then .error .valueError
  else
    let first := daysBeforeYear y + 1
    let monday := first - janWeekday y + (if 3 < janWeekday y then 7 else 0)
    .ok (ordToYmd (monday + ((week - 1) * 7 + (day - 1))))

/-- The week and the day of the week after the letter `W`; `all` says that the week ends the text. -/
def parseWeek (sep all : Bool) (r : Str) : Res (Nat × Nat) :=
  match twoDig r with
  | .error e => .error e
  | .ok (w, r) =>
    if all then .ok (w, 1)
    else
      match (if sep then (match r with | '-' :: r => .ok r | _ => .error .valueError) else .ok r : Res Str) with
      | .error e => .error e
      | .ok r => match oneDig r with
        | .error e => .error e
        | .ok (d, _) => .ok (w, d)

/-- `parse_isoformat_date` in `_datetimemodule.c` (compare `_parse_isoformat_date`, datetime.py:325-358); `len` is the
number of bytes of the text.  Characters after the day are ignored. -/
def parseIsoDate (len : Nat) (s : Str) : Res PyDate :=
  match fourDig s with
  | .error e => .error e
  | .ok (y, r) =>
    let sep : Bool := r.head? = some '-'
    let r := if sep then r.tail else r
    if r.head? = some 'W' then
      match parseWeek sep (decide (len ≤ if sep then 8 else 7)) r.tail with
      | .error e => .error e
      | .ok (w, d) => isoWeekDate y w d
    else
      match twoDig r with
      | .error e => .error e
      | .ok (m, r) =>
        match (if sep then (match r with | '-' :: r => .ok r | _ => .error .valueError) else .ok r : Res Str) with
        | .error e => .error e
        | .ok r => match twoDig r with
          | .error e => .error e
          | .ok (d, _) => .ok ⟨y, m, d⟩

/-- Hours, minutes, seconds, microseconds, and whether text is left over. -/
structure Hms where
  hour : Nat
  minute : Nat
  second : Nat
  micro : Nat
  rest : Bool
  deriving DecidableEq, Repr

/-- A null character counts as the end of the text. -/
def leftOver : Str → Bool
  | [] => false
  | c :: _ => c ≠ '\x00'

/-- The fraction of `parse_hh_mm_ss_ff` in `_datetimemodule.c` (compare datetime.py:389-408): up to six digits count,
further digits are skipped. -/
def parseFrac (h m s : Nat) (r : Str) : Res Hms :=
  if (r.take 6).all isDig = false then .error .valueError
  else .ok ⟨h, m, s, decVal (r.take 6) * 10 ^ (6 - r.length), leftOver ((r.drop 6).dropWhile isDig)⟩

/-- What follows hours, minutes or seconds. -/
inductive HmsNext where
  | stop (rest : Bool)
  | field (r : Str)
  | frac (r : Str)

/-- The rest of the loop body of `parse_hh_mm_ss_ff`.  A single character at the end is not looked at, unless it takes
several bytes. -/
def hmsNext (sep : Bool) : Str → Res HmsNext
  | [] => .ok (.stop false)
  | [c] => if c.toNat < 128 then .ok (.stop (leftOver [c])) else .error .valueError
  | c :: r =>
    if sep && c = ':' then .ok (.field r)
    else if c = '.' ∨ c = ',' then .ok (.frac r)
    else if sep then .error .valueError
    else .ok (.field (c :: r))

/-- `parse_hh_mm_ss_ff` in `_datetimemodule.c` (compare `_parse_hh_mm_ss_ff`, datetime.py:364-410). -/
def parseHmsf (t : Str) : Res Hms :=
  match twoDig t with
  | .error e => .error e
  | .ok (h, r) =>
    let sep : Bool := r.head? = some ':'
    match hmsNext sep r with
    | .error e => .error e
    | .ok (.stop b) => .ok ⟨h, 0, 0, 0, b⟩
    | .ok (.frac r) => parseFrac h 0 0 r
    | .ok (.field r) =>
      match twoDig r with
      | .error e => .error e
      | .ok (m, r) =>
        match hmsNext sep r with
        | .error e => .error e
        | .ok (.stop b) => .ok ⟨h, m, 0, 0, b⟩
        | .ok (.frac r) => parseFrac h m 0 r
        | .ok (.field r) =>
          match twoDig r with
          | .error e => .error e
          | .ok (s, r) =>
            match hmsNext sep r with
            | .error e => .error e
            | .ok (.stop b) => .ok ⟨h, m, s, 0, b⟩
            | .ok (.frac r) => parseFrac h m s r
            | .ok (.field r) => parseFrac h m s r

/-- Characters that start a time zone designator. -/
def tzStart (c : Char) : Bool := c = '+' || c = '-' || c = 'Z'

/-- The time zone part of `parse_isoformat_time` in `_datetimemodule.c` (compare datetime.py:425-452), with
`tzinfo_from_isoformat_results`; the argument starts at the designator.  An offset of zero seconds is UTC, whatever its
microseconds are. -/
def parseTz : Str → Res (Option Int)
  | [] => .ok none
  | c :: r =>
    if c = 'Z' then (if leftOver r then .error .valueError else .ok (some 0))
    else match parseHmsf r with
      | .error e => .error e
      | .ok t =>
        if t.rest then .error .valueError
        else if (t.hour * 60 + t.minute) * 60 + t.second = 0 then .ok (some 0)
        else
          let a : Int := (((t.hour * 60 + t.minute) * 60 + t.second) * 1000000 + t.micro : Nat)
          let o := if c = '-' then -a else a
          if -86400000000 < o ∧ o < 86400000000 then .ok (some o) else .error .valueError

/-- `parse_isoformat_time` in `_datetimemodule.c` (compare `_parse_isoformat_time`, datetime.py:412-456).  Text left over in
front of the time zone is ignored. -/
def parseIsoTime (s : Str) : Res PyTime :=
  match parseHmsf (s.takeWhile (fun c => !tzStart c)) with
  | .error e => .error e
  | .ok t =>
    let z := s.dropWhile (fun c => !tzStart c)
    if t.rest && z.isEmpty then .error .valueError
    else match parseTz z with
      | .error e => .error e
      | .ok o => .ok ⟨t.hour, t.minute, t.second, t.micro, o⟩

/-- Number of bytes of a text in UTF-8. -/
def utf8Len (s : Str) : Nat := (s.map Char.utf8Size).sum

/-- `date.fromisoformat`, datetime.py:980-991. -/
def dateFromIso (s : Str) : Res PyDate :=
  if utf8Len s ≠ 7 ∧ utf8Len s ≠ 8 ∧ utf8Len s ≠ 10 then .error .valueError
  else match parseIsoDate (utf8Len s) s with
    | .error e => .error e
    | .ok d => checkDate d

/-- `time.fromisoformat`, datetime.py:1534-1547. -/
def timeFromIso (s : Str) : Res PyTime :=
  match parseIsoTime (if s.head? = some 'T' then s.tail else s) with
  | .error e => .error e
  | .ok t => checkTime t

/-- `_find_isoformat_datetime_separator`, datetime.py:268-322. -/
def findSep (s : Str) : Res Nat :=
  if utf8Len s = 7 then .ok 7
  else if s[4]? = some '-' then
    if s[5]? = some 'W' then
      if s[8]? = some '-' then
        if s.length = 9 then .error .valueError
        else if (s[10]?).any isDig then .ok 8 else .ok 10
      else .ok 8
    else .ok 10
  else if s[4]? = some 'W' then
    let pos := 7 + ((s.drop 7).takeWhile isDig).length
    if pos < 9 then .ok pos
    else if pos % 2 = 0 then .ok 7 else .ok 8
  else .ok 8

/-- `datetime.fromisoformat`, datetime.py:1823-1852. -/
def dateTimeFromIso (s : Str) : Res PyDateTime :=
  if s.length < 7 then .error .valueError
  else
    match findSep s with
    | .error e => .error e
    | .ok sep =>
      match parseIsoDate sep (s.take sep) with
      | .error e => .error e
      | .ok d =>
        match (if s.drop sep = [] then .ok ⟨0, 0, 0, 0, none⟩ else parseIsoTime (s.drop (sep + 1)) : Res PyTime) with
        | .error e => .error e
        | .ok t =>
          match checkDate d with
          | .error e => .error e
          | .ok d =>
            match checkTime t with
            | .error e => .error e
            | .ok t => .ok ⟨d, t⟩

/-! ### Serializers and deserializers -/

/-- `DateTimeSerializer.generate`, strong_typing/serializer.py:84-90. -/
def dtSerialize (d : PyDateTime) : Res Str :=
  match d.time.off with
  | none => .error .jsonValue
  | some _ =>
    let fmt := dateTimeIso d
    .ok (if endsWith c!"+00:00" fmt then dropEnd 6 fmt ++ ['Z'] else fmt)

/-- `DateTimeDeserializer.parse` on a string, strong_typing/deserializer.py:155-164. -/
def dtParse (s : Str) : Res PyDateTime :=
  match dateTimeFromIso (if endsWith ['Z'] s then dropEnd 1 s ++ c!"+00:00" else s) with
  | .error e => .error e
  | .ok d => match d.time.off with
    | none => .error .jsonValue
    | some _ => .ok d

end Verif
