"""
Compares the parts of the model that stand for the Python standard library with the standard library itself, on random inputs.

No code of the project is imported or run.  Usage (CPython 3.11, from any directory):

    python3.11 conformance/run.py [SEED [COUNT [KIND,KIND,...]]]

This is a test of the trusted correspondence between Python and the model, not part of any proof.
"""

import base64
import dataclasses
import datetime
import enum
import inspect
import ipaddress
import json
import keyword
import math
import pathlib
import random
import re
import struct
import subprocess
import sys
import tempfile
import types
import typing
import uuid
from collections import Counter

LEAN = r"""
import Verif.Model.DateTime
import Verif.Model.Base64
import Verif.Model.Uuid
import Verif.Model.Ip
import Verif.Model.JsonText
import Verif.Model.Docstring
import Verif.Model.TypeName
import Verif.Model.PyEq
import Verif.Model.ClassBuild
import Verif.Model.Inherit
import Verif.Model.Annotations
import Verif.Model.DataType
open Verif

def showErr : Err → String
  | .jsonKey => "jsonKey" | .jsonType => "jsonType" | .jsonValue => "jsonValue" | .typeError => "typeError"
  | .valueError => "valueError" | .overflow => "overflow" | .attribute => "attribute" | .key => "key"
  | .runtime => "runtime" | .recursion => "recursion" | .name => "name" | .lookup => "lookup" | .outOfModel => "outOfModel"

def showRes (f : α → String) : Res α → String
  | .ok a => "ok " ++ f a
  | .error e => "err " ++ showErr e

def codes (s : Str) : String := ",".intercalate (s.map fun c => toString c.toNat)
def text (s : String) : Str := if s == "" then [] else (s.splitOn ",").map (fun x => Char.ofNat (x.toNat?.getD 0))
def showB (b : Bool) : String := if b then "True" else "False"

def showDate (d : PyDate) := s!"{d.year} {d.month} {d.day}"
def showTime (t : PyTime) :=
  s!"{t.hour} {t.minute} {t.second} {t.micro} {match t.off with | none => "-" | some o => toString o}"

def readOff (s : String) : Option Int := if s == "-" then none else some s.toInt!
def readDate : List String → PyDate × List String
  | y :: m :: d :: r => (⟨y.toNat!, m.toNat!, d.toNat!⟩, r)
  | r => (⟨0, 0, 0⟩, r)
def readTime : List String → PyTime × List String
  | h :: m :: s :: u :: o :: r => (⟨h.toNat!, m.toNat!, s.toNat!, u.toNat!, readOff o⟩, r)
  | r => (⟨0, 0, 0, 0, none⟩, r)

/-- Texts of floats are kept as numbers: a float is read as its own text. -/
def packText (s : Str) : Nat := s.foldl (fun a c => a * 128 + c.toNat) 0
def unpackText : Nat → Nat → Str
  | 0, _ => []
  | f + 1, n => if n = 0 then [] else unpackText f (n / 128) ++ [Char.ofNat (n % 128)]
def io : FloatIO where
  repr f := match f with | .fin _ m _ => unpackText 1000 m | _ => []
  read s := .fin false (packText s) 1

def showFloat : PyFloat → String
  | .nan => "nan" | .inf false => "inf" | .inf true => "-inf"
  | .fin neg m e => s!"{showB neg} {m} {e}"

partial def showJson : Json → String
  | .null => "N" | .bool b => showB b | .int i => s!"i{i}"
  | .float (.fin _ m _) => "f" ++ codes (unpackText 1000 m)
  | .float f => "f" ++ showFloat f
  | .str s => "s" ++ codes s
  | .arr xs => "[" ++ ";".intercalate (xs.map showJson) ++ "]"
  | .obj kvs => "{" ++ ";".intercalate (kvs.map fun kv => codes kv.1 ++ ":" ++ showJson kv.2) ++ "}"

def readFloat : List String → PyFloat × List String
  | s :: m :: e :: r =>
    if s == "nan" then (.nan, r) else if s == "inf" then (.inf (m == "1"), r) else (.fin (s == "1") m.toNat! e.toInt!, r)
  | r => (.nan, r)

def readScalar (s : String) : Scalar :=
  match s.toList with
  | 'i' :: r => .int (String.ofList r).toInt!
  | 's' :: r => .str (text (String.ofList r))
  | 'T' :: _ => .bool true
  | 'F' :: _ => .bool false
  | 'f' :: r => .float (readFloat ((String.ofList r).splitOn " ")).1
  | _ => .none
def showScalar : Scalar → String
  | .int i => s!"i{i}" | .str s => "s" ++ codes s | .bool b => showB b | .float f => "f" ++ showFloat f | .none => "N"
def readPairs : List String → List (Str × Scalar)
  | n :: v :: r => (text n, readScalar v) :: readPairs r
  | _ => []
def showPairs (l : List (Str × Scalar)) : String := ";".intercalate (l.map fun p => codes p.1 ++ "=" ++ showScalar p.2)

def cfg : BuildCfg := ⟨c!"m", fun _ => false, fun _ => false, fun _ => false⟩

def parts (sep s : String) : List String := if s == "" then [] else s.splitOn sep
def readMember (s : String) : FieldDef :=
  match s.splitOn ":" with
  | [n, t, d] =>
    { name := n.toList, ty := if t == "i" then .int else if t == "s" then .str else if t == "b" then .bool else .float,
      dflt := if d == "-" then .missing else .value (.int d.toInt!) }
  | _ => { name := [], ty := .none }
def readClass (s : String) : ClassStmt :=
  match s.splitOn "|" with
  | [b, d, f] =>
    { bases := (parts "," b).map String.toNat!, decorated := if d == "-" then none else some (d == "1"), own := (parts ";" f).map readMember }
  | _ => ⟨[], none, []⟩
def showTy : Ty → String
  | .int => "i" | .str => "s" | .bool => "b" | .float => "f" | _ => "?"
def showTypes (l : List (Str × Ty)) : String := ";".intercalate (l.map fun p => String.ofList p.1 ++ ":" ++ showTy p.2)
def showMembers (l : List (Str × FieldDef)) : String := ";".intercalate (l.map fun p =>
  String.ofList p.1 ++ ":" ++ showTy p.2.ty ++ ":" ++ match p.2.dflt with | .missing => "-" | .value (.int i) => toString i | _ => "?")
def showClass (w : List PyClass) (c : PyClass) : String :=
  ",".intercalate (c.mro.map toString) ++ "|" ++ (match fieldsAttr w c.mro with | none => "-" | some fs => showMembers fs) ++ "|" ++
    showTypes ((typeHints w c.mro).map fun p => (p.1, p.2.ty))

def readForm : String → AnnForm
  | "list" => .builtin .list | "set" => .builtin .set | "dict" => .builtin .dict | "tuple" => .builtin .tuple
  | "List" => .typing .list | "Set" => .typing .set | "Dict" => .typing .dict | "Tuple" => .typing .tuple
  | "Union" => .union | "Literal" => .literal | "Annotated" => .annotated | _ => .pipe
def showForm : AnnForm → String
  | .builtin .list => "list" | .builtin .set => "set" | .builtin .dict => "dict" | .builtin .tuple => "tuple"
  | .typing .list => "List" | .typing .set => "Set" | .typing .dict => "Dict" | .typing .tuple => "Tuple"
  | .union => "Union" | .literal => "Literal" | .annotated => "Annotated" | .pipe => "pipe"
instance : Inhabited AnnExpr := ⟨.none⟩
mutual
partial def readExpr : List String → AnnExpr × List String
  | "n" :: x :: r => (.name x.toList, r)
  | "a" :: x :: r => let (e, r) := readExpr r; (.attr e x.toList, r)
  | "N" :: r => (.none, r)
  | "k" :: x :: r => (.const x.toNat!, r)
  | "t" :: x :: r => (.text (text x), r)
  | "i" :: c :: r =>
    let (e, r) := readExpr r
    let (es, r) := readExprs c.toNat! r
    (.index e es, r)
  | "o" :: r =>
    let (x, r) := readExpr r
    let (y, r) := readExpr r
    (.either x y, r)
  | r => (.none, r)
partial def readExprs : Nat → List String → List AnnExpr × List String
  | 0, r => ([], r)
  | n + 1, r =>
    let (e, r) := readExpr r
    let (es, r) := readExprs n r
    (e :: es, r)
end
def readTree (s : String) : AnnExpr := (readExpr (s.splitOn " ")).1
partial def showObj : AnnObj → String
  | .none => "N" | .noneType => "Z" | .cls c => s!"c{c}" | .form f => "F" ++ showForm f | .module m => s!"M{m}" | .const k => s!"k{k}"
  | .text s => "t" ++ codes s | .ref s => "r" ++ codes s
  | .gen f os => "G" ++ showForm f ++ "(" ++ ";".intercalate (os.map showObj) ++ ")"
def annBuiltins : List (Str × AnnObj) :=
  [(c!"int", .cls 2), (c!"str", .cls 3), (c!"list", .form (.builtin .list)), (c!"set", .form (.builtin .set)),
   (c!"dict", .form (.builtin .dict)), (c!"tuple", .form (.builtin .tuple))]
def annModule : List (Str × AnnObj) :=
  [(c!"A", .cls 0), (c!"B", .cls 1), (c!"m", .module 0), (c!"List", .form (.typing .list)), (c!"Set", .form (.typing .set)),
   (c!"Dict", .form (.typing .dict)), (c!"Tuple", .form (.typing .tuple)), (c!"Union", .form .union), (c!"Literal", .form .literal),
   (c!"Annotated", .form .annotated)]
def annWorld (table : List (Str × AnnExpr)) (vars : List (Str × AnnObj)) (b : AnnClass) : AnnWorld :=
  ⟨fun s => lookupKey s table, annBuiltins, [vars], fun _ => b, 3, fun _ => false⟩
def annNames (vars : List (Str × AnnObj)) (n : Str) : Option AnnObj :=
  match lookupKey n vars with | some o => some o | none => lookupKey n annBuiltins
/-- Pairs of a name and an expression, evaluated one after the other; `keep` says whether later ones know earlier ones. -/
def annDefs (keep : Bool) (scope : List (Str × AnnObj)) : List String → List (Str × AnnObj) → Res (List (Str × AnnObj))
  | n :: e :: r, d =>
    let names := annNames (if keep then d else scope)
    match annEval names (fun _ n => lookupKey n (if keep then d else scope)) (readTree e) with
    | .error e => .error e
    | .ok o => annDefs keep scope r (upsert n.toList o d)
  | _, d => .ok d
def readTable : List String → List (Str × AnnExpr)
  | s :: e :: r => (text s, readTree e) :: readTable r
  | _ => []
def annotation (hints : Bool) (args : List String) : String :=
  match args with
  | [table, aliases, vars, e] =>
    let table := readTable (parts "|" table)
    match annDefs true [] (parts "|" aliases) annModule with
    | .error e => "err " ++ showErr e
    | .ok scope =>
      match annDefs false scope (parts "|" vars) [] with
      | .error e => "err " ++ showErr e
      | .ok vars =>
        match annEval (annNames scope) (fun _ n => lookupKey n scope) (readTree e) with
        | .error e => "err " ++ showErr e
        | .ok o =>
          let w := annWorld table scope ⟨0, vars, [], []⟩
          showRes showObj (if hints then w.hint 100 (w.classes 0) o else
            w.evaluateType 100 0 (match o with | .text s => if s.length % 2 == 1 then o else .ref s | o => o))
  | _ => "bad"

def one (kind : String) (args : List String) : String :=
  let a := args.headD ""
  let s := text a
  match kind with
  | "datetime.fromisoformat" => showRes (fun d => showDate d.date ++ " " ++ showTime d.time) (dateTimeFromIso s)
  | "date.fromisoformat" => showRes showDate (dateFromIso s)
  | "time.fromisoformat" => showRes showTime (timeFromIso s)
  | "datetime.isoformat" =>
    let (d, r) := readDate args
    "ok " ++ codes (dateTimeIso ⟨d, (readTime r).1⟩)
  | "time.isoformat" => "ok " ++ codes (timeIso (readTime args).1)
  | "date.isoformat" => "ok " ++ codes (dateIso (readDate args).1)
  | "date.toordinal" => "ok " ++ toString (dateOrdinal (readDate args).1)
  | "datetime.eq" =>
    let (d, r) := readDate args
    let (t, r) := readTime r
    let (d', r) := readDate r
    "ok " ++ showB (dateTimeEq ⟨d, t⟩ ⟨d', (readTime r).1⟩)
  | "time.eq" =>
    let (t, r) := readTime args
    "ok " ++ showB (timeEq t (readTime r).1)
  | "timedelta" =>
    match args with
    | [x, y, z] => showRes (fun d => s!"{d.days} {d.seconds} {d.micros}") (mkTimeDelta x.toNat! y.toNat! z.toNat!)
    | _ => "bad"
  | "uuid" => showRes (fun n => toString n) (uuidParse s)
  | "uuid.str" => "ok " ++ codes (uuidStr a.toNat!)
  | "ipv4" => showRes (fun n => toString n) (ipv4Parse s)
  | "ipv4.str" => "ok " ++ codes (ipv4Str a.toNat!)
  | "ipv6" => showRes (fun p => s!"{p.1} {match p.2 with | none => "-" | some o => codes o}") (ipv6Parse s)
  | "ipv6.str" => "ok " ++ codes (ipv6Str a.toNat!)
  | "b64decode" => showRes (fun bs => " ".intercalate (bs.map (fun b => toString b.val))) (b64Decode s)
  | "b64encode" => "ok " ++ codes (b64Encode (s.map fun c => byte c.toNat))
  | "json.loads" => showRes showJson (jsonLoads io s)
  | "json.dumps" =>
    match jsonLoads io s with
    | .error e => "err " ++ showErr e
    | .ok j => showRes codes (jsonDumpString io j)
  | "cleandoc" => "ok " ++ codes (cleandoc s)
  | "strip" => "ok " ++ codes (pyStrip s)
  | "split" => "ok " ++ ";".intercalate ((pyWords s).map codes)
  | "split.char" => "ok " ++ ";".intercalate ((splitOn ':' s).map codes)
  | "replace" => "ok " ++ codes (removeSub c!"ab" s)
  | "sub.space" => "ok " ++ codes (collapseSpace false s)
  | "isspace" => "ok " ++ showB (pySpace (Char.ofNat a.toNat!))
  | "word" => "ok " ++ showB (isWordChar (fun _ => false) (Char.ofNat a.toNat!))
  | "isidentifier" => "ok " ++ showB (isIdentifier cfg s)
  | "iskeyword" => "ok " ++ showB (isKeyword s)
  | "repr" =>
    let hidden := text (args.getD 1 "")
    "ok " ++ codes (reprStr (fun c => !hidden.contains c) s)
  | "float" => showRes showFloat (intToFloat a.toInt!)
  | "float.eq" =>
    let (f, r) := readFloat args
    "ok " ++ showB (floatEq f (readFloat r).1)
  | "float.eq.int" =>
    let (f, r) := readFloat args
    "ok " ++ showB (floatEqInt f (r.headD "").toInt!)
  | "enum" =>
    showRes (fun p => showPairs p.1 ++ "|" ++ showPairs p.2) (pyEnum s (readPairs args.tail))
  | "class" => showRes (fun w => " ".intercalate (w.map (showClass w))) (classStmts [] (args.map readClass))
  | "get_type_hints" => annotation true args
  | "ForwardRef" => annotation false args
  | "make_dataclass" => showRes (fun _ => "") (checkFieldNames cfg [] (args.map text))
  | "make_dataclass.slots" =>
    showRes (fun p => ";".intercalate (p.2.classes.map fun cd =>
        codes cd.module ++ "." ++ codes cd.name ++ ":" ++ " ".intercalate (cd.fields.map fun f => codes f.name)))
      (createDataType cfg ⟨[], [], id⟩ s (args.tail.map fun a => (text a, .int)))
  | _ => "bad"

def main (args : List String) : IO Unit := do
  let txt ← IO.FS.readFile (args.headD "")
  let out ← IO.FS.Handle.mk ((args.getD 1 "")) .write
  for l in txt.splitOn "\n" do
    if l != "" then
      match l.splitOn "\t" with
      | k :: r => out.putStrLn (one k r)
      | _ => out.putStrLn "bad"
"""

R = random.Random(int(sys.argv[1]) if len(sys.argv) > 1 else 1)
COUNT = int(sys.argv[2]) if len(sys.argv) > 2 else 20000


def codes(s):
    return ",".join(str(ord(c)) for c in s)


# ---------------------------------------------------------------- random inputs


def mutate(s, alphabet):
    s = list(s)
    for _ in range(R.choice([0, 0, 1, 1, 1, 2, 3])):
        op = R.randrange(4)
        i = R.randrange(len(s) + 1)
        if R.random() < 0.1:
            s = s[:i]
        elif op == 0:
            s.insert(i, R.choice(alphabet))
        elif op == 1 and s:
            del s[min(i, len(s) - 1)]
        elif op == 2 and s:
            s[min(i, len(s) - 1)] = R.choice(alphabet)
        elif s:
            j = R.randrange(len(s) + 1)
            i, j = min(i, j), max(i, j)
            if j - i < 5:
                del s[i:j]
    return "".join(s)


def d2():
    return "%02d" % R.choice([0, 1, 5, 12, 23, 24, 30, 59, 60, 99])


def time_text():
    sep = R.choice([":", ":", ""])
    s = d2()
    if R.random() < 0.9:
        s += sep + d2()
    if R.random() < 0.8:
        s += sep + d2()
    if R.random() < 0.5:
        s += R.choice([".", ",", ":", ""]) + "".join(R.choice("0123456789") for _ in range(R.randrange(0, 10)))
    return s


def zone_text():
    r = R.random()
    if r < 0.3:
        return ""
    if r < 0.5:
        return "Z"
    return R.choice("+-") + time_text()


def date_text():
    r = R.random()
    y = "%04d" % R.choice([0, 1, 1970, 2000, 2020, 2021, 2024, 1900, 9999, 2026, 2015, 2009])
    if r < 0.5:
        return y + "-" + "%02d" % R.randrange(0, 14) + "-" + "%02d" % R.randrange(0, 33)
    if r < 0.7:
        return y + "%02d" % R.randrange(0, 14) + "%02d" % R.randrange(0, 33)
    w = "%02d" % R.choice([0, 1, 2, 10, 51, 52, 53, 54])
    if r < 0.85:
        return y + "-W" + w + (R.choice(["", "-%d" % R.randrange(0, 9)]))
    return y + "W" + w + (R.choice(["", "%d" % R.randrange(0, 9)]))


ISO = "0123456789:.,+-ZTW xé€\U0001F600\n\0 /"


def datetime_text():
    sep = R.choice(["T", "T", "T", " ", "x", "-", "1", "é", "€", "\U0001F600", ""])
    return mutate(date_text() + sep + R.choice([time_text(), time_text(), time_text(), ""]) + zone_text(), ISO)


def offset():
    r = R.random()
    if r < 0.2:
        return "-"
    if r < 0.5:
        return str(R.randrange(-1439, 1440) * 60000000)
    if r < 0.7:
        return str(R.randrange(-86399, 86400) * 1000000)
    if r < 0.85:
        return str(R.randrange(-2000000, 2000000))
    return str(R.randrange(-86399999999, 86400000000))


def date_fields():
    d = datetime.date.fromordinal(R.choice([R.randrange(1, 3652060), R.randrange(730000, 740000)]))
    return [str(d.year), str(d.month), str(d.day)]


def time_fields():
    us = R.choice([0, R.randrange(1000000), 1, 999999, 100000])
    return [str(R.randrange(24)), str(R.randrange(60)), str(R.choice([0, R.randrange(60)])), str(us), offset()]


def make_time(f):
    tz = None if f[4] == "-" else datetime.timezone(datetime.timedelta(microseconds=int(f[4])))
    return datetime.time(int(f[0]), int(f[1]), int(f[2]), int(f[3]), tzinfo=tz)


def make_date(f):
    return datetime.date(int(f[0]), int(f[1]), int(f[2]))


def make_datetime(f):
    return datetime.datetime.combine(make_date(f[:3]), make_time(f[3:8]))


def shifted(d, t):
    """The same point in time (or nearly so) in another time zone."""
    x = make_datetime(d + t)
    if x.tzinfo is None or not 2 < x.year < 9998:
        return d + t
    o = offset()
    if o == "-":
        o = "0"
    y = x.astimezone(datetime.timezone(datetime.timedelta(microseconds=int(o))))
    y += datetime.timedelta(microseconds=R.choice([0, 0, 0, 1, -1]))
    return [str(v) for v in (y.year, y.month, y.day, y.hour, y.minute, y.second, y.microsecond)] + [o]


def two_datetimes():
    d, t = date_fields(), time_fields()
    return d + t + (shifted(d, t) if R.random() < 0.7 else date_fields() + time_fields())


def two_times():
    t = time_fields()
    return t + (shifted(["2000", "1", "2"], t)[3:] if R.random() < 0.7 else time_fields())


def uuid_text():
    h = "%032x" % R.getrandbits(128)
    u = str(uuid.UUID(h))
    s = R.choice(
        [u, h, "{" + u + "}", "urn:uuid:" + u, h.upper(), "0x" + h[2:], " " + h[2:] + " ", "+" + h[1:], h[:10] + "_" + h[11:],
         "0x_" + h[3:]]
    )
    return mutate(s, "0123456789abcdefABCDEFg{}-_xX+ urn:id\n\t\0")


def v4_text():
    odd = ["0", "1", "00", "01", "255", "256", "127", "10", "999", "1000", ""]
    return ".".join(
        R.choice(odd) if R.random() < 0.3 else str(R.randrange(256)) for _ in range(R.choice([4, 4, 4, 4, 3, 5]))
    )


def v6_int():
    sparse = R.getrandbits(128) & R.getrandbits(128) & R.getrandbits(128) & ~(0xFFFFFFFF << R.randrange(0, 96))
    holes = 0
    for i in range(8):
        holes |= (R.choice([0, 0, R.getrandbits(16)])) << (16 * i)
    return R.choice([R.getrandbits(128), R.getrandbits(16), R.getrandbits(16) << R.randrange(112), sparse, holes, 0, 2**128 - 1])


def v6_text():
    if R.random() < 0.4:
        s = str(ipaddress.IPv6Address(v6_int())) + R.choice([""] * 6 + ["%eth0", "%", "%1%2"])
    else:
        odd = ["", "0", "1", "ffff", "abcd", "12345", "g", "ABC"]
        parts = [R.choice(odd) if R.random() < 0.5 else "%x" % R.getrandbits(16) for _ in range(R.randrange(1, 11))]
        if R.random() < 0.3:
            parts[-1] = v4_text()
        s = ":".join(parts)
    return mutate(s, "0123456789abcdefABCDEF:::../%g \n")


def b64_text():
    return mutate(base64.b64encode(bytes(R.randrange(256) for _ in range(R.randrange(0, 9)))).decode(), "ABCab01+/====-_ \né\0")


CHARS = "abz09 \"\\/\b\f\n\r\t\0\x01\x1f\x7f\x80é€ ﻿\U0001F600'{}[]:,"


def some_text(alphabet=CHARS, most=8):
    return "".join(R.choice(alphabet) for _ in range(R.randrange(most)))


def number_text():
    r = R.random()
    if r < 0.3:
        return str(R.choice([0, 1, -1, 10, R.randrange(-1000, 1000), R.getrandbits(70), -R.getrandbits(70)]))
    if r < 0.6:
        x = R.choice([R.uniform(-10, 10), R.uniform(-1, 1) * 10.0 ** R.randrange(-300, 300), float(R.randrange(-100, 100))])
        return repr(x)
    if r < 0.7:
        return R.choice(["NaN", "Infinity", "-Infinity"])
    return (
        R.choice(["", "-", "+"])
        + R.choice(["0", "00", "1", "12", ""])
        + R.choice(["", "", ".5", ".", ".05"])
        + R.choice(["", "", "e5", "E-5", "e+", "e", "e+07"])
    )


def string_text():
    s = json.dumps(some_text(), ensure_ascii=R.random() < 0.5)
    if R.random() < 0.3:
        extra = ["\\ud83d\\ude00", "\\ud83d", "\\u0041", "\\u00e9", "\\uD83D\\uDE00", "\\u004", "\\x", "\\/", "\n", "\t", "\\udc00"]
        s = s[:-1] + R.choice(extra) + '"'
    return s


def blank():
    return R.choice(["", "", "", " ", "\n", "\t", "\r\n", "\x0b", "\xa0"] if R.random() < 0.1 else ["", "", " ", "\n"])


def json_text(depth=3):
    r = R.random()
    if depth == 0 or r < 0.5:
        s = R.choice([string_text, number_text, number_text, lambda: R.choice(["true", "false", "null", "nul", "True"])])()
    elif r < 0.75:
        s = "[" + ",".join(json_text(depth - 1) for _ in range(R.randrange(4))) + blank() + "]"
    else:
        key = lambda: R.choice(['"a"', '"b"', string_text()])
        s = "{" + blank() + ",".join(
            blank() + key() + blank() + ":" + json_text(depth - 1) for _ in range(R.randrange(4))
        ) + blank() + "}"
    return blank() + s + blank()


def json_value(depth=3):
    r = R.random()
    if depth == 0 or r < 0.6:
        return R.choice([some_text(), R.randrange(-1000, 1000), R.getrandbits(80), R.uniform(-1, 1), 1e300 * R.random(),
                         float(R.randrange(9)), True, False, None, math.nan, math.inf, -math.inf])
    if r < 0.8:
        return [json_value(depth - 1) for _ in range(R.randrange(4))]
    return {some_text(): json_value(depth - 1) for _ in range(R.randrange(4))}


DOC = "ab :\n\n\n\t \r\x0b\x0c\x1c\x85\xa0 "


def doc_text():
    lines = []
    for _ in range(R.randrange(0, 6)):
        lines.append(R.choice(["", " ", "  ", "    ", "\t", " \t", "        "]) + R.choice(["", "a", "ab c", ":param x: y", "a\tb", "  "]))
    return mutate(R.choice(["\n", "\n", "\r\n"]).join(lines), DOC)


def float_fields(x):
    if math.isnan(x):
        return ["nan", "0", "0"]
    if math.isinf(x):
        return ["inf", "1" if x < 0 else "0", "0"]
    neg = "1" if math.copysign(1.0, x) < 0 else "0"
    if x == 0:
        return [neg, "0", "0"]
    n, d = abs(x).as_integer_ratio()
    e = 0
    while n % 2 == 0:
        n, e = n // 2, e + 1
    while d > 1:
        d, e = d // 2, e - 1
    return [neg, str(n), str(e)]


def show_float(x):
    f = float_fields(x)
    if f[0] == "nan":
        return "nan"
    if f[0] == "inf":
        return "-inf" if f[1] == "1" else "inf"
    return f"{f[0] == '1'} {f[1]} {f[2]}"


def some_float():
    r = R.random()
    if r < 0.3:
        return float(R.randrange(-5, 6))
    if r < 0.5:
        return R.choice([0.0, -0.0, math.nan, math.inf, -math.inf, 0.5, 2.0**53, 2.0**1023, 5e-324])
    if r < 0.7:
        return float(R.getrandbits(R.randrange(1, 900)))
    return struct.unpack("<d", struct.pack("<Q", R.getrandbits(64)))[0]


def float_of(f):
    if f[0] == "nan":
        return math.nan
    if f[0] == "inf":
        return -math.inf if f[1] == "1" else math.inf
    m, e = int(f[1]), int(f[2])
    x = math.ldexp(m, e) if m.bit_length() <= 53 else float(m * 2**e)
    return -x if f[0] == "1" else x


def big_int():
    k = R.choice([R.randrange(1, 60), R.randrange(50, 70), R.randrange(1, 1030), 1024])
    i = R.choice([R.getrandbits(k), 2**k, 2**k - 1, 2**k - R.randrange(1, 2**min(k, 12)), 2**k + 2 ** max(0, k - 53)])
    i = R.choice([i, (2**1024 - 2**970) + R.randrange(-2, 3) * 2 ** R.randrange(0, 972)]) if R.random() < 0.2 else i
    return R.choice([1, -1]) * i


def float_and_int():
    x = some_float()
    if math.isfinite(x) and R.random() < 0.6:
        i = int(x) + R.choice([0, 0, 0, 1, -1])
    else:
        i = R.choice([0, 1, R.getrandbits(70)])
    return float_fields(x) + [str(i)]


NAMES = ["a", "b", "A", "mro", "", "__a__", "_a_", "_b", "a_", "__a", "___", "__", "_C__x", "_C__x_", "_C__x__", "x y", "1", "_order_", "_", "____", "_____", "_a__", "__a_"]


def scalar_field():
    r = R.random()
    if r < 0.4:
        return "s" + codes(R.choice(["", "a", "b", "c"]))
    if r < 0.6:
        return "i" + str(R.randrange(3))
    if r < 0.7:
        return R.choice("TF")
    if r < 0.9:
        return "f" + " ".join(float_fields(R.choice([0.0, -0.0, 1.0, 1.5, math.inf])))
    return "N"


def scalar_of(s):
    if s[0] == "s":
        return text_of(s[1:])
    if s[0] == "i":
        return int(s[1:])
    if s[0] in "TF":
        return s[0] == "T"
    if s[0] == "f":
        return float_of(s[1:].split(" "))
    return None


def show_scalar(v):
    if isinstance(v, bool):
        return str(v)
    if isinstance(v, str):
        return "s" + codes(v)
    if isinstance(v, int):
        return f"i{v}"
    if isinstance(v, float):
        return "f" + show_float(v)
    return "N"


def enum_fields():
    names = [n for n in NAMES if R.random() < 0.15] or ["a"]
    R.shuffle(names)
    out = [codes(R.choice(["C", "", "D"]))]
    for n in names:
        out += [codes(n), scalar_field()]
    return out


def text_of(s):
    return "".join(chr(int(x)) for x in s.split(",")) if s else ""


# ---------------------------------------------------------------- the standard library


class FloatText:
    def __init__(self, s):
        self.s = s


def show_json(j):
    if j is None:
        return "N"
    if isinstance(j, bool):
        return str(j)
    if isinstance(j, int):
        return f"i{j}"
    if isinstance(j, FloatText):
        return "f" + codes(j.s)
    if isinstance(j, float):
        return "f" + show_float(j)
    if isinstance(j, str):
        return "s" + codes(j)
    if isinstance(j, list):
        return "[" + ";".join(show_json(x) for x in j) + "]"
    return "{" + ";".join(codes(k) + ":" + show_json(v) for k, v in j.items()) + "}"


def has_surrogate(j):
    if isinstance(j, str):
        return any(0xD800 <= ord(c) <= 0xDFFF for c in j)
    if isinstance(j, list):
        return any(has_surrogate(x) for x in j)
    if isinstance(j, dict):
        return any(has_surrogate(x) for kv in j.items() for x in kv)
    return False


def json_loads(s):
    j = json.loads(s, parse_float=FloatText)
    if has_surrogate(j):
        raise OutOfModel()
    return show_json(j)


class OutOfModel(Exception):
    pass


def show_offset(t):
    o = t.utcoffset()
    return "-" if o is None else str(o // datetime.timedelta(microseconds=1))


def show_time(t):
    return f"{t.hour} {t.minute} {t.second} {t.microsecond} {show_offset(t)}"


def show_date(t):
    return f"{t.year} {t.month} {t.day}"


def show_datetime(t):
    return show_date(t) + " " + show_time(t)


def show_v6(s):
    a = ipaddress.IPv6Address(s)
    return f"{int(a)} {'-' if a.scope_id is None else codes(a.scope_id)}"


def show_timedelta(a):
    d = datetime.timedelta(days=int(a[0]), seconds=int(a[1]), microseconds=int(a[2]))
    return f"{d.days} {d.seconds} {d.microseconds}"


def make_enum(a):
    values = {}
    for n, v in zip(a[1::2], a[2::2]):
        values[text_of(n)] = scalar_of(v)
    e = enum.Enum(text_of(a[0]), values)
    canonical = [(n, m.value) for n, m in e.__members__.items() if m.name == n]
    aliases = [(n, values[n]) for n, m in e.__members__.items() if m.name != n]
    show = lambda ps: ";".join(codes(n) + "=" + show_scalar(v) for n, v in ps)
    return show(canonical) + "|" + show(aliases)


def make_dataclass(a):
    dataclasses.make_dataclass("C", [(text_of(n), int) for n in a])
    return ""


def make_slots(a):
    c = dataclasses.make_dataclass(text_of(a[0]), [(text_of(n), int) for n in a[1:]], slots=True)
    assert all(f.default is dataclasses.MISSING for f in dataclasses.fields(c))
    return codes(c.__module__) + "." + codes(c.__name__) + ":" + " ".join(codes(f.name) for f in dataclasses.fields(c))


TYPES = {"i": int, "s": str, "b": bool, "f": float}


def class_fields():
    l = []
    for i in range(R.randrange(1, 7)):
        bases = R.sample(range(i), min(i, R.choice([0, 1, 1, 2, 2, 3])))
        if R.random() < 0.8:
            bases.sort(reverse=True)
        names = R.sample("abcd", R.choice([0, 1, 1, 2, 3]))
        d = R.choice(["-", str(R.randrange(10)), str(R.randrange(10))])
        own = ";".join(f"{n}:{R.choice('isbf')}:{d if R.random() < 0.9 else '-'}" for n in names)
        l.append(",".join(map(str, bases)) + "|" + R.choice(["-", "0", "0", "0", "0", "1"]) + "|" + own)
    return l


def make_classes(a):
    l = []
    for c in a:
        bases, decorated, own = c.split("|")
        body = {"__annotations__": {}}
        for f in own.split(";") if own else []:
            n, t, d = f.split(":")
            body["__annotations__"][n] = TYPES[t]
            if d != "-":
                body[n] = int(d)
        cls = type("C", tuple(l[int(b)] for b in bases.split(",")) if bases else (), body)
        if decorated != "-":
            cls = dataclasses.dataclass(frozen=decorated == "1")(cls)
        l.append(cls)
    letter = {v: k for k, v in TYPES.items()}
    out = []
    for c in l:
        fields = getattr(c, "__dataclass_fields__", None)
        if fields is not None:
            assert tuple(fields.values()) == dataclasses.fields(c)
            fields = ";".join(
                f"{n}:{letter[f.type]}:{'-' if f.default is dataclasses.MISSING else f.default}" for n, f in fields.items()
            )
        hints = typing.get_type_hints(c, include_extras=True)
        out.append(
            ",".join(str(l.index(b)) for b in c.__mro__[:-1])
            + "|" + ("-" if fields is None else fields) + "|" + ";".join(f"{n}:{letter[t]}" for n, t in hints.items())
        )
    return " ".join(out)


# ---------------------------------------------------------------- annotations


class A:
    pass


class B:
    pass


FORMS = {"list": list, "set": set, "dict": dict, "tuple": tuple, "List": typing.List, "Set": typing.Set, "Dict": typing.Dict,
    "Tuple": typing.Tuple, "Union": typing.Union, "Literal": typing.Literal, "Annotated": typing.Annotated, "pipe": types.UnionType}


def sub_list(l):
    """In the same order: Literal[1, 2] == Literal[2, 1], and the model does not merge members of unions."""
    return [x for x in l if R.random() < 0.6] or l[:1]


def ann_expr(depth, table, known=("T0", "T1", "T2", "V")):
    """A random expression: its tree, and its source; `table` gets the texts in it.  Outside of texts mostly `known` names."""

    def sub():
        return ann_expr(depth - 1, table, known)

    def index(form, args):
        return f"i {len(args)} n {form} " + " ".join(t for t, _ in args), f"{form}[{', '.join(x for _, x in args)}]"

    r = R.random()
    if depth == 0 or r < 0.25:
        r = R.random()
        if r < 0.04:
            return "N", "None"
        if r < 0.05:
            return "k 5", "5"
        if r < 0.09:
            n = R.choice(["A", "B", "T0", "A", "B", "A1"])
            return f"a {n} n m", f"m.{n}"
        if r < 0.11:
            n = R.choice(list(FORMS)[:-1])
        elif r < 0.12:
            n = "m"
        elif r < 0.14:
            n = R.choice(["typ", "module", "C1"])
        else:
            n = R.choice(["A", "A", "B", "B", "int", "int", "str", *known])
        return f"n {n}", n
    if r < 0.45:
        t, x = ann_expr(depth - 1, table)
        table[x] = t
        return f"t {codes(x)}", repr(x)
    if r < 0.75:
        form = R.choice(["list", "set", "List", "Set", "dict", "Dict", "tuple", "Tuple", "Union", "Union"])
        n = {"dict": 2, "Dict": 2, "tuple": R.randrange(1, 4), "Tuple": R.randrange(1, 4), "Union": R.randrange(2, 4)}.get(form, 1)
        args = [sub() for _ in range(n)]
        while form == "Union" and len({x for _, x in args}) < n:
            args = [sub() for _ in range(n)]
        return index(form, args)
    if r < 0.8:
        return index("Literal", sub_list([("k 1", "1"), ("k 2", "2"), (f"t {codes('A')}", "'A'"), ("N", "None")]))
    if r < 0.88:
        return index("Annotated", [sub()] + R.sample([("k 1", "1"), ("k 2", "2")], R.randrange(1, 3)))
    if r < 0.9:
        t, x = sub()
        while x in FORMS or x in known:
            t, x = sub()
        u, y = sub()
        while y == "5":
            u, y = sub()
        return f"i 1 {t} {u}", f"({x})[{y}]"
    # operands that are themselves unions are left out: the model does not merge equal members
    (t, x), (u, y) = [operand(depth - 1, table, known) for _ in range(2)]
    return f"o {t} {u}", f"({x}) | ({y})"


def operand(depth, table, known):
    while True:
        t, x = ann_expr(depth, table, known)
        if not any(w in ("Union", "T0", "T1", "T2", "V") for w in re.findall(r"\w+", re.sub(r"'.*?'", "", x))) and "|" not in x and x != "5":
            return t, x


def ann_fields():
    table = {"A": "n A"}
    depth = R.randrange(4)
    known = []
    aliases = []
    for n in ["T0", "T1", "T2"]:
        if R.random() < 0.85:
            aliases.append((n, *ann_expr(R.randrange(3), table, known)))
            known.append(n)
    vars = [(n, *ann_expr(R.randrange(3), table, known)) for n in ["A", "V", "int", "T0"] if R.random() < 0.25]
    e = ann_expr(depth, table, known)
    fields = ["|".join(f"{codes(x)}|{t}" for x, t in table.items())]
    fields += ["|".join(f"{n}|{t}" for n, t, _ in l) for l in (aliases, vars)] + [e[0]]
    SOURCES[tuple(fields)] = (aliases, vars, e[1])
    return fields


SOURCES = {}


def ann_parts(args, kind):
    """Unions have their members once, and no unions as members; annotations of annotations are one."""
    out = []
    for a in args:
        out += a[1] if a[0] == kind else [a]
    return [a for i, a in enumerate(out) if a not in out[:i]]


def ann_gen(form, args):
    if form in ("Union", "pipe"):
        args = ann_parts(ann_parts(args, "Union"), "pipe")
        return args[0] if len(args) == 1 else (form, args)
    if form == "Annotated" and args[0][0] == "Annotated":
        return (form, args[0][1] + args[1:])
    return (form, args)


def ann_norm(o):
    """Objects as trees."""
    if o is None:
        return ("N",)
    if o is type(None):
        return ("Z",)
    for i, c in enumerate([A, B, int, str]):
        if o is c:
            return (f"c{i}",)
    for n, f in FORMS.items():
        if o is f:
            return ("F" + n,)
    if isinstance(o, types.ModuleType):
        return ("M0",)
    if isinstance(o, int):
        return (f"k{o}",)
    if isinstance(o, str):
        return ("t" + codes(o),)
    if isinstance(o, typing.ForwardRef):
        return ("r" + codes(o.__forward_arg__),)
    if isinstance(o, types.UnionType):
        form, args = "pipe", o.__args__
    elif typing.get_origin(o) is typing.Annotated:
        form, args = "Annotated", (o.__origin__,) + o.__metadata__
    elif typing.get_origin(o) is typing.Union:
        form, args = "Union", o.__args__
    elif typing.get_origin(o) is typing.Literal:
        form, args = "Literal", o.__args__
    else:
        form, args = o.__origin__.__name__, o.__args__
        if not isinstance(o, types.GenericAlias):
            form = form.capitalize()
    return ann_gen(form, [ann_norm(a) for a in args])


def ann_read(s):
    """The same for the output of the model."""
    pos = 0

    def item():
        nonlocal pos
        m = re.compile(r"[^;()]*").match(s, pos)
        pos = m.end()
        if not m[0].startswith("G"):
            return (m[0],)
        args = []
        while s[pos] != ")":
            pos += 1
            if s[pos] == ")":
                break
            args.append(item())
        pos += 1
        return ann_gen(m[0][1:], args)

    return item()


def ann_tree(t):
    return t[0] if len(t) == 1 else f"G{t[0]}({';'.join(ann_tree(a) for a in t[1])})"


def annotation(hints, a):
    aliases, vars, e = SOURCES[tuple(a)]
    for f in typing._cleanups:
        f()
    module = types.ModuleType("annotated_module")
    d = module.__dict__
    d.update({"A": A, "B": B, "m": module, **{n: f for n, f in FORMS.items() if not n.islower()}})
    try:
        for n, _, x in aliases:
            d[n] = eval(x, d)
        body = {n: eval(x, d) for n, _, x in vars}
        o = eval(e, d)
        if hints:
            sys.modules["annotated_module"] = module
            cls = type("C", (), {**body, "__annotations__": {"x": o}, "__module__": "annotated_module"})
            o = typing.get_type_hints(cls, include_extras=True)["x"]
        elif isinstance(o, typing.ForwardRef):
            return "skipped"  # members of a union that are merged
        elif isinstance(o, str) and len(o) % 2 == 1:
            o = eval(o, d, {"typ": o, "module": module})
        elif isinstance(o, str):
            o = typing.ForwardRef(o)
            o = o._evaluate(d, {"typ": o, "module": module}, recursive_guard=frozenset())
    except NameError:
        return "err name"
    except RecursionError:
        # Annotated["T0", 1] named T0: comparison of references does not end
        return "skipped"
    except AttributeError as e:
        # Annotated[5, 1], not told from other annotations in the model
        return "skipped" if "__module__" in str(e) else "err attribute"
    except TypeError:
        return "err typeError"
    return "ok " + ann_tree(ann_norm(o))


def small():
    return str(R.choice([R.randrange(10), R.randrange(10**6), R.randrange(10**12), 999999999, 10**9]))


def field_names():
    pool = ["a", "b", "if", "None", "match", "x1", "1x", "_a", "a b", "", "class", "a-b", "_", "async", "True"]
    return [codes(R.choice(pool)) for _ in range(R.randrange(4))]


s0 = lambda a: text_of(a[0])
spaces = "ab \t\n\r\x0b\x0c\x1c\x1d\x1e\x1f\x85\xa0   ​    　﻿"

# kind: (generator of arguments, standard library)
KINDS = {
    "datetime.fromisoformat": (lambda: [codes(datetime_text())], lambda a: show_datetime(datetime.datetime.fromisoformat(s0(a)))),
    "date.fromisoformat": (lambda: [codes(mutate(date_text(), ISO))], lambda a: show_date(datetime.date.fromisoformat(s0(a)))),
    "time.fromisoformat": (
        lambda: [codes(mutate(R.choice(["", "", "T"]) + time_text() + zone_text(), ISO))],
        lambda a: show_time(datetime.time.fromisoformat(s0(a))),
    ),
    "datetime.isoformat": (lambda: date_fields() + time_fields(), lambda a: codes(make_datetime(a).isoformat())),
    "time.isoformat": (time_fields, lambda a: codes(make_time(a).isoformat())),
    "date.isoformat": (date_fields, lambda a: codes(make_date(a).isoformat())),
    "date.toordinal": (date_fields, lambda a: str(make_date(a).toordinal())),
    "datetime.eq": (two_datetimes, lambda a: str(make_datetime(a[:8]) == make_datetime(a[8:]))),
    "time.eq": (two_times, lambda a: str(make_time(a[:5]) == make_time(a[5:]))),
    "timedelta": (lambda: [small(), small(), small()], show_timedelta),
    "uuid": (lambda: [codes(uuid_text())], lambda a: str(uuid.UUID(s0(a)).int)),
    "uuid.str": (lambda: [str(R.getrandbits(R.choice([128, 100, 10])))], lambda a: codes(str(uuid.UUID(int=int(a[0]))))),
    "ipv4": (lambda: [codes(mutate(v4_text(), "0123456789./ +-\n٣"))], lambda a: str(int(ipaddress.IPv4Address(s0(a))))),
    "ipv4.str": (lambda: [str(R.getrandbits(32))], lambda a: codes(str(ipaddress.IPv4Address(int(a[0]))))),
    "ipv6": (lambda: [codes(v6_text())], lambda a: show_v6(s0(a))),
    "ipv6.str": (lambda: [str(v6_int())], lambda a: codes(str(ipaddress.IPv6Address(int(a[0]))))),
    "b64decode": (
        lambda: [codes(b64_text())],
        lambda a: " ".join(str(x) for x in base64.b64decode(s0(a), validate=True)),
    ),
    "b64encode": (
        lambda: [",".join(str(R.randrange(256)) for _ in range(R.randrange(10)))],
        lambda a: codes(base64.b64encode(bytes(ord(c) for c in s0(a))).decode("ascii")),
    ),
    "json.loads": (lambda: [codes(mutate(json_text(), CHARS + "tfn019-.eE"))], lambda a: json_loads(s0(a))),
    "json.dumps": (
        lambda: [codes(json.dumps(json_value()))],
        lambda a: codes(json.dumps(json.loads(s0(a)), ensure_ascii=False, check_circular=False, separators=(",", ":"))),
    ),
    "cleandoc": (lambda: [codes(doc_text())], lambda a: codes(inspect.cleandoc(s0(a)))),
    "strip": (lambda: [codes(some_text(spaces))], lambda a: codes(s0(a).strip())),
    "split": (lambda: [codes(some_text(spaces))], lambda a: ";".join(codes(w) for w in s0(a).split())),
    "split.char": (lambda: [codes(some_text("ab::"))], lambda a: ";".join(codes(w) for w in s0(a).split(":"))),
    "replace": (lambda: [codes(some_text("aabbc", 12))], lambda a: codes(s0(a).replace("ab", ""))),
    "sub.space": (lambda: [codes(some_text(spaces))], lambda a: codes(re.sub(r"\s+", " ", s0(a)))),
    "isidentifier": (lambda: [codes(mutate("ab1_", "aZ09_ -.$:"))], lambda a: str(s0(a).isidentifier())),
    "repr": (
        lambda: (lambda s: [codes(s), codes([c for c in s if not c.isprintable()])])(some_text(CHARS + "''\xad​\U000e0001")),
        lambda a: codes(repr(s0(a))),
    ),
    "float": (lambda: [str(big_int())], lambda a: show_float(float(int(a[0])))),
    "float.eq": (
        lambda: (lambda x: float_fields(x) + float_fields(x if R.random() < 0.5 else R.choice([-x, some_float()])))(some_float()),
        lambda a: str(float_of(a[:3]) == float_of(a[3:])),
    ),
    "float.eq.int": (float_and_int, lambda a: str(float_of(a[:3]) == int(a[3]))),
    "enum": (enum_fields, make_enum),
    "class": (class_fields, make_classes),
    "make_dataclass": (field_names, make_dataclass),
    "make_dataclass.slots": (lambda: [codes(R.choice(["A", "a b", "", "x.y", "A\0", "\0"]))] + field_names(), make_slots),
    "get_type_hints": (ann_fields, lambda a: annotation(True, a)),
    "ForwardRef": (ann_fields, lambda a: annotation(False, a)),
}

# finite tables: all arguments
TABLES = {
    "isspace": (
        [[str(i)] for i in range(0x110000) if not 0xD800 <= i <= 0xDFFF],
        lambda a: str(chr(int(a[0])).isspace() and bool(re.match(r"\s", chr(int(a[0]))))),
    ),
    "word": ([[str(i)] for i in range(128)], lambda a: str(bool(re.match(r"\w", chr(int(a[0])))))),
    "iskeyword": (
        [[codes(w)] for w in keyword.kwlist + keyword.softkwlist + ["a", "", "true", "none", "Class"]],
        lambda a: str(keyword.iskeyword(s0(a))),
    ),
}


def expected(f, a):
    try:
        e = f(a)
        return e if e.startswith(("ok ", "err ", "skipped")) else "ok " + e
    except OutOfModel:
        return "err outOfModel"
    except OverflowError:
        return "err overflow"
    except ValueError:
        return "err valueError"
    except TypeError:
        return "err typeError"


def main():
    wanted = sys.argv[3].split(",") if len(sys.argv) > 3 else None
    cases = []
    for k, (gen, _) in KINDS.items():
        if wanted is None or k in wanted:
            cases += [(k, gen()) for _ in range(COUNT)]
    for k, (args, _) in TABLES.items():
        if wanted is None or k in wanted:
            cases += [(k, a) for a in args]
    lake = pathlib.Path(__file__).resolve().parent.parent / "lean"
    with tempfile.TemporaryDirectory() as tmp:
        tmp = pathlib.Path(tmp)
        (tmp / "Run.lean").write_text(LEAN, encoding="utf-8")
        (tmp / "in").write_text("".join("\t".join([k] + a) + "\n" for k, a in cases), encoding="utf-8")
        subprocess.run(
            ["lake", "env", "lean", "--run", str(tmp / "Run.lean"), str(tmp / "in"), str(tmp / "out")], cwd=lake, check=True
        )
        got = (tmp / "out").read_text(encoding="utf-8").split("\n")
    count = Counter()
    wrong = {}
    for (k, a), g in zip(cases, got):
        e = expected({**KINDS, **TABLES}[k][1], a)
        if k in ("get_type_hints", "ForwardRef") and g.startswith("ok "):
            g = "ok " + ann_tree(ann_read(g[3:]))
        if e == "skipped":
            count[k, e, ""] += 1
        elif g.rstrip() == e.rstrip():
            count[k, "same", e[:3].strip()] += 1
        elif g == "err outOfModel":
            count[k, "out of model", ""] += 1
        else:
            count[k, "DIFFERENT", ""] += 1
            wrong.setdefault(k, []).append((a, e, g))
    for (k, what, how), n in sorted(count.items()):
        print(f"{k:24} {what:13} {how:4} {n}")
    for k, l in wrong.items():
        for a, e, g in sorted(l, key=lambda x: len(str(x)))[:10]:
            print(k, a, "python:", e, "model:", g)
    sys.exit(1 if wrong else 0)


main()
