import Verif.Model.StrOps
/-!
# Names of types

`TypeFormatter` (strong_typing/name.py:28-211) without `type_transform` and `value_transform`.  A type expression is what
`typing.get_origin` and `typing.get_args` show of a type.

Simplified: forward references, strings and type variables are in ScopedName; integers
are assumed short enough for `repr` (4300 digits); enumerations have the standard `__repr__`; annotations are objects of classes
made by `typeannotation`, whose arguments are `None`, booleans, integers and strings.
-/
namespace Verif

/-- Arguments of `Literal` other than enumeration members, and values of enumeration members. -/
inductive LitAtom where
  | none
  | bool (b : Bool)
  | int (i : Int)
  | str (s : Str)
  deriving DecidableEq

/-- Arguments of `Literal`. -/
inductive LitVal where
  | atom (a : LitAtom)
  | enum (cls name : Str) (value : LitAtom)
  deriving DecidableEq

/-- An annotation in `Annotated[T, …]`: an object of a class that is made by `typeannotation` (strong_typing/auxiliary.py:59-87),
with the values of its fields. -/
structure Annotation where
  name : Str
  args : List LitAtom
  deriving DecidableEq

/-- Type expressions: `named` is a class without type arguments, `generic` is a class with type arguments
(`list[T]`, `dict[K, V]`, `tuple[T, ...]`, `type[T]`, `Callable[…]`, user-defined classes), `argList` is the list of argument types
in `Callable[[A, B], C]`, `annotated` is `Annotated[T, …]`. -/
inductive TypeExpr where
  | none
  | ellipsis
  | any
  | named (name : Str)
  | generic (origin : Str) (args : List TypeExpr)
  | union (args : List TypeExpr)
  | literal (vals : List LitVal)
  | argList (items : List TypeExpr)
  | annotated (t : TypeExpr) (ms : List Annotation)

/-- `sep.join(parts)`. -/
def joinStr (sep : Str) : List Str → Str
  | [] => []
  | [p] => p
  | p :: q :: ps => p ++ (sep ++ joinStr sep (q :: ps))

/-- One character of `repr(str)` in quotes `q` (CPython `unicode_repr`); `printable` stands for the Unicode property
`str.isprintable` of a character above 0x7f. -/
def reprChar (printable : Char → Bool) (q c : Char) : Str :=
  if c = q ∨ c = '\\' then ['\\', c]
  else if c = '\t' then c!"\\t"
  else if c = '\n' then c!"\\n"
  else if c = '\r' then c!"\\r"
  else if c.toNat < 32 ∨ c.toNat = 127 then c!"\\x" ++ hexPad 2 c.toNat
  else if c.toNat < 127 then [c]
  else if printable c then [c]
  else if c.toNat < 256 then c!"\\x" ++ hexPad 2 c.toNat
  else if c.toNat < 65536 then c!"\\u" ++ hexPad 4 c.toNat
  else c!"\\U" ++ hexPad 8 c.toNat

/-- The quotes of `repr(str)`: double quotes only if the string has a single quote and no double quote. -/
def reprQuote (s : Str) : Char := if '\'' ∈ s ∧ '"' ∉ s then '"' else '\''

/-- `repr(s)`. -/
def reprStr (printable : Char → Bool) (s : Str) : Str :=
  reprQuote s :: (s.flatMap (reprChar printable (reprQuote s)) ++ [reprQuote s])

/-- `repr(value)` of a value that is not an enumeration member. -/
def LitAtom.repr (printable : Char → Bool) : LitAtom → Str
  | .none => c!"None"
  | .bool true => c!"True"
  | .bool false => c!"False"
  | .int i => intStr i
  | .str s => reprStr printable s

/-- `value_to_str` (strong_typing/name.py:58-68): `repr(value)`; for enumeration members see CPython enum.py:1193-1195. -/
def LitVal.repr (printable : Char → Bool) : LitVal → Str
  | .atom a => a.repr printable
  | .enum cls name v => c!"<" ++ (cls ++ (c!"." ++ (name ++ (c!": " ++ (v.repr printable ++ c!">")))))

/-- `repr` of an annotation: `_compact_dataclass_repr` (strong_typing/auxiliary.py:28-40). -/
def Annotation.repr (printable : Char → Bool) (m : Annotation) : Str :=
  m.name ++ ('(' :: (joinStr c!", " (m.args.map (LitAtom.repr printable)) ++ c!")"))

/-- `a == b`; in Python `True == 1` and `False == 0`. -/
def LitAtom.eq : LitAtom → LitAtom → Bool
  | .none, .none => true
  | .bool a, .bool b => a == b
  | .bool a, .int b => b == (if a then 1 else 0)
  | .int a, .bool b => a == (if b then 1 else 0)
  | .int a, .int b => a == b
  | .str a, .str b => a == b
  | _, _ => false

/-- `a == b` for tuples of field values. -/
def atomsEq : List LitAtom → List LitAtom → Bool
  | [], [] => true
  | a :: as, b :: bs => a.eq b && atomsEq as bs
  | _, _ => false

/-- `a == b` for annotations: data classes are equal if their classes and their fields are. -/
def Annotation.eq (a b : Annotation) : Bool := a.name == b.name && atomsEq a.args b.args

/-- `a == b` for the annotations of two types. -/
def annotationsEq : List Annotation → List Annotation → Bool
  | [], [] => true
  | a :: as, b :: bs => a.eq b && annotationsEq as bs
  | _, _ => false

/-- `m in ms`. -/
def Annotation.isIn (m : Annotation) (ms : List Annotation) : Bool := ms.any fun n => m.eq n

/-- An auxiliary type such as `int8`. -/
structure AuxType where
  name : Str
  base : Str
  metas : List Annotation
  deriving DecidableEq

/-- An auxiliary integer type. -/
def auxInt (name : Str) (signed : Bool) (bytes lo hi : Int) : AuxType :=
  ⟨name, c!"int", [⟨c!"Signed", [.bool signed]⟩, ⟨c!"Storage", [.int bytes]⟩, ⟨c!"IntegerRange", [.int lo, .int hi]⟩]⟩

/-- `_auxiliary_types` (strong_typing/auxiliary.py:168-208) in the order of `dir(module)`. -/
def auxTypes : List AuxType :=
  [⟨c!"float32", c!"float", [⟨c!"Storage", [.int 4]⟩]⟩, ⟨c!"float64", c!"float", [⟨c!"Storage", [.int 8]⟩]⟩,
   auxInt c!"int16" true 2 (-32768) 32767, auxInt c!"int32" true 4 (-2147483648) 2147483647,
   auxInt c!"int64" true 8 (-9223372036854775808) 9223372036854775807, auxInt c!"int8" true 1 (-128) 127,
   auxInt c!"uint16" false 2 0 65535, auxInt c!"uint32" false 4 0 4294967295,
   auxInt c!"uint64" false 8 0 18446744073709551615, auxInt c!"uint8" false 1 0 255]

/-- `t is base`. -/
def TypeExpr.isClass (base : Str) : TypeExpr → Bool
  | .named n => n == base
  | _ => false

/-- `_auxiliary_types.get(data_type)` (strong_typing/name.py:180). -/
def auxExact (t : TypeExpr) (ms : List Annotation) : Option AuxType :=
  auxTypes.find? fun a => t.isClass a.base && annotationsEq a.metas ms

/-- The auxiliary type that is found among the annotations (strong_typing/name.py:190-201). -/
def auxWithin (t : TypeExpr) (ms : List Annotation) : Option AuxType :=
  auxTypes.find? fun a => t.isClass a.base && a.metas.all fun m => m.isIn ms

/-- The text of an annotated type, given the text of the type (strong_typing/name.py:180-208); `plain_type_to_str` writes
`NoneType` for `None`. -/
def annotatedStr (printable : Char → Bool) (t : TypeExpr) (text : Str) (ms : List Annotation) : Str :=
  match auxExact t ms with
  | some a => a.name
  | none =>
    match auxWithin t ms with
    | some a =>
      c!"Annotated[" ++ (a.name ++ (c!", " ++
        (joinStr c!", " ((ms.filter fun m => !m.isIn a.metas).map (Annotation.repr printable)) ++ c!"]")))
    | none => c!"Annotated[" ++ (text ++ (c!", " ++ (joinStr c!", " (ms.map (Annotation.repr printable)) ++ c!"]")))

/-- `t is type(None)`. -/
def TypeExpr.isNone : TypeExpr → Bool
  | .none => true
  | _ => false

/-- `len(data_type_args) == 2 and type(None) in data_type_args` (strong_typing/name.py:80). -/
def optionalArgs (ts : List TypeExpr) : Bool := ts.length == 2 && ts.any TypeExpr.isNone

mutual

/-- `python_type_to_str`, `plain_type_to_str` and `union_to_str` (strong_typing/name.py:70-88, 90-164, 166-211). -/
def TypeExpr.fmt (printable : Char → Bool) (op : Bool) : TypeExpr → Str
  | .none => c!"None"
  | .ellipsis => c!"..."
  | .any => c!"Any"
  | .argList items => '[' :: (joinStr c!", " (TypeExpr.fmtL printable op items) ++ c!"]")
  | .named n => n
  | .literal vals => c!"Literal[" ++ (joinStr c!", " (vals.map (LitVal.repr printable)) ++ c!"]")
  | .union ts =>
    if op then joinStr c!" | " (TypeExpr.fmtL printable op ts)
    else if optionalArgs ts then c!"Optional[" ++ (joinStr c!", " (TypeExpr.fmtSome printable op ts) ++ c!"]")
    else c!"Union[" ++ (joinStr c!", " (TypeExpr.fmtL printable op ts) ++ c!"]")
  | .annotated t ms => annotatedStr printable t (if t.isNone then c!"NoneType" else TypeExpr.fmt printable op t) ms
  | .generic o ts => o ++ ('[' :: (joinStr c!", " (TypeExpr.fmtL printable op ts) ++ c!"]"))

/-- `self.python_type_to_str(t) for t in data_type_args`. -/
def TypeExpr.fmtL (printable : Char → Bool) (op : Bool) : List TypeExpr → List Str
  | [] => []
  | t :: ts => TypeExpr.fmt printable op t :: TypeExpr.fmtL printable op ts

/-- The same for `tuple(t for t in data_type_args if t is not type(None))` (strong_typing/name.py:83). -/
def TypeExpr.fmtSome (printable : Char → Bool) (op : Bool) : List TypeExpr → List Str
  | [] => []
  | t :: ts =>
    if t.isNone then TypeExpr.fmtSome printable op ts
    else TypeExpr.fmt printable op t :: TypeExpr.fmtSome printable op ts

end

end Verif
