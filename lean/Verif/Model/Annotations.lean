import Verif.Model.Inherit
/-!
# Names and texts in annotations

Annotations may be texts, in whole (`from __future__ import annotations`) or in part (`list["Node"]`, `Optional["Node"]`).  This is how
the texts are evaluated: for the reader by `typing.get_type_hints`, for the writer and for the collection of types by
`evaluate_type`, each in a namespace of its own.

Simplifications: the parser of Python is a parameter; of the operations on types there are indexing, attributes of modules and `|`;
unions are neither flattened nor are equal members removed; `Optional[T]` is `Union[T, None]`; classes are not generic; `typing.List`
etc. do not check the number of their arguments; the cache in `ForwardRef` objects is left out, as it is used only if the global and
the local namespace are the same object.
-/
namespace Verif

/-- Collections. -/
inductive Coll where
  | list | set | dict | tuple
  deriving DecidableEq, Repr

/-- What can be indexed: `list`, `typing.List`, `Union`, `Literal`, `Annotated`; `pipe` is `types.UnionType`, which is made by `|`. -/
inductive AnnForm where
  | builtin (c : Coll)
  | typing (c : Coll)
  | union | literal | annotated | pipe
  deriving DecidableEq, Repr

/-- Expressions in annotations.  `const` is any other constant, or the metadata in `Annotated`. -/
inductive AnnExpr where
  | name (n : Str)
  | attr (e : AnnExpr) (n : Str)
  | none
  | const (k : Nat)
  | text (s : Str)
  | index (e : AnnExpr) (args : List AnnExpr)
  | either (a b : AnnExpr)

/-- Python objects in annotations: `ref` is a `ForwardRef`, `gen` is a form with its `__args__` (and `__metadata__`); classes are
numbered, as are modules and other objects. -/
inductive AnnObj where
  | none
  | noneType
  | cls (c : Nat)
  | form (f : AnnForm)
  | module (m : Nat)
  | const (k : Nat)
  | text (s : Str)
  | ref (s : Str)
  | gen (f : AnnForm) (args : List AnnObj)

/-- A class: number of its module, names in its `__dict__`, own annotations, `__mro__` (without `object`).  All classes are data
classes with at most one base class (for several base classes see Inherit). -/
structure AnnClass where
  module : Nat
  vars : List (Str × AnnObj)
  own : List (Str × AnnObj)
  mro : List Nat

/-- A program: the parser, the built-in names, the `__dict__` of each module, the classes, the number of `str`, and which classes are
enumerations. -/
structure AnnWorld where
  parse : Str → Option AnnExpr
  builtins : List (Str × AnnObj)
  modules : List (List (Str × AnnObj))
  classes : Nat → AnnClass
  strCls : Nat
  isEnum : Nat → Bool

/-! ### Evaluation of expressions -/

/-- `_type_check`, Lib/typing.py:168-198, with `_type_convert`. -/
def annCheck : AnnObj → Res AnnObj
  | .none => .ok .noneType
  | .text s => .ok (.ref s)
  | .form .union => .error .typeError
  | .form .literal => .error .typeError
  | o => .ok o

/-- `form[args]`. -/
def annIndex : AnnForm → List AnnObj → Res AnnObj
  | .builtin c, os => .ok (.gen (.builtin c) os)
  | .typing c, os => match mapRes annCheck os with | .error e => .error e | .ok os => .ok (.gen (.typing c) os)
  | .union, os => match mapRes annCheck os with | .error e => .error e | .ok os => .ok (.gen .union os)
  | .literal, os => .ok (.gen .literal os)
  | .annotated, [] => .error .typeError
  | .annotated, o :: ms => match annCheck o with | .error e => .error e | .ok o => .ok (.gen .annotated (o :: ms))
  | .pipe, _ => .error .typeError

/-- Objects of module typing, whose operator `|` makes a `Union` and takes any operand. -/
def AnnObj.ofTyping : AnnObj → Bool
  | .form (.typing _) | .form .union | .form .literal | .ref _ => true
  | .gen (.typing _) _ | .gen .union _ | .gen .literal _ | .gen .annotated _ => true
  | _ => false

/-- Operands of `|` other than those. -/
def AnnObj.isOperand : AnnObj → Bool
  | .none | .noneType | .cls _ | .form (.builtin _) | .form .annotated | .form .pipe | .gen (.builtin _) _ | .gen .pipe _ => true
  | _ => false

/-- `types.UnionType` has `type(None)` for `None`. -/
def AnnObj.member : AnnObj → AnnObj
  | .none => .noneType
  | o => o

/-- `x | y`. -/
def annOr (x y : AnnObj) : Res AnnObj :=
  if x.ofTyping || y.ofTyping then annIndex .union [x, y]
  else match x, y with
    | .none, .none => .error .typeError
    | x, y => if x.isOperand && y.isOperand then .ok (.gen .pipe [x.member, y.member]) else .error .typeError

mutual
/-- `eval` of a parsed text, where `look` finds the objects of names, and `attrs` the attributes of modules. -/
def annEval (look : Str → Option AnnObj) (attrs : Nat → Str → Option AnnObj) : AnnExpr → Res AnnObj
  | .name n => match look n with | some o => .ok o | Option.none => .error .name
  | .attr e n =>
    match annEval look attrs e with
    | .error e => .error e
    | .ok (.module m) => (match attrs m n with | some o => .ok o | Option.none => .error .attribute)
    | .ok _ => .error .attribute
  | .none => .ok .none
  | .const k => .ok (.const k)
  | .text s => .ok (.text s)
  | .index e args =>
    match annEval look attrs e with
    | .error e => .error e
    | .ok o =>
      match annEvalL look attrs args with
      | .error e => .error e
      | .ok os => (match o with | .form f => annIndex f os | _ => .error .typeError)
  | .either a b =>
    match annEval look attrs a with
    | .error e => .error e
    | .ok x =>
      match annEval look attrs b with
      | .error e => .error e
      | .ok y => annOr x y
/-- Expressions from left to right. -/
def annEvalL (look : Str → Option AnnObj) (attrs : Nat → Str → Option AnnObj) : List AnnExpr → Res (List AnnObj)
  | [] => .ok []
  | e :: es =>
    match annEval look attrs e with
    | .error e => .error e
    | .ok o =>
      match annEvalL look attrs es with
      | .error e => .error e
      | .ok os => .ok (o :: os)
end

namespace AnnWorld

variable (w : AnnWorld)

/-- A name in the `__dict__` of a module; also an attribute of the module. -/
def inModule (m : Nat) (n : Str) : Option AnnObj :=
  match w.modules[m]? with | some d => lookupKey n d | Option.none => Option.none

/-- `eval(s, …)`; a text that is no expression is left out. -/
def evalText (look : Str → Option AnnObj) (s : Str) : Res AnnObj :=
  match w.parse s with
  | some e => annEval look w.inModule e
  | Option.none => .error .outOfModel

/-! ### Forward references -/

/-- Texts in the arguments of `list` etc. become forward references (Lib/typing.py:397-406). -/
def toRef : AnnForm → AnnObj → AnnObj
  | .builtin _, .text s => .ref s
  | _, o => o

/-- `_eval_type`, Lib/typing.py:387-418, and `ForwardRef._evaluate`, Lib/typing.py:890-914, for calls nested to a depth of at most `n`
(`RecursionError` beyond). -/
def resolve (look : Str → Option AnnObj) : Nat → List Str → AnnObj → Res AnnObj
  | 0, _, _ => .error .recursion
  | n + 1, guard, .ref s =>
    if guard.contains s then .ok (.ref s)
    else match w.evalText look s with
      | .error e => .error e
      | .ok o => (match annCheck o with | .error e => .error e | .ok o => resolve look n (s :: guard) o)
  | _ + 1, _, .gen .annotated [] => .ok (.gen .annotated [])
  | n + 1, guard, .gen .annotated (o :: ms) =>
    (match resolve look n guard o with | .error e => .error e | .ok t => .ok (.gen .annotated (t :: ms)))
  | n + 1, guard, .gen f os =>
    (match mapRes (fun o => resolve look n guard (toRef f o)) os with | .error e => .error e | .ok ts => .ok (.gen f ts))
  | _ + 1, _, o => .ok o

/-- Names for `typing.get_type_hints` (Lib/typing.py:2355-2371) in the annotations of a class: those of the module are local, those of
the class are global. -/
def hintLook (b : AnnClass) (n : Str) : Option AnnObj :=
  match w.inModule b.module n with
  | some o => some o
  | Option.none => match lookupKey n b.vars with | some o => some o | Option.none => lookupKey n w.builtins

/-- One annotation in `typing.get_type_hints` (Lib/typing.py:2372-2378). -/
def hint (n : Nat) (b : AnnClass) (o : AnnObj) : Res AnnObj :=
  w.resolve (w.hintLook b) n [] (match o with | .none => .noneType | .text s => .ref s | o => o)

/-- The loop over the annotations of one class (Lib/typing.py:2372-2378). -/
def hintsOf (n : Nat) (b : AnnClass) : List (Str × AnnObj) → List (Str × AnnObj) → Res (List (Str × AnnObj))
  | [], d => .ok d
  | (k, o) :: r, d => match w.hint n b o with | .error e => .error e | .ok t => hintsOf n b r (upsert k t d)

/-- The loop over the classes of the reversed `__mro__`. -/
def hintsOfAll (n : Nat) : List Nat → List (Str × AnnObj) → Res (List (Str × AnnObj))
  | [], d => .ok d
  | b :: r, d => match w.hintsOf n (w.classes b) (w.classes b).own d with | .error e => .error e | .ok d => hintsOfAll n r d

/-- `get_resolved_hints`, inspection.py:554-555: the types of the members for the reader, deserializer.py:725-727 and 777. -/
def readFields (n : Nat) (c : Nat) : Res (List (Str × AnnObj)) := w.hintsOfAll n (w.classes c).mro.reverse []

/-! ### `evaluate_type` -/

/-- Names in `evaluate_type`, inspection.py:98-127: the variables of the function itself, `typ` and `module`, are local names. -/
def evalLook (m : Nat) (o : AnnObj) (n : Str) : Option AnnObj :=
  if n = c!"typ" then some o
  else if n = c!"module" then some (.module m)
  else match w.inModule m n with | some o => some o | Option.none => lookupKey n w.builtins

/-- `evaluate_type`, inspection.py:98-127; for the field of a class (`evaluate_member_type`, inspection.py:86-95) with the module of the class. -/
def evaluateType (n : Nat) (m : Nat) : AnnObj → Res AnnObj
  | .text s => w.evalText (w.evalLook m (.text s)) s
  | .ref s => w.resolve (w.evalLook m (.ref s)) n [] (.ref s)
  | o => .ok o

/-- `dataclasses.fields(cls)`: names with their annotations as they are, for data classes all of whose bases are data classes
(Lib/dataclasses.py:911-956). -/
def rawFields (c : Nat) : List (Str × AnnObj) :=
  (w.classes c).mro.reverse.foldl (fun d b => updateMap d (w.classes b).own) []

/-! ### The writer -/

end AnnWorld

/-- Writers: for `None`, for a class, for a collection without types of items, for a collection with writers for the items, for a
literal, and for a union, which looks at the object only. -/
inductive Writer where
  | none
  | cls (c : Nat)
  | untyped (c : Coll)
  | items (c : Coll) (ws : List Writer)
  | literal (args : List AnnObj)
  | dynamic

namespace AnnWorld

variable (w : AnnWorld)

/-- Writers of collections, serializer.py:471-486, where `item` makes the writers of the items. -/
def collWriter (item : AnnObj → Res Writer) : Coll → List AnnObj → Res Writer
  | .list, [o] => (match item o with | .error e => .error e | .ok x => .ok (.items .list [x]))
  | .list, _ => .error .valueError
  | .set, [o] => (match item o with | .error e => .error e | .ok x => .ok (.items .set [x]))
  | .set, _ => .error .valueError
  | .dict, [.cls k, o] =>
    if k = w.strCls || w.isEnum k then (match item o with | .error e => .error e | .ok x => .ok (.items .dict [.cls k, x]))
    else .error .typeError
  | .dict, [_, _] => .error .typeError
  | .dict, _ => .error .valueError
  | .tuple, os => (match mapRes item os with | .error e => .error e | .ok ws => .ok (.items .tuple ws))

/-- The first lines of `_get_serializer`, serializer.py:410-414. -/
def evaluated (n : Nat) : Option Nat → AnnObj → Res AnnObj
  | Option.none, .text _ => .error .typeError
  | Option.none, .ref _ => .error .typeError
  | some m, .text s => w.evaluateType n m (.text s)
  | some m, .ref s => w.evaluateType n m (.ref s)
  | _, o => .ok o

/-- `_get_serializer`, serializer.py:409-420, and `_create_serializer`, serializer.py:429-517, for types that are nested to a depth of at
most `n`.  The context is the module, if known.  For a class the writer is `_fetch_serializer`, serializer.py:423-426, which is left
for `writeFields`.  Left out: the check of the arguments of a literal (serializer.py:326-338) and methods `to_json`. -/
def getWriter : Nat → Option Nat → AnnObj → Res Writer
  | 0, _, _ => .error .recursion
  | n + 1, context, o =>
    match w.evaluated n context o with
    | .error e => .error e
    | .ok .noneType => .ok .none
    | .ok (.cls c) => .ok (.cls c)
    | .ok (.form (.builtin c)) => .ok (.untyped c)
    | .ok (.form (.typing .tuple)) => .ok (.items .tuple [])
    | .ok (.form (.typing _)) => .error .valueError
    | .ok (.gen .pipe _) => .ok .dynamic
    | .ok (.gen .union _) => .ok .dynamic
    | .ok (.gen .literal os) => .ok (.literal os)
    | .ok (.gen .annotated (o :: _)) => getWriter n Option.none o
    | .ok (.gen (.builtin c) os) => w.collWriter (getWriter n context) c os
    | .ok (.gen (.typing c) os) => w.collWriter (getWriter n context) c os
    | .ok _ => .error .typeError

/-- `TypedClassSerializer`, serializer.py:289-300, of a data class: the annotations as they are (`get_class_properties`,
inspection.py:558-565), in the module of the class. -/
def writeFields (n : Nat) (c : Nat) : Res (List (Str × Writer)) :=
  mapRes (fun f => match w.getWriter n (some (w.classes c).module) f.2 with | .error e => .error e | .ok x => .ok (f.1, x)) (w.rawFields c)

end AnnWorld
end Verif
