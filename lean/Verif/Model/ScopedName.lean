import Verif.Model.TypeName
import Verif.Model.Core
/-!
# Names of types with names in them

`TypeFormatter` (strong_typing/name.py:28-211) with a context and with `type_transform`, for types in which there are texts, forward
references and type variables.

Simplified as in TypeName, except for what is said there of forward references, strings, type variables and `type_transform`; the value
`none` of a variable is the object `None`; classes are known by their simple names.
-/
namespace Verif

/-- Type expressions as in TypeName, with forward references, texts and type variables; `other` is an object that is no type. -/
inductive NTy where
  | none
  | ellipsis
  | any
  | named (name : Str)
  | generic (origin : Str) (args : List NTy)
  | union (args : List NTy)
  | literal (vals : List LitVal)
  | argList (items : List NTy)
  | annotated (t : NTy) (ms : List Annotation)
  | ref (s : Str)
  | text (s : Str)
  | tvar (s : Str)
  | other

/-- A formatter (strong_typing/name.py:40-56): the variables of the context, if there is one; what `eval` makes of other texts;
`type_transform`, given the name of a class; and `str.isidentifier`. -/
structure NameScope where
  context : Option (List (Str × NTy))
  expr : Str → Res NTy
  transform : Option (Str → Str)
  ident : Str → Bool

/-- `type(None)` is among the members of `Optional[T]` (strong_typing/name.py:80, 83). -/
def NTy.isNone : NTy → Bool
  | .none => true
  | _ => false

/-- The class that `arg is auxiliary_arg` compares (strong_typing/name.py:194). -/
def NTy.head : NTy → TypeExpr
  | .named n => .named n
  | _ => .any

/-- Results one after the other, or the first error. -/
def strAll : List (Res Str) → Res (List Str)
  | [] => .ok []
  | .error e :: _ => .error e
  | .ok x :: rs => match strAll rs with | .error e => .error e | .ok xs => .ok (x :: xs)

/-- The result with text around it. -/
def wrapStr (f : List Str → Str) : Res (List Str) → Res Str
  | .error e => .error e
  | .ok xs => .ok (f xs)

namespace NameScope

variable (sc : NameScope)

/-- A variable of the context. -/
def var (s : Str) : Option NTy := match sc.context with | Option.none => Option.none | some vars => lookupKey s vars

/-- `evaluate_type` of a text, strong_typing/inspection.py:107-109: the variables `typ` and `module` of the function go before those of
the context. -/
def eval (s : Str) : Res NTy :=
  if s = c!"typ" then .ok (.text s)
  else if s = c!"module" then .ok .other
  else match sc.var s with | some o => .ok o | Option.none => sc.expr s

/-- The name of a class (strong_typing/name.py:161-164). -/
def className (n : Str) : Str := match sc.transform with | Option.none => n | some f => f n

/-- `python_type_to_str`, `plain_type_to_str` and `union_to_str` (strong_typing/name.py:70-88, 90-164, 166-211), for calls nested to a
depth of at most `n`. -/
def str (printable : Char → Bool) (op : Bool) : Nat → NTy → Res Str
  | 0, _ => .error .recursion
  | _ + 1, .none => .ok c!"None"
  | _ + 1, .ellipsis => .ok c!"..."
  | _ + 1, .any => .ok c!"Any"
  | n + 1, .argList items => wrapStr (fun xs => '[' :: (joinStr c!", " xs ++ c!"]")) (strAll (items.map (str printable op n)))
  | _ + 1, .named c => .ok (sc.className c)
  | _ + 1, .literal vals => .ok (c!"Literal[" ++ (joinStr c!", " (vals.map (LitVal.repr printable)) ++ c!"]"))
  | n + 1, .union ts =>
    if op then wrapStr (joinStr c!" | ") (strAll (ts.map (str printable op n)))
    else if ts.length == 2 && ts.any NTy.isNone then
      wrapStr (fun xs => c!"Optional[" ++ (joinStr c!", " xs ++ c!"]")) (strAll ((ts.filter fun t => !t.isNone).map (str printable op n)))
    else wrapStr (fun xs => c!"Union[" ++ (joinStr c!", " xs ++ c!"]")) (strAll (ts.map (str printable op n)))
  | n + 1, .annotated t ms =>
    let text : Res Str := match t with
      | .none => .ok (sc.className c!"NoneType")
      | .any => .ok (sc.className c!"Any")
      | t => str printable op n t
    match text with
    | .error e => .error e
    | .ok x => .ok (annotatedStr printable t.head x ms)
  | n + 1, .generic o ts => wrapStr (fun xs => o ++ ('[' :: (joinStr c!", " xs ++ c!"]"))) (strAll (ts.map (str printable op n)))
  | n + 1, .ref s =>
    (match sc.context with
     | Option.none => .ok s
     | some vars =>
       match lookupKey s vars with
       | Option.none | some .none => (match sc.eval s with | .error e => .error e | .ok o => str printable op n o)
       | some (.named c) => (match sc.transform with | some f => .ok (f c) | Option.none => .ok s)
       | some _ => .ok s)
  | n + 1, .text s =>
    (match sc.context with
     | Option.none => if sc.ident s then .ok s else .error .valueError
     | some vars =>
       if sc.ident s && (lookupKey s vars).isSome then .ok s
       else match sc.eval s with | .error e => .error e | .ok o => str printable op n o)
  | _ + 1, .tvar s => .ok s
  | _ + 1, .other => .error .valueError

end NameScope

/-- The function `python_type_to_str`, strong_typing/name.py:214-223: the context is the module of the type if that is a class, and
there is none otherwise. -/
def pythonTypeToStr (printable : Char → Bool) (op : Bool) (moduleOf : Str → List (Str × NTy)) (expr : Str → Res NTy) (ident : Str → Bool)
    (n : Nat) (t : NTy) : Res Str :=
  NameScope.str ⟨match t with | .named c => some (moduleOf c) | _ => Option.none, expr, Option.none, ident⟩ printable op n t

end Verif
