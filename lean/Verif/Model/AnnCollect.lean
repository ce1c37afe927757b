import Verif.Model.Annotations
import Verif.Model.Collector
/-!
# Collecting types that have names and texts in their annotations: strong_typing/inspection.py

As in Collector, but texts and forward references are evaluated when they are met, in the module of the class whose members are
expanded.  Programs and objects are those of Annotations.

Simplifications: as in Annotations; of the special forms without arguments, `Annotated` and `types.UnionType` (which are classes) are not
taken as types; `Any` is left out.
-/
namespace Verif

/-- The class of a collection. -/
def Coll.node : Coll → Node
  | .list => .atom .list
  | .set => .atom .set
  | .dict => .atom .dict
  | .tuple => .atom .tuple

/-- A loop whose body changes the graph. -/
def eachOf (f : α → TGraph → Res TGraph) : List α → TGraph → Res TGraph
  | [], g => .ok g
  | x :: xs, g => match f x g with | .error e => .error e | .ok g => eachOf f xs g

namespace AnnWorld

variable (w : AnnWorld)

/-- `TypeCollector.run`, inspection.py:631-707, for calls nested to a depth of at most `n` (`RecursionError` beyond); `c` is the class
whose members are expanded, `m` the number of the module, if there is one.  `typing.List` without arguments has an origin, `list` does not.
For `X | Y` (inspection.py:684-690) the members other than `None` are taken.  The members of a data class are evaluated one by one
(`dataclass_fields`, inspection.py:160-164, in the loop inspection.py:699-701). -/
def gather : Nat → Node → Option Nat → AnnObj → TGraph → Res TGraph
  | 0, _, _, _, _ => .error .recursion
  | n + 1, c, m, o, g =>
    match o with
    | .noneType => .ok g
    | .cls k => meet (fun _ g => eachOf (fun f g =>
        match w.evaluateType n (w.classes k).module f.2 with
        | .error e => .error e
        | .ok o => gather n (.cls k) (some (w.classes k).module) o g) (w.rawFields k) g) c (.cls k) g
    | .form (.builtin k) => meet (fun _ g => .ok g) c k.node g
    | .form (.typing _) => .ok g
    | .text s =>
      (match m with
       | Option.none => .error .valueError
       | some m => match w.evaluateType n m (.text s) with | .error e => .error e | .ok o => gather n c (some m) o g)
    | .ref s =>
      (match m with
       | Option.none => .error .valueError
       | some m => match w.evaluateType n m (.ref s) with | .error e => .error e | .ok o => gather n c (some m) o g)
    | .gen .literal _ => .ok g
    | .gen .annotated [] => .error .outOfModel
    | .gen .annotated (o :: _) => gather n c m o g
    | .gen _ os => eachOf (gather n c m) os g
    | _ => .error .typeError

/-- `get_referenced_types(typ, module)`, inspection.py:582-596. -/
def referencedTypes (n : Nat) (m : Option Nat) (o : AnnObj) : Res (List Node) :=
  match w.gather n .root m o [(.root, [])] with
  | .error e => .error e
  | .ok g => .ok (references g)

/-- `traverse_all` (inspection.py:620-629) on classes, with the module of each. -/
def gatherAll (n : Nat) (cs : List Nat) : Res TGraph :=
  eachOf (fun c g => w.gather n .root (some (w.classes c).module) (.cls c) g) cs [(.root, [])]

/-- `type_topological_sort`, topological.py:52-84, of classes, without `dependency_fn`. -/
def sortTypes (n : Nat) (cs : List Nat) : Res (List Node) :=
  match w.gatherAll n cs with
  | .error e => .error e
  | .ok g => topoSort g

end AnnWorld
end Verif
