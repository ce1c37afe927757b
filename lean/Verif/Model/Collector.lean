import Verif.Model.Core
import Verif.Model.Topological
/-!
# Collecting referenced types: strong_typing/inspection.py, and sorting types: strong_typing/topological.py

String annotations and forward references are taken as resolved (`FieldDef.ty`).  The classes of the standard library that
occur as types, and `KeyTy.other`, have no annotated members of their own.
-/
namespace Verif

/-- Classes of the standard library. -/
inductive AtomTy where
  | bool | int | float | str | bytes | datetime | date | time | timedelta | uuid | ipv4 | ipv6
  | list | dict | set | tuple | otherKey
  deriving DecidableEq, Repr

/-- Nodes of the graph: `_ROOT` (inspection.py:577-579), classes of the library, enumerations and classes of the program. -/
inductive Node where
  | root
  | atom (a : AtomTy)
  | enum (e : Nat)
  | cls (c : Nat)
  deriving DecidableEq, Repr

/-- `TypeCollector.graph`, inspection.py:606: a dictionary in insertion order, whose sets are in insertion order too. -/
abbrev TGraph := List (Node × List Node)

/-- `self.graph[cls].add(typ)`, inspection.py:655. -/
def addEdge (c n : Node) : TGraph → TGraph
  | [] => []
  | (k, ms) :: r => if k = c then (k, if n ∈ ms then ms else ms ++ [n]) :: r else (k, ms) :: addEdge c n r

/-- A class is met while the members of `c` are expanded, inspection.py:654-660; `exp` expands its own members. -/
def meet (exp : Node → TGraph → Res TGraph) (c n : Node) (g : TGraph) : Res TGraph :=
  let g := addEdge c n g
  if n ∈ g.map Prod.fst then .ok g else exp n (g ++ [(n, [])])

/-- The key type of a dictionary. -/
def KeyTy.node : KeyTy → Node
  | .str => .atom .str
  | .enum e => .enum e
  | .int => .atom .int
  | .other => .atom .otherKey

mutual
/-- `TypeCollector.run`, inspection.py:631-707. -/
def runTy (exp : Node → TGraph → Res TGraph) (c : Node) : Ty → TGraph → Res TGraph
  | .none, g => .ok g
  | .bool, g => meet exp c (.atom .bool) g
  | .int, g => meet exp c (.atom .int) g
  | .float, g => meet exp c (.atom .float) g
  | .str, g => meet exp c (.atom .str) g
  | .bytes, g => meet exp c (.atom .bytes) g
  | .datetime, g => meet exp c (.atom .datetime) g
  | .date, g => meet exp c (.atom .date) g
  | .time, g => meet exp c (.atom .time) g
  | .timedelta, g => meet exp c (.atom .timedelta) g
  | .uuid, g => meet exp c (.atom .uuid) g
  | .ipv4, g => meet exp c (.atom .ipv4) g
  | .ipv6, g => meet exp c (.atom .ipv6) g
  | .bareList, g => meet exp c (.atom .list) g
  | .bareDict, g => meet exp c (.atom .dict) g
  | .bareSet, g => meet exp c (.atom .set) g
  | .bareTuple, g => meet exp c (.atom .tuple) g
  | .list t, g => runTy exp c t g
  | .dict k t, g => (match meet exp c k.node g with | .error e => .error e | .ok g => runTy exp c t g)
  | .set t, g => runTy exp c t g
  | .tuple ts, g => runTyL exp c ts g
  | .union ts, g => runTyL exp c ts g
  | .literal _, g => .ok g
  | .annotated t _, g => runTy exp c t g
  | .enum e, g => meet exp c (.enum e) g
  | .cls d, g => meet exp c (.cls d) g
/-- A sequence of types. -/
def runTyL (exp : Node → TGraph → Res TGraph) (c : Node) : List Ty → TGraph → Res TGraph
  | [], g => .ok g
  | t :: ts, g => (match runTy exp c t g with | .error e => .error e | .ok g => runTyL exp c ts g)
end

/-- The members of a class, inspection.py:696-705.  The first argument bounds the depth of nested class definitions; the
number of classes is enough (`C33_terminates`). -/
def expand (env : Env) : Nat → Node → TGraph → Res TGraph
  | n, .cls c, g =>
    (match n with
     | 0 => .error .recursion
     | n + 1 =>
       match env.classes[c]? with
       | Option.none => .error .outOfModel
       | some cd => runTyL (expand env n) (.cls c) (cd.hints.map FieldDef.ty) g)
  | _, _, g => .ok g

/-- `TypeCollector.__init__`, inspection.py:617-618, and `traverse_all`, inspection.py:620-629. -/
def collect (env : Env) (ts : List Ty) : Res TGraph := runTyL (expand env env.classes.length) .root ts [(.root, [])]

/-- `TypeCollector.references`, inspection.py:608-615, as a list. -/
def references (g : TGraph) : List Node := g.flatMap Prod.snd

/-- `get_referenced_types`, inspection.py:582-596. -/
def getReferenced (env : Env) (t : Ty) : Res (List Node) :=
  match collect env [t] with
  | .error e => .error e
  | .ok g => .ok (references g)

/-- The dependencies given by the caller are added to the graph, topological.py:75-82.  `graph[new_type] = set()` replaces an
existing entry. -/
def addDeps (dep : Node → List Node) (g : TGraph) : TGraph :=
  let g' := g.map (fun p => (p.1, p.2 ++ (dep p.1).filter (· ∉ p.2)))
  (g.flatMap (fun p => dep p.1)).foldl (fun g n => upsert n [] g) g'

/-- `type_topological_sort`, topological.py:52-84. -/
def typeTopoSort (env : Env) (ts : List Ty) (dep : Option (Node → List Node)) : Res (List Node) :=
  if ts.all Ty.isType then
    match collect env ts with
    | .error e => .error e
    | .ok g => match dep with
      | Option.none => topoSort g
      | some d => topoSort (addDeps d g)
  else .error .typeError

end Verif
