import Verif.Model.Basic
/-!
# Topological sorting: strong_typing/topological.py

A graph `dict[T, set[T]]` is an association list in insertion order; the set of adjacent nodes is a list in iteration order
(arbitrary, because Python sets have no specified order).
-/
namespace Verif

variable {α : Type} [DecidableEq α]

/-- `graph[n]` (`none` for `KeyError`). -/
def adj (g : List (α × List α)) (n : α) : Option (List α) := g.lookup n

/-- Local variables of `topological_sort`: the result list and the dictionary `seen` (latest binding first),
topological.py:26-28. -/
structure TopoState (α : Type) where
  ordered : List α
  seen : List (α × Bool)

/-- Loop over adjacent nodes or over the keys of the graph; `none` means that the recursion depth was not sufficient. -/
def visitList (v : α → TopoState α → Option (Res (TopoState α))) : List α → TopoState α → Option (Res (TopoState α))
  | [], st => some (.ok st)
  | m :: ms, st =>
    match v m st with
    | none => none
    | some (.error e) => some (.error e)
    | some (.ok st) => visitList v ms st

/-- `_visit`, topological.py:30-44.  The first argument bounds the recursion depth. -/
def visit (g : List (α × List α)) : Nat → α → TopoState α → Option (Res (TopoState α))
  | 0, _, _ => none
  | fuel + 1, n, st =>
    match st.seen.lookup n with
    | some true => some (.ok st)
    | some false => some (.error .runtime)
    | none =>
      let st := { st with seen := (n, false) :: st.seen }
      match adj g n with
      | none => some (.error .key)
      | some ms =>
        match visitList (visit g fuel) (ms.filter (· ≠ n)) st with
        | none => none
        | some (.error e) => some (.error e)
        | some (.ok st) => some (.ok { ordered := st.ordered ++ [n], seen := (n, true) :: st.seen })

/-- `topological_sort`, topological.py:14-49, with bounded recursion depth. -/
def topoSortFuel (fuel : Nat) (g : List (α × List α)) : Option (Res (List α)) :=
  match visitList (visit g fuel) (g.map Prod.fst) ⟨[], []⟩ with
  | none => none
  | some (.error e) => some (.error e)
  | some (.ok st) => some (.ok st.ordered)

/-- `topological_sort`, topological.py:14-49.  The depth bound is never reached (`topoSortFuel_enough`). -/
def topoSort (g : List (α × List α)) : Res (List α) :=
  match topoSortFuel (g.length + 1) g with
  | some r => r
  | none => .error .outOfModel

end Verif
