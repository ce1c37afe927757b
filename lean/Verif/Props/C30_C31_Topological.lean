import Verif.Lemmas.Topological
/-!
# C30, C31: topological_sort

Both theorems quantify over every finite graph (distinct keys, as in a `dict`) and, because adjacency is an arbitrary list,
over every iteration order of the edge sets.
-/
namespace Verif

variable {α : Type} [DecidableEq α]

/-- C30: a returned list contains every key exactly once, nothing else, and every node after the nodes it has an edge to. -/
theorem C30_topological_order (g : List (α × List α)) (hk : GraphKeys g) (ord : List α) (h : topoSort g = .ok ord) :
    TopoOrder g ord := topoSort_ok hk h

/-- C31: on a graph whose edges stay within its keys, `RuntimeError` is raised exactly if there is a cycle of at least two
nodes, and otherwise a list is returned. -/
theorem C31_raises_iff_cyclic (g : List (α × List α)) (hk : GraphKeys g) (hc : GraphClosed g) :
    (topoSort g = .error .runtime ↔ Cyclic g) ∧ ((∃ ord, topoSort g = .ok ord) ↔ ¬ Cyclic g) := by
  cases h : topoSort g with
  | ok ord =>
    have := topoOrder_acyclic (topoSort_ok hk h)
    exact ⟨⟨fun e => by simp at e, fun c => absurd c this⟩, ⟨fun _ => this, fun _ => ⟨ord, rfl⟩⟩⟩
  | error e =>
    rcases topoSort_err hk h with ⟨rfl, c⟩ | ⟨_, nc⟩
    · exact ⟨⟨fun _ => c, fun _ => rfl⟩, ⟨fun ⟨_, e⟩ => by simp at e, fun n => absurd c n⟩⟩
    · exact absurd hc nc

/-- C31, graphs with edges to unknown nodes: the only other exception is `KeyError`, and only for such graphs. -/
theorem C31_errors (g : List (α × List α)) (hk : GraphKeys g) (e : Err) (h : topoSort g = .error e) :
    (e = .runtime ∧ Cyclic g) ∨ (e = .key ∧ ¬ GraphClosed g) := topoSort_err hk h

/-- C31, termination: recursion depth never exceeds the number of nodes plus one. -/
theorem C31_terminates (g : List (α × List α)) : ∃ r, topoSortFuel (g.length + 1) g = some r := topoSortFuel_enough g

/-! ### Examples -/

/-- A diamond with a self-loop. -/
def exampleGraph : List (Nat × List Nat) := [(1, [2, 3]), (2, [4, 2]), (3, [4]), (4, [])]

example : GraphKeys exampleGraph ∧ GraphClosed exampleGraph := by
  unfold GraphKeys GraphClosed
  constructor
  · decide
  · intro n ms h
    simp only [exampleGraph, List.mem_cons, List.not_mem_nil, or_false, Prod.mk.injEq] at h
    rcases h with ⟨rfl, rfl⟩ | ⟨rfl, rfl⟩ | ⟨rfl, rfl⟩ | ⟨rfl, rfl⟩ <;> decide
example : topoSort exampleGraph = .ok [4, 2, 3, 1] := by decide
example : topoSort [(1, [2]), (2, [3]), (3, [1])] = .error .runtime := by decide
example : Cyclic [(1, [2]), (2, [3]), (3, [1])] :=
  ⟨1, Path.more (m := 3) (Path.more (m := 2) (.one ⟨[2], by decide, by decide, by decide⟩)
    ⟨[3], by decide, by decide, by decide⟩) ⟨[1], by decide, by decide, by decide⟩⟩
example : topoSort [(1, [2])] = .error .key := by decide

end Verif
