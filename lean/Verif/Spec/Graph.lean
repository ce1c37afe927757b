import Verif.Model.Basic
/-! # Directed graphs and paths -/
namespace Verif

variable {α : Type}

/-- One edge, self-loops excluded. -/
def Edge (g : List (α × List α)) (n m : α) : Prop := ∃ ms, (n, ms) ∈ g ∧ m ∈ ms ∧ m ≠ n

/-- A path of at least one edge. -/
inductive Path (g : List (α × List α)) : α → α → Prop
  | one {n m} : Edge g n m → Path g n m
  | more {n m k} : Path g n m → Edge g m k → Path g n k

/-- Keys are distinct, as in every `dict`. -/
def GraphKeys (g : List (α × List α)) : Prop := (g.map Prod.fst).Nodup

/-- All edges lead to nodes of the graph. -/
def GraphClosed (g : List (α × List α)) : Prop := ∀ n ms, (n, ms) ∈ g → ∀ m ∈ ms, m ∈ g.map Prod.fst

/-- There is a cycle through at least two nodes (no edge of `Edge` is a self-loop). -/
def Cyclic (g : List (α × List α)) : Prop := ∃ n, Path g n n

/-- `m` occurs in `l` at some position before an occurrence of `n`. -/
def Before (l : List α) (m n : α) : Prop := ∃ l1 l2, l = l1 ++ n :: l2 ∧ m ∈ l1

/-- A topological order: every key exactly once, nothing else, every node after the nodes it has an edge to. -/
structure TopoOrder (g : List (α × List α)) (ord : List α) : Prop where
  nodup : ord.Nodup
  mem : ∀ n, n ∈ ord ↔ n ∈ g.map Prod.fst
  after : ∀ n m, Edge g n m → Before ord m n

end Verif
