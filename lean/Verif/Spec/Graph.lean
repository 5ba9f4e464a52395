import Mathlib.Logic.Relation
import Mathlib.Data.List.Basic

/-!
Specification side of directed graphs.
-/

namespace FastPGM.Spec

/-- The directed graph `E` has a directed cycle: some node is reachable from itself by at least one edge. -/
def Cyclic (E : Nat → Nat → Prop) : Prop := ∃ i, Relation.TransGen E i i

/-- `order` lists the nodes `0, …, n-1` exactly once, and every edge goes from an earlier to a later node. -/
def IsTopologicalOrder (n : Nat) (E : Nat → Nat → Prop) (order : List Nat) : Prop :=
  order.Nodup ∧ (∀ v, v ∈ order ↔ v < n) ∧
    ∀ a b, E a b → ∃ l1 l2 l3, order = l1 ++ a :: l2 ++ b :: l3

/-- The directed graph on `0, …, n-1` given by an adjacency matrix: an edge `i → j` for each entry 1. -/
def MatrixEdge (graph : List (List Int)) (n i j : Nat) : Prop :=
  i < n ∧ j < n ∧ (graph[i]?.bind (fun row => row[j]?)) = some 1

/-- `graph` is an `n × n` matrix and `deg` holds the number of entries 1 of each column. -/
def IsAdjacency (graph : List (List Int)) (deg : List Int) (n : Nat) : Prop :=
  graph.length = n ∧ (∀ row ∈ graph, row.length = n) ∧ deg.length = n ∧
    ∀ j < n, deg[j]? = some ((graph.countP (fun row => row[j]? = some 1) : Nat) : Int)

end FastPGM.Spec
