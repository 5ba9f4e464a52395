import Verif.Model.Fault
import Mathlib.Data.List.Basic

/-!
Model of the graph routines of `common.cpp` (cycle check and topological sort).
Adjacency matrices are lists of rows; in-degrees are integers, as in the code.
-/

namespace FastPGM

/-- common.cpp 19-23 and 50-55: indices with in-degree 0, in increasing order. -/
def initialQueue (inDegrees : List Int) (numNodes : Nat) : Except Fault (List Nat) :=
  (List.range numNodes).foldlM (fun que i => do
    let d ← rd inDegrees i
    if d = 0 then return que ++ [i] else return que) []

/-- common.cpp 26-33 and 58-67: reduce the in-degrees of the successors of the front node, queue those that become 0. -/
def relaxSuccessors (graph : List (List Int)) (front numNodes : Nat) (inDegrees : List Int) (que : List Nat) :
    Except Fault (List Int × List Nat) :=
  (List.range numNodes).foldlM (fun (st : List Int × List Nat) j => do
    let row ← rd graph front
    let g ← rd row j
    if g = 1 then
      let d ← rd st.1 j
      let deg ← wr st.1 j (d - 1)
      if d - 1 = 0 then return (deg, st.2 ++ [j]) else return (deg, st.2)
    else return st) (inDegrees, que)

/-- common.cpp 25-36: the loop of `DirectedGraphContainsCircle`; returns `visited_count`.  `fuel` bounds the number of rounds
(running out of it is reported as a fault; a node enters the queue only when its in-degree becomes 0, so `num_nodes` rounds
are enough). -/
def circleLoop (graph : List (List Int)) (numNodes : Nat) : Nat → List Int → List Nat → Nat → Except Fault Nat
  | _, _, [], visited => .ok visited
  | 0, _, _ :: _, _ => .error .ub
  | fuel + 1, deg, front :: que, visited => do
    let (deg', que') ← relaxSuccessors graph front numNodes deg (front :: que)
    circleLoop graph numNodes fuel deg' que'.tail (visited + 1)

/-- common.cpp 15-39 `DirectedGraphContainsCircle`. -/
def directedGraphContainsCircle (graph : List (List Int)) (inDegrees : List Int) (numNodes : Nat) : Except Fault Bool := do
  let que ← initialQueue inDegrees numNodes
  let visited ← circleLoop graph numNodes numNodes inDegrees que 0
  return decide (visited ≠ numNodes)

/-- common.cpp 57-70: the loop of `TopoSortOfDAGZeroInDegreeFirst` (`fuel` as above). -/
def topoLoop (graph : List (List Int)) (numNodes : Nat) : Nat → List Int → List Nat → List Nat → Except Fault (List Nat)
  | _, _, [], result => .ok result
  | 0, _, _ :: _, _ => .error .ub
  | fuel + 1, deg, front :: que, result => do
    let (deg', que') ← relaxSuccessors graph front numNodes deg (front :: que)
    topoLoop graph numNodes fuel deg' que'.tail (result ++ [front])

/-- common.cpp 46-72 `TopoSortOfDAGZeroInDegreeFirst`. -/
def topoSort (graph : List (List Int)) (inDegrees : List Int) (numNodes : Nat) : Except Fault (List Nat) := do
  let que ← initialQueue inDegrees numNodes
  topoLoop graph numNodes numNodes inDegrees que []

end FastPGM
