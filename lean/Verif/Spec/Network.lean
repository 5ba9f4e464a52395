import Verif.Model.Network
import Verif.Spec.Graph

/-!
Specification side of networks: the three places where an edge is recorded.
-/

namespace FastPGM.Spec

open FastPGM

/-- `p` is in the parent set of `c`. -/
def ParentOf (N : Net) (p c : Nat) : Prop := ∃ s, N.nodes[c]? = some s ∧ p ∈ s.parents

/-- `c` is in the child set of `p`. -/
def ChildOf (N : Net) (p c : Nat) : Prop := ∃ s, N.nodes[p]? = some s ∧ c ∈ s.children

/-- The edge list contains the directed edge `p → c`. -/
def Listed (N : Net) (p c : Nat) : Prop :=
  ∃ e ∈ N.edges, e.node1 = p ∧ e.node2 = c ∧ e.end1 = .tail ∧ e.end2 = .arrow

/-- Indices used by an operation. -/
def OpInRange (n : Nat) : EdgeOp → Prop
  | .addDirected p c | .deleteDirected p c | .addUndirected p c | .deleteUndirected p c => p < n ∧ c < n

/-- The operation does not add a directed edge that is already there. -/
def Fresh (N : Net) : EdgeOp → Prop
  | .addDirected p c => ¬ ParentOf N p c
  | _ => True

/-- No operation of the history adds a directed edge that is there at that moment. -/
def FreshRun : Net → List EdgeOp → Prop
  | _, [] => True
  | N, op :: ops => Fresh N op ∧ ∀ N', N.apply op = .ok N' → FreshRun N' ops

/-- `c` assigns to each of the parents, in increasing order, one of its values; `dom p` is the number of values of `p`. -/
def IsParentConfig (dom : Nat → Nat) (parents : List Nat) (c : Config) : Prop :=
  c.map Prod.fst = parents ∧ ∀ x ∈ c, x.2 < dom x.1

/-- The recorded configurations of a node are exactly the assignments of its parents, each once. -/
def CombsCorrect (dom : Nat → Nat) (s : NodeS) : Prop :=
  s.combs.Nodup ∧ ∀ c, c ∈ s.combs ↔ IsParentConfig dom s.parents c

/-- The history deletes no directed edge, and every directed edge it adds is accepted. -/
def AcceptedRun : Net → List EdgeOp → Prop
  | _, [] => True
  | N, op :: ops =>
    (∀ p c, op = .addDirected p c → ∃ N', N.addDirectedEdge p c = .ok (N', true)) ∧
    (∀ p c, op ≠ .deleteDirected p c) ∧
    ∀ N', N.apply op = .ok N' → AcceptedRun N' ops

end FastPGM.Spec
