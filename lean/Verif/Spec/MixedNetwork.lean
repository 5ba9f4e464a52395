import Verif.Model.MixedNetwork
import Verif.Spec.Network

/-!
Specification side of networks with continuous nodes.
-/

namespace FastPGM.Spec

open FastPGM

/-- `p` is in the parent set of `c`. -/
def MParent (M : MNet) (p c : Nat) : Prop := ∃ n, M.nodes[c]? = some n ∧ p ∈ n.base.parents

/-- `c` is in the child set of `p`. -/
def MChild (M : MNet) (p c : Nat) : Prop := ∃ n, M.nodes[p]? = some n ∧ c ∈ n.base.children

/-- The edge list contains the directed edge `p → c`. -/
def MListed (M : MNet) (p c : Nat) : Prop :=
  ∃ e ∈ M.edges, e.node1 = p ∧ e.node2 = c ∧ e.end1 = .tail ∧ e.end2 = .arrow

/-- `i` is a continuous node of the network made from `kinds` (`none`: continuous). -/
def IsCont (kinds : List (Option Nat)) (i : Nat) : Prop := kinds[i]? = some none

/-- The operation adds an edge from a continuous to a discrete node. -/
def Forbidden (kinds : List (Option Nat)) : EdgeOp → Prop
  | .addDirected p c => IsCont kinds p ∧ ¬ IsCont kinds c
  | _ => False

/-- No operation of the history adds a directed edge that is there at that moment. -/
def MFreshRun : MNet → List EdgeOp → Prop
  | _, [] => True
  | M, op :: ops => (∀ p c, op = .addDirected p c → ¬ MParent M p c) ∧ ∀ M', M.apply op = .ok M' → MFreshRun M' ops

/-- Number of values of the discrete node `i`. -/
def mdomain (kinds : List (Option Nat)) (i : Nat) : Nat := (kinds.getD i none).getD 0

/-- The discrete parents of a node, in increasing order. -/
def discreteOf (kinds : List (Option Nat)) (n : MNode) : List Nat := n.base.parents.filter (fun p => decide (kinds[p]? ≠ some none))

/-- The recorded configurations of a node are exactly the assignments of its discrete parents, each once. -/
def MCombsCorrect (kinds : List (Option Nat)) (n : MNode) : Prop :=
  n.base.combs.Nodup ∧ ∀ c, c ∈ n.base.combs ↔ IsParentConfig (mdomain kinds) (discreteOf kinds n) c

/-- The history deletes no directed edge, and every directed edge it adds is accepted. -/
def MAcceptedRun : MNet → List EdgeOp → Prop
  | _, [] => True
  | M, op :: ops =>
    (∀ p c, op = .addDirected p c → ∃ M', M.addDirectedEdge p c = .ok (M', true)) ∧
    (∀ p c, op ≠ .deleteDirected p c) ∧
    ∀ M', M.apply op = .ok M' → MAcceptedRun M' ops

end FastPGM.Spec
