import Verif.Spec.Network
import Verif.Spec.Params

/-!
Specification side of junction trees.
-/

namespace FastPGM.Spec

open FastPGM

/-- Adjacency in the moral graph: one node is a parent of the other, or they have a common child. -/
def MoralAdj (N : Net) (i j : Nat) : Prop :=
  i ≠ j ∧ (ParentOf N i j ∨ ParentOf N j i ∨ ∃ c, ParentOf N i c ∧ ParentOf N j c)

/-- One of the two nodes is a parent of the other. -/
def Linked (N : Net) (i j : Nat) : Prop := ParentOf N i j ∨ ParentOf N j i

/-- Any two nodes are joined by a path that ignores the directions of the edges. -/
def WeaklyConnected (N : Net) : Prop :=
  ∀ i j, i < N.nodes.length → j < N.nodes.length → Relation.ReflTransGen (Linked N) i j

/-- Two cliques are the two ends of one of the separators `seps`. -/
def SepJoined (seps : List (Nat × Nat)) (i j : Nat) : Prop := (i, j) ∈ seps ∨ (j, i) ∈ seps

/-- `seps` (pairs of clique numbers) is a tree on the cliques with the running intersection property: the cliques that contain a given
variable are connected among themselves. -/
structure IsJunctionTree (cliques : List (List Nat)) (seps : List (Nat × Nat)) : Prop where
  ends : ∀ p ∈ seps, p.1 < p.2 ∧ p.2 < cliques.length
  connected : ∀ i j, i < cliques.length → j < cliques.length → Relation.ReflTransGen (SepJoined seps) i j
  acyclic : ∀ p ∈ seps, ¬ Relation.ReflTransGen (fun i j => SepJoined seps i j ∧ ¬ ((i, j) = p ∨ (j, i) = p)) p.1 p.2
  count : seps.length + 1 = cliques.length
  running : ∀ (v i j : Nat) ci cj, cliques[i]? = some ci → cliques[j]? = some cj → v ∈ ci → v ∈ cj →
    Relation.ReflTransGen (fun a b => SepJoined seps a b ∧ (∃ ca, cliques[a]? = some ca ∧ v ∈ ca) ∧ ∃ cb, cliques[b]? = some cb ∧ v ∈ cb) i j

end FastPGM.Spec
