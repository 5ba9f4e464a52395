import Verif.Spec.DSeparation
import Verif.Spec.Network
import Mathlib.Data.Finset.Card
import Mathlib.Data.Finset.Prod

/-!
Specification of compelled edges (Chickering 1995) and of the structural Hamming distance.
-/

namespace FastPGM.Spec

/-- `a → b ← c` with `a` and `c` not adjacent. -/
def VStructure (D : Nat → Nat → Prop) (a b c : Nat) : Prop := a ≠ c ∧ D a b ∧ D c b ∧ ¬ Joined D a c

/-- `D'` is an acyclic graph with the adjacencies and the v-structures of `D` (a graph with the same independences, `C81_same_independences`). -/
structure Equivalent (D D' : Nat → Nat → Prop) : Prop where
  acyclic : ¬ Cyclic D'
  skeleton : ∀ x y, Joined D' x y ↔ Joined D x y
  colliders : ∀ a b c, VStructure D' a b c ↔ VStructure D a b c

/-- The edge `x → y` has this direction in every equivalent graph. -/
def Compelled (D : Nat → Nat → Prop) (x y : Nat) : Prop := ∀ D', Equivalent D D' → D' x y

/-- `x` is the last parent of `y` in the list. -/
def LastParentIn (T : List Nat) (D : Nat → Nat → Prop) (x y : Nat) : Prop :=
  D x y ∧ ∀ p, D p y → p ≠ x → T.idxOf p < T.idxOf x

/-- For every node `y` and its last parent `x`: some compelled edge `w → x` has a tail that is no parent of `y`, or at most one parent
of `y` other than `x` is no parent of `x`. -/
def AtMostOneOutsider (T : List Nat) (D : Nat → Nat → Prop) : Prop :=
  ∀ x y, LastParentIn T D x y → (∃ w, D w x ∧ Compelled D w x ∧ ¬ D w y) ∨
    ∀ z z', D z y → D z' y → z ≠ x → z' ≠ x → ¬ D z x → ¬ D z' x → z = z'

/-! ### Structural Hamming distance -/

/-- What a graph says about the pair `i < j`. -/
inductive PairStatus where
  | absent | undirected | forward | backward
  deriving DecidableEq, Repr

/-- The status of a pair in an edge list. -/
def pairStatus (es : List Edge) (i j : Nat) : PairStatus :=
  if es.any (fun e => e.node1 = i && e.node2 = j && e.end2 = .arrow) then .forward
  else if es.any (fun e => e.node1 = j && e.node2 = i && e.end2 = .arrow) then .backward
  else if es.any (fun e => e.node1 = i && e.node2 = j) then .undirected
  else .absent

/-- Edge lists without self loops, at most one edge per pair, undirected edges with the smaller node first. -/
structure SimpleEdges (es : List Edge) : Prop where
  irrefl : ∀ e ∈ es, e.node1 ≠ e.node2
  tail : ∀ e ∈ es, e.end1 = .tail
  small : ∀ e ∈ es, e.end2 = .tail → e.node1 < e.node2
  once : ∀ e ∈ es, ∀ f ∈ es, (e.node1 = f.node1 ∧ e.node2 = f.node2) ∨ (e.node1 = f.node2 ∧ e.node2 = f.node1) →
    e.node1 = f.node1 ∧ e.node2 = f.node2 ∧ e.end2 = f.end2

/-- The number of pairs on which two graphs over `n` nodes differ. -/
def hamming (n : Nat) (s t : Nat → Nat → PairStatus) : Nat :=
  ((Finset.range n ×ˢ Finset.range n).filter (fun p => p.1 < p.2 ∧ s p.1 p.2 ≠ t p.1 p.2)).card

open Classical in
/-- The status of a pair in the graph of the equivalence class: compelled edges are directed, the others undirected. -/
noncomputable def classStatus (D : Nat → Nat → Prop) (i j : Nat) : PairStatus :=
  if D i j ∧ Compelled D i j then .forward
  else if D j i ∧ Compelled D j i then .backward
  else if Joined D i j then .undirected
  else .absent

end FastPGM.Spec
