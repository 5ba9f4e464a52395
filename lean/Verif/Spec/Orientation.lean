import Verif.Model.Orientation
import Verif.Spec.Network
import Verif.Spec.Skeleton

/-!
Specification of the orientation phase.  `G` is the skeleton, `sep` the recorded separating sets.
-/

namespace FastPGM.Spec

open FastPGM

/-- The separating sets make `a - b - c` a v-structure `a → b ← c`: `a` and `c` are not adjacent and `b` does not separate them. -/
def Selected (G : Nat → Nat → Prop) (sep : Sepset) (a b c : Nat) : Prop :=
  a < c ∧ G b a ∧ G b c ∧ ¬ G a c ∧ b ∉ (sep a c).getD []

/-- `x → b` is an arrow of a selected v-structure. -/
def VArrow (G : Nat → Nat → Prop) (sep : Sepset) (x b : Nat) : Prop := ∃ y, Selected G sep x b y ∨ Selected G sep y b x

/-- The edge list and the parent sets describe an acyclic partially directed graph whose pairs of adjacent nodes are those of `G`: every
pair has exactly one edge, which is undirected or directed; the undirected ones come first; the directed ones are those of the parent
sets. -/
structure PartiallyDirected (n : Nat) (G : Nat → Nat → Prop) (N : Net) : Prop where
  nodes : N.nodes.length = n
  once : (N.edges.map (fun e => (min e.node1 e.node2, max e.node1 e.node2))).Nodup
  pairs : ∀ x y, x < y → (G x y ↔ (x, y) ∈ N.edges.map (fun e => (min e.node1 e.node2, max e.node1 e.node2)))
  kinds : ∃ us ds : List (Nat × Nat), N.edges = us.map (fun p => { node1 := p.1, node2 := p.2, end1 := .tail, end2 := .tail : Edge }) ++
    ds.map (fun p => { node1 := p.1, node2 := p.2, end1 := .tail, end2 := .arrow : Edge }) ∧ ∀ p ∈ us, p.1 < p.2
  parents : ∀ x y, ParentOf N x y ↔ Listed N x y
  children : ∀ x y, ChildOf N x y ↔ ParentOf N x y
  acyclic : ¬ Cyclic (ParentOf N)

/-- `x - y` is adjacent and not directed. -/
def Undirected (G P : Nat → Nat → Prop) (x y : Nat) : Prop := G x y ∧ ¬ P x y ∧ ¬ P y x

/-- One of Meek's first three rules demands `a → c`. -/
def MeekApplies (G P : Nat → Nat → Prop) (a c : Nat) : Prop :=
  (∃ z, P z a ∧ ¬ G z c) ∨ (∃ b, P a b ∧ P b c) ∨
    ∃ b d, b ≠ d ∧ ¬ G b d ∧ Undirected G P a b ∧ Undirected G P a d ∧ P b c ∧ P d c

/-- `D` is an acyclic orientation of `G` in which the unshielded colliders are exactly the selected v-structures. -/
structure Explains (G : Nat → Nat → Prop) (sep : Sepset) (D : Nat → Nat → Prop) : Prop where
  acyclic : ¬ Cyclic D
  skeleton : ∀ x y, G x y ↔ D x y ∨ D y x
  colliders : ∀ a b c, a < c → ¬ G a c → ((D a b ∧ D c b) ↔ Selected G sep a b c)

end FastPGM.Spec
