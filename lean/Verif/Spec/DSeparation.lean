import Mathlib.Logic.Relation
import Mathlib.Data.List.Basic
import Mathlib.Data.List.Infix
import Verif.Spec.Orientation

/-!
d-separation in a directed graph `D` (Pearl), by blocked paths.
-/

namespace FastPGM.Spec

/-- `x` and `y` are joined by an edge. -/
def Joined (D : Nat → Nat → Prop) (x y : Nat) : Prop := D x y ∨ D y x

/-- A path may pass from `u` through `v` to `w` given `S`: a collider needs itself or a descendant in `S`, any other node must not be in
`S`. -/
def Passes (D : Nat → Nat → Prop) (S : List Nat) (u v w : Nat) : Prop :=
  ((D u v ∧ D w v) ∧ ∃ z ∈ S, Relation.ReflTransGen D v z) ∨ (¬ (D u v ∧ D w v) ∧ v ∉ S)

/-- The node list is a path all of whose inner nodes let it pass. -/
def ActivePath (D : Nat → Nat → Prop) (S : List Nat) (path : List Nat) : Prop :=
  path.Nodup ∧ (∀ u v, [u, v].IsInfix path → Joined D u v) ∧ ∀ u v w, [u, v, w].IsInfix path → Passes D S u v w

/-- `x` and `y` are d-separated by `S`: no path between them is active. -/
def DSeparated (D : Nat → Nat → Prop) (S : List Nat) (x y : Nat) : Prop :=
  ∀ path : List Nat, path.head? = some x → path.getLast? = some y → ¬ ActivePath D S path

/-- The verdicts `ind` are the d-separations of the graph `D` on the nodes `0, …, n-1`. -/
structure DOracle (D : Nat → Nat → Prop) (n : Nat) (ind : Nat → Nat → List Nat → Bool) : Prop where
  acyclic : ¬ Cyclic D
  range : ∀ x y, D x y → x < n ∧ y < n
  verdict : ∀ x y S, x < y → y < n → S.Pairwise (· < ·) → (∀ z ∈ S, z < n ∧ z ≠ x ∧ z ≠ y) → (ind x y S = true ↔ DSeparated D S x y)

/-- No node has `depth` or more parents. -/
def FewParents (D : Nat → Nat → Prop) (depth : Nat) : Prop :=
  ∀ x (S : List Nat), S.Nodup → (∀ z ∈ S, D z x) → S.length < depth

end FastPGM.Spec
