import Verif.Model.JunctionTree

/-!
Orders of the messages in a rooted tree of cliques and separators.  A message `(x, y)` goes from `y` to `x`.
-/

namespace FastPGM.Spec

/-- The nodes of a tree with `m` cliques and `m - 1` separators. -/
def IsNode (m : Nat) : JNode → Prop
  | .clq i => i < m
  | .sep s => s + 1 < m

/-- Who has sent a message receives no further message. -/
def SpeaksLast (l : List (JNode × JNode)) : Prop := l.Pairwise (fun p q => q.1 ≠ p.2)

/-- The messages towards the root: every node hears each of its downstream neighbours once. -/
structure CollectMessages (m : Nat) (down : JNode → List JNode) (l : List (JNode × JNode)) : Prop where
  nodup : l.Nodup
  mem : ∀ x y, (x, y) ∈ l ↔ IsNode m x ∧ y ∈ down x
  last : SpeaksLast l

/-- The messages away from the root: every node but the root hears its upstream neighbour once. -/
structure DistributeMessages (m : Nat) (up : JNode → Option JNode) (l : List (JNode × JNode)) : Prop where
  nodup : l.Nodup
  mem : ∀ x y, (x, y) ∈ l ↔ IsNode m x ∧ up x = some y
  last : SpeaksLast l

end FastPGM.Spec
