import Verif.Spec.Network
import Verif.Spec.Dataset
import Verif.Model.PrintEdges

/-!
What printing a network should show.
-/

namespace FastPGM.Spec

open FastPGM

/-- An edge as it is shown: the nodes, and whether there is an arrow from the first to the second. -/
def shownEdge (e : Edge) : Nat × Nat × Bool :=
  match e.end1, e.end2 with
  | .tail, .arrow => (e.node1, e.node2, true)
  | .arrow, .tail => (e.node2, e.node1, true)
  | _, _ => (e.node1, e.node2, false)

/-- A node as it is shown: name and index. -/
def shownNode (names : List Str) (i : Nat) : Str := names.getD i [] ++ lit " (" ++ intToStr i ++ lit ")"

/-- Line `k`. -/
def shownLine (names : List Str) (e : Nat × Nat × Bool) (k : Nat) : Str :=
  intToStr k ++ lit ": " ++ shownNode names e.1 ++ (if e.2.2 then lit " -> " else lit " -- ") ++ shownNode names e.2.1

/-- The lines of a network with `nodes` nodes and the given edges. -/
def shownText (names : List Str) (nodes count : Nat) (edges : List (Nat × Nat × Bool)) : Str :=
  textOf (edges.mapIdx (fun k e => shownLine names e k) ++ [lit "num nodes = " ++ intToStr nodes, lit "num edges = " ++ intToStr count])

/-- Indices used by a call. -/
def NetOpInRange (n : Nat) : NetOp → Prop
  | .edge op => OpInRange n op
  | .complete => True

end FastPGM.Spec
