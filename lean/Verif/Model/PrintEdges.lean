import Verif.Model.Network
import Verif.Model.Parameter

/-!
Model of `Network::PrintEdges` and `Network::CheckEdges` (src/fastpgm/Network.cpp 132-163) and of the member `num_edges`, which
`PrintEdges` uses.
-/

namespace FastPGM

/-- A network with its member `num_edges` (Network.h 32, initially 0). -/
structure CountedNet where
  net : Net
  numEdges : Nat := 0

/-- A call that changes the edges. -/
inductive NetOp where
  | edge (op : EdgeOp)
  | complete
  deriving DecidableEq, Repr

/-- Network.cpp 273: an entry of `vec_edges` that was never assigned has indeterminate nodes. -/
def slotEdge : Option Edge → Except Fault Edge
  | some e => .ok e
  | none => .error .ub

/-- One call: an edge operation (Network.cpp 169-268, which leave `num_edges` alone) or `GenerateUndirectedCompleteGraph`
(Network.cpp 270-283), which writes every slot of `vec_edges`. -/
def CountedNet.apply (C : CountedNet) : NetOp → Except Fault CountedNet
  | .edge op => do
    let N ← C.net.apply op
    return { C with net := N }
  | .complete => do
    let slots ← completeGraphEdges C.net.nodes.length
    let edges ← slots.mapM slotEdge
    return ⟨{ C.net with edges := edges }, (C.net.nodes.length - 1) * C.net.nodes.length / 2⟩

/-- A history of calls. -/
def CountedNet.run (C : CountedNet) (ops : List NetOp) : Except Fault CountedNet := ops.foldlM CountedNet.apply C

/-- Network.cpp 139-147: name and index of a node.  `names` holds the member `node_name` of the nodes. -/
def printNode (names : List Str) (i : Nat) : Except Fault Str := do return (← rd names i) ++ lit " (" ++ intToStr i ++ lit ")"

/-- Network.cpp 133-148: the line of entry `i` of `vec_edges`; `at` throws outside. -/
def printEdge (names : List Str) (edges : List Edge) (out : Str) (i : Nat) : Except Fault Str := do
  let e ← rdAt edges i
  let line ← (do
    if ¬ e.isDirected then return (← printNode names e.node1) ++ lit " -- " ++ (← printNode names e.node2)
    else if e.end1 = .tail then return (← printNode names e.node1) ++ lit " -> " ++ (← printNode names e.node2)
    else return (← printNode names e.node2) ++ lit " -> " ++ (← printNode names e.node1))
  return out ++ intToStr i ++ lit ": " ++ line ++ [10]

/-- Network.cpp 132-151 `PrintEdges`: the text printed.  What has been printed before an exception is not modelled. -/
def printEdges (names : List Str) (C : CountedNet) : Except Fault Str := do
  let out ← (List.range C.numEdges).foldlM (printEdge names C.net.edges) []
  return out ++ lit "num nodes = " ++ intToStr C.net.nodes.length ++ [10] ++ lit "num edges = " ++ intToStr C.numEdges ++ [10]

/-- Network.cpp 153-163 `CheckEdges`: the text printed. -/
def checkEdges (N : Net) : Str :=
  let (parents, children) := N.nodes.foldl (fun (st : Nat × Nat) s => (st.1 + s.parents.length, st.2 + s.children.length)) (0, 0)
  lit "num edges from parents = " ++ intToStr parents ++ [10] ++ lit "num edges from children = " ++ intToStr children ++ [10]

end FastPGM
