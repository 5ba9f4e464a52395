import Verif.Model.Graph
import Verif.Model.StdSet
import Verif.Model.Inference

/-!
Model of `Node` / `DiscreteNode` parent bookkeeping (src/fastpgm/Node.cpp) and of the edge operations of `Network`
(src/fastpgm/Network.cpp).  All nodes are discrete (`pure_discrete`); node pointers are node indices.
-/

namespace FastPGM

/-- include/fastpgm/Edge.h 11 -/
inductive EndPoint where
  | arrow | tail
  deriving DecidableEq, Repr

/-- include/fastpgm/Edge.h 12 `Label`; `unset` stands for the uninitialised member of a new edge. -/
inductive Label where
  | compelled | reversible | unset
  deriving DecidableEq, Repr

/-- include/fastpgm/Edge.h 15-33.  `need_remove`, `process`, `cg`, `vec_adj`, `finish` belong to the skeleton search and are modelled
there. -/
structure Edge where
  node1 : Nat
  node2 : Nat
  end1 : EndPoint
  end2 : EndPoint
  ordered : Bool := false
  label : Label := .unset
  deriving DecidableEq, Repr

/-- Edge.h 39-44 `operator==`: nodes and end points. -/
def Edge.same (e f : Edge) : Bool :=
  e.node1 = f.node1 && e.node2 = f.node2 && e.end1 = f.end1 && e.end2 = f.end2

/-- Edge.cpp 6-14: the constructor of directed edges as it is always called, with `TAIL, ARROW`. -/
def mkDirected (a b : Nat) : Edge := { node1 := a, node2 := b, end1 := .tail, end2 := .arrow }

/-- Edge.cpp 16-33: the constructor of undirected edges puts the smaller index first. -/
def mkUndirected (a b : Nat) : Edge :=
  if a < b then { node1 := a, node2 := b, end1 := .tail, end2 := .tail }
  else { node1 := b, node2 := a, end1 := .tail, end2 := .tail }

/-- Edge.cpp 51-58 `IsDirected`. -/
def Edge.isDirected (e : Edge) : Bool :=
  (e.end1 = .arrow && e.end2 = .tail) || (e.end2 = .arrow && e.end1 = .tail)

/-- A configuration of parents: `set<pair<int, int>>`, sorted. -/
abbrev Config := List (Nat × Nat)

/-- The members of `Node` used for the structure (Node.h 37-44) and the domain size of `DiscreteNode`.
`set<DiscreteConfig>` is a list without repetition whose order is not modelled. -/
structure NodeS where
  /-- `num_potential_vals` -/
  dim : Nat
  /-- `set_parent_indexes` -/
  parents : List Nat := []
  /-- `set_children_indexes` -/
  children : List Nat := []
  /-- `vec_disc_parent_indexes` -/
  discParents : List Nat := []
  /-- `set_discrete_parents_combinations`, initially one empty configuration -/
  combs : List Config := [[]]
  deriving DecidableEq, Repr

/-- `set<DiscreteConfig>::insert`, order not modelled. -/
def combsInsert (c : Config) (s : List Config) : List Config := if c ∈ s then s else s ++ [c]

/-- Node.cpp 90-102: every old configuration extended by every value of the new parent. -/
def extendCombs (p dim : Nat) (combs : List Config) : List Config :=
  (List.range dim).foldl (fun acc i => combs.foldl (fun acc c => combsInsert (configInsert (p, i) c) acc) acc) []

/-- Node.cpp 80-106 `AddDiscreteParent`; `pdim` is the domain size of the parent. -/
def NodeS.addParent (c : NodeS) (p pdim : Nat) : NodeS :=
  if p ∈ c.parents then c
  else { c with parents := setInsert p c.parents, discParents := c.discParents ++ [p], combs := extendCombs p pdim c.combs }

/-- Node.cpp 40-44 `AddChild`. -/
def NodeS.addChild (n : NodeS) (c : Nat) : NodeS := { n with children := setInsert c n.children }

/-- Node.cpp 197-203: each value of the removed parent is erased from every old configuration. -/
def shrinkCombs (p dim : Nat) (combs : List Config) : List Config :=
  (List.range dim).foldl (fun acc i => combs.foldl (fun acc c => combsInsert (c.erase (p, i)) acc) acc) []

/-- Node.cpp 164-207 `RemoveParent`. -/
def NodeS.removeParent (c : NodeS) (p pdim : Nat) : NodeS :=
  if p ∈ c.parents then
    { c with parents := c.parents.erase p, discParents := c.discParents.erase p, combs := shrinkCombs p pdim c.combs }
  else c

/-- Node.cpp 147-154 `RemoveChild`. -/
def NodeS.removeChild (n : NodeS) (c : Nat) : NodeS := { n with children := n.children.erase c }

/-- The members of `Network` that describe its structure (Network.h 31-39); `num_nodes` is the number of nodes.
`num_edges` (not maintained by the edge operations) is left out. -/
structure Net where
  nodes : List NodeS
  /-- `vec_edges` -/
  edges : List Edge := []
  /-- `topo_ord` -/
  topo : List Nat := []
  deriving DecidableEq, Repr

/-- Network.cpp 67-73 `FindNodePtrByIndex`. -/
def Net.find (N : Net) (i : Nat) : Except Fault NodeS :=
  match N.nodes[i]? with
  | some s => .ok s
  | none => .error .exit

/-- Network.cpp 327-330 `SetParentChild` (the two nodes may be the same object). -/
def Net.setParentChild (N : Net) (p c : Nat) : Except Fault Net := do
  let pn ← N.find p
  let N1 := { N with nodes := N.nodes.set p (pn.addChild c) }
  let cn ← N1.find c
  return { N1 with nodes := N1.nodes.set c (cn.addParent p pn.dim) }

/-- Network.cpp 337-347 `RemoveParentChild`. -/
def Net.removeParentChild (N : Net) (p c : Nat) : Except Fault Net := do
  let pn ← N.find p
  let N1 := { N with nodes := N.nodes.set p (pn.removeChild c) }
  let cn ← N1.find c
  return { N1 with nodes := N1.nodes.set c (cn.removeParent p pn.dim) }

/-- Network.cpp 516-531 and 390-402: adjacency matrix and in-degrees from the child sets. -/
def Net.matrix (N : Net) : Except Fault (List (List Int) × List Int) :=
  let n := N.nodes.length
  (List.range n).foldlM (fun (st : List (List Int) × List Int) i => do
    let s ← N.find i
    s.children.foldlM (fun (st : List (List Int) × List Int) c => do
      let row ← rd st.1 i
      let row' ← wr row c 1
      let g ← wr st.1 i row'
      let d ← rd st.2 c
      let deg ← wr st.2 c (d + 1)
      return (g, deg)) st) (List.replicate n (List.replicate n 0), List.replicate n 0)

/-- Network.cpp 515-541 `ContainCircle`. -/
def Net.containCircle (N : Net) : Except Fault Bool := do
  let (g, deg) ← N.matrix
  directedGraphContainsCircle g deg N.nodes.length

/-- Network.cpp 385-490 `GenTopoOrd` (pure discrete case). -/
def Net.genTopoOrd (N : Net) : Except Fault (List Nat) := do
  let (g, deg) ← N.matrix
  topoSort g deg N.nodes.length

/-- Network.cpp 371-376 `GetTopoOrd`: the order is computed once and kept. -/
def Net.getTopoOrd (N : Net) : Except Fault (List Nat × Net) :=
  if N.topo = [] then do
    let o ← N.genTopoOrd
    return (o, { N with topo := o })
  else .ok (N.topo, N)

/-- Network.cpp 169-191 `AddDirectedEdge`. -/
def Net.addDirectedEdge (N : Net) (p c : Nat) : Except Fault (Net × Bool) := do
  let _ ← N.find p
  let _ ← N.find c
  let N1 ← N.setParentChild p c
  let circle ← N1.containCircle
  if circle then
    let N2 ← N1.removeParentChild p c
    return (N2, false)
  else return ({ N1 with edges := N1.edges ++ [mkDirected p c] }, true)

/-- Network.cpp 90-110 `GetUndirectedEdge`, `GetDirectedEdge`: first position of an equal edge, `none` for -1. -/
def findEdge (edges : List Edge) (e : Edge) : Option Nat := edges.findIdx? (fun f => f.same e)

/-- Network.cpp 193-213 `DeleteDirectedEdge`. -/
def Net.deleteDirectedEdge (N : Net) (p c : Nat) : Except Fault (Net × Bool) := do
  let _ ← N.find p
  let _ ← N.find c
  match findEdge N.edges (mkDirected p c) with
  | none => return (N, false)
  | some pos =>
    let N1 ← N.removeParentChild p c
    return ({ N1 with edges := N1.edges.eraseIdx pos }, true)

/-- Network.cpp 219-240 `AddUndirectedEdge`. -/
def Net.addUndirectedEdge (N : Net) (p c : Nat) : Except Fault Net := do
  let _ ← N.find p
  let _ ← N.find c
  return { N with edges := N.edges ++ [mkUndirected p c] }

/-- Network.cpp 242-268 `DeleteUndirectedEdge`. -/
def Net.deleteUndirectedEdge (N : Net) (p c : Nat) : Except Fault (Net × Bool) := do
  let (p, c) := if p > c then (c, p) else (p, c)
  let _ ← N.find p
  let _ ← N.find c
  match findEdge N.edges (mkUndirected p c) with
  | none => return (N, false)
  | some pos => return ({ N with edges := N.edges.eraseIdx pos }, true)

/-- Network.cpp 270-283 `GenerateUndirectedCompleteGraph`.  `resize` fills new slots with default-constructed edges, whose nodes are
indeterminate; `none` marks such a slot.  Returns the slots. -/
def completeGraphEdges (n : Nat) : Except Fault (List (Option Edge)) :=
  let slots := List.replicate ((n - 1) * n / 2) none
  (List.range n).foldlM (fun acc i =>
    ((List.range n).filter (fun j => i < j)).foldlM (fun acc j =>
      wr acc ((2 * n - i - 1) * i / 2 + j - i - 1) (some (mkUndirected i j))) acc) slots

/-- An edge operation of the public interface. -/
inductive EdgeOp where
  | addDirected (p c : Nat)
  | deleteDirected (p c : Nat)
  | addUndirected (p c : Nat)
  | deleteUndirected (p c : Nat)
  deriving DecidableEq, Repr

/-- One call. -/
def Net.apply (N : Net) : EdgeOp → Except Fault Net
  | .addDirected p c => do return (← N.addDirectedEdge p c).1
  | .deleteDirected p c => do return (← N.deleteDirectedEdge p c).1
  | .addUndirected p c => N.addUndirectedEdge p c
  | .deleteUndirected p c => do return (← N.deleteUndirectedEdge p c).1

/-- A history of calls. -/
def Net.run (N : Net) (ops : List EdgeOp) : Except Fault Net := ops.foldlM Net.apply N

/-- A new network whose nodes have the given domain sizes and no edges. -/
def Net.empty (dims : List Nat) : Net := { nodes := dims.map (fun d => { dim := d }) }

end FastPGM
