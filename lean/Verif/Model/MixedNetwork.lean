import Verif.Model.Network

/-!
Model of networks that contain continuous nodes: `ContinuousNode` (src/fastpgm/ContinuousNode.cpp), the branches of `Node` and
`DiscreteNode` that look at `is_discrete`, and the edge operations of `Network` on such nodes.  The means, coefficients and variances of
continuous nodes are written by no function of the library and are left out.
-/

namespace FastPGM

/-- A node of either kind: the members of `Node` and `DiscreteNode`, and `contin_par_indexes` (ContinuousNode.h 27). -/
structure MNode where
  /-- `!is_discrete` -/
  cont : Bool
  base : NodeS
  contParents : List Nat := []
  deriving DecidableEq, Repr

/-- Node.cpp 40-44 `AddChild` and its override, ContinuousNode.cpp 16-28: a continuous node refuses a discrete child.  A child that is
already there is reported on the console and nothing changes. -/
def MNode.addChild (n : MNode) (c : Nat) (ccont : Bool) : Except Fault MNode :=
  if n.cont && !ccont then .error .exit else .ok { n with base := n.base.addChild c }

/-- Node.cpp 113-122 `AddContinuousParent` -/
def MNode.addContinuousParent (n : MNode) (p : Nat) : MNode :=
  if p ∈ n.base.parents then n
  else { n with base := { n.base with parents := setInsert p n.base.parents }, contParents := n.contParents ++ [p] }

/-- Node.cpp 66-72 `AddParent` and its override, DiscreteNode.cpp 21-28; `pn` is the parent. -/
def MNode.addParent (n : MNode) (p : Nat) (pn : MNode) : Except Fault MNode :=
  if pn.cont then
    if n.cont then .ok (n.addContinuousParent p) else .error .exit
  else .ok { n with base := n.base.addParent p pn.base.dim }

/-- Node.cpp 164-207 `RemoveParent` -/
def MNode.removeParentBase (n : MNode) (p : Nat) (pn : MNode) : MNode :=
  if pn.cont then { n with base := { n.base with parents := n.base.parents.erase p } }
  else { n with base := n.base.removeParent p pn.base.dim }

/-- ContinuousNode.cpp 33-42 `RemoveParent`: the search for `p` in `contin_par_indexes` has no end test, so a missing `p` is undefined
behaviour. -/
def MNode.removeParent (n : MNode) (p : Nat) (pn : MNode) : Except Fault MNode :=
  let n := n.removeParentBase p pn
  if n.cont && pn.cont then
    if p ∈ n.contParents then .ok { n with contParents := n.contParents.erase p } else .error .ub
  else .ok n

/-- Network.h 31-39 with nodes of both kinds. -/
structure MNet where
  nodes : List MNode
  /-- `vec_edges` -/
  edges : List Edge := []
  /-- `topo_ord` -/
  topo : List Nat := []
  /-- `pure_discrete` -/
  pureDiscrete : Bool
  deriving DecidableEq, Repr

/-- Network.cpp 14-29: the constructor from nodes; their indices are their positions. -/
def MNet.ofNodes (nodes : List MNode) : MNet := { nodes := nodes, pureDiscrete := nodes.all (fun n => !n.cont) }

/-- Network.cpp 67-73 `FindNodePtrByIndex`. -/
def MNet.find (M : MNet) (i : Nat) : Except Fault MNode :=
  match M.nodes[i]? with
  | some s => .ok s
  | none => .error .exit

/-- The members of `Node` and `DiscreteNode` of all nodes. -/
def MNet.toNet (M : MNet) : Net := { nodes := M.nodes.map MNode.base, edges := M.edges, topo := M.topo }

/-- Network.cpp 327-330 `SetParentChild` -/
def MNet.setParentChild (M : MNet) (p c : Nat) : Except Fault MNet := do
  let pn ← M.find p
  let cn ← M.find c
  let pn ← pn.addChild c cn.cont
  let M1 := { M with nodes := M.nodes.set p pn }
  let cn ← M1.find c
  let cn ← cn.addParent p pn
  return { M1 with nodes := M1.nodes.set c cn }

/-- Network.cpp 337-347 `RemoveParentChild` -/
def MNet.removeParentChild (M : MNet) (p c : Nat) : Except Fault MNet := do
  let pn ← M.find p
  let pn := { pn with base := pn.base.removeChild c }
  let M1 := { M with nodes := M.nodes.set p pn }
  let cn ← M1.find c
  let cn ← cn.removeParent p pn
  return { M1 with nodes := M1.nodes.set c cn }

/-- Network.cpp 515-541 `ContainCircle`: only the child sets are read. -/
def MNet.containCircle (M : MNet) : Except Fault Bool := M.toNet.containCircle

/-- Network.cpp 371-376, 385-490: without `pure_discrete`, `GenTopoOrd` does nothing (its code is commented out). -/
def MNet.getTopoOrd (M : MNet) : Except Fault (List Nat × MNet) :=
  if M.topo = [] then
    if M.pureDiscrete then do
      let o ← M.toNet.genTopoOrd
      return (o, { M with topo := o })
    else .ok ([], M)
  else .ok (M.topo, M)

/-- Network.cpp 169-191 `AddDirectedEdge`. -/
def MNet.addDirectedEdge (M : MNet) (p c : Nat) : Except Fault (MNet × Bool) := do
  let _ ← M.find p
  let _ ← M.find c
  let M1 ← M.setParentChild p c
  let circle ← M1.containCircle
  if circle then
    let M2 ← M1.removeParentChild p c
    return (M2, false)
  else return ({ M1 with edges := M1.edges ++ [mkDirected p c] }, true)

/-- Network.cpp 193-213 `DeleteDirectedEdge`. -/
def MNet.deleteDirectedEdge (M : MNet) (p c : Nat) : Except Fault (MNet × Bool) := do
  let _ ← M.find p
  let _ ← M.find c
  match findEdge M.edges (mkDirected p c) with
  | none => return (M, false)
  | some pos =>
    let M1 ← M.removeParentChild p c
    return ({ M1 with edges := M1.edges.eraseIdx pos }, true)

/-- Network.cpp 219-240 `AddUndirectedEdge`. -/
def MNet.addUndirectedEdge (M : MNet) (p c : Nat) : Except Fault MNet := do
  let _ ← M.find p
  let _ ← M.find c
  return { M with edges := M.edges ++ [mkUndirected p c] }

/-- Network.cpp 242-268 `DeleteUndirectedEdge`. -/
def MNet.deleteUndirectedEdge (M : MNet) (p c : Nat) : Except Fault (MNet × Bool) := do
  let (p, c) := if p > c then (c, p) else (p, c)
  let _ ← M.find p
  let _ ← M.find c
  match findEdge M.edges (mkUndirected p c) with
  | none => return (M, false)
  | some pos => return ({ M with edges := M.edges.eraseIdx pos }, true)

/-- One call. -/
def MNet.apply (M : MNet) : EdgeOp → Except Fault MNet
  | .addDirected p c => do return (← M.addDirectedEdge p c).1
  | .deleteDirected p c => do return (← M.deleteDirectedEdge p c).1
  | .addUndirected p c => M.addUndirectedEdge p c
  | .deleteUndirected p c => do return (← M.deleteUndirectedEdge p c).1

/-- A history of calls. -/
def MNet.run (M : MNet) (ops : List EdgeOp) : Except Fault MNet := ops.foldlM MNet.apply M

/-- ContinuousNode.cpp 5-11, DiscreteNode.cpp 7-19: a new node; `some d` is a discrete node with `d` values. -/
def MNode.new : Option Nat → MNode
  | some d => { cont := false, base := { dim := d } }
  | none => { cont := true, base := { dim := 0 } }

/-- Network.cpp 31-54: the copy constructor; the copy and the source afterwards (`GetTopoOrd` fills the cache of the source).  Each node is
copied into a new object.  `vec_edges` is not copied; neither are `num_edges` and `pts`, which are not modelled here. -/
def MNet.copy (M : MNet) : Except Fault (MNet × MNet) := do
  let (topo, M) ← M.getTopoOrd
  let nodes ← (List.range M.nodes.length).mapM (fun i => rdAt M.nodes i)
  return ({ nodes := nodes, edges := [], topo := topo, pureDiscrete := M.pureDiscrete }, M)

end FastPGM
