import Verif.Model.Network

/-!
Model of the comparison of two structures: `OrderEdge`, `FindCompelled`, `IsDAG` (src/fastpgm/Network.cpp 547-699) and
`BNSLComparison` (src/fastpgm/structure_learning/BNSLComparison.cpp).
-/

namespace FastPGM

/-- Network.cpp 122-130 `GetEdge`: first position of an edge between the two nodes, `none` for -1. -/
def Net.getEdge (N : Net) (a b : Nat) : Option Nat :=
  N.edges.findIdx? (fun e => (e.node1 = a && e.node2 = b) || (e.node2 = a && e.node1 = b))

/-- `vec_edges.at(GetDirectedEdge(a, b))` as a position; for -1 the access throws. -/
def edgeAt (edges : List Edge) (a b : Nat) : Except Fault Nat :=
  match findEdge edges (mkDirected a b) with
  | some p => .ok p
  | none => .error .throw

/-! ### OrderEdge -/

/-- Network.cpp 564-573: the body of the inner loop for the node `x` at position `k` of the order.  The state is `vec_edges` and
`edge_order`. -/
def Net.orderStep (N : Net) (ps : List Nat) (y : Nat) (st : List Edge × List Edge) (x : Nat) : Except Fault (List Edge × List Edge) :=
  if x ∈ ps then do
    let _ ← N.find x
    let pos ← edgeAt st.1 x y
    let e ← rdAt st.1 pos
    if e.ordered then return st
    else return (st.1.set pos { e with ordered := true }, st.2 ++ [{ e with ordered := true }])
  else .ok st

/-- Network.cpp 547-583 `OrderEdge`.  The loop of lines 553-555 changes copies only.  Returns `edge_order` and the network. -/
def Net.orderEdge (N : Net) : Except Fault (List Edge × Net) := do
  let (topo, N) ← N.getTopoOrd
  let st ← (List.range topo.length).foldlM (fun st j => do
    let y ← rdAt topo j
    let s ← N.find y
    if s.parents = [] then return st
    else (List.range j).reverse.foldlM (fun st k => do
      let x ← rdAt topo k
      N.orderStep s.parents y st x) st) (N.edges, [])
  if st.2.length ≠ st.1.length then .error .exit
  else return (st.2, { N with edges := st.1 })

/-! ### FindCompelled -/

/-- `vec_edges.at(GetDirectedEdge(a, b)).label = l` -/
def setLabel (edges : List Edge) (a b : Nat) (l : Label) : Except Fault (List Edge) := do
  let pos ← edgeAt edges a b
  let e ← rdAt edges pos
  return edges.set pos { e with label := l }

/-- `vec_edges.at(GetDirectedEdge(a, b)).label == COMPELLED`; reading a label that was never set is undefined. -/
def isCompelled (edges : List Edge) (a b : Nat) : Except Fault Bool := do
  let pos ← edgeAt edges a b
  let e ← rdAt edges pos
  match e.label with
  | .compelled => return true
  | .reversible => return false
  | .unset => .error .ub

/-- `edge_order.erase(edge_order.begin())`; undefined for an empty vector. -/
def eraseFirst (order : List Edge) : Except Fault (List Edge) :=
  match order with
  | [] => .error .ub
  | _ :: rest => .ok rest

/-- Network.cpp 632-636, 658-662 and 675-679: an edge that is still in `edge_order` is labelled and removed from there. -/
def labelPending (l : Label) (y : Nat) (st : List Edge × List Edge) (p : Nat) : Except Fault (List Edge × List Edge) :=
  match findEdge st.2 (mkDirected p y) with
  | some pos => do return (← setLabel st.1 p y l, st.2.eraseIdx pos)
  | none => .ok st

/-- Network.cpp 619-628: every edge into `y` is labelled, and removed from `edge_order` if it is there. -/
def labelAll (y : Nat) (st : List Edge × List Edge) (p : Nat) : Except Fault (List Edge × List Edge) :=
  match findEdge st.2 (mkDirected p y) with
  | some pos => do return (← setLabel st.1 p y .compelled, st.2.eraseIdx pos)
  | none => do return (← setLabel st.1 p y .compelled, st.2)

/-- Network.cpp 605-639: the loop over the parents of `x`; the flag is `tmp1`. -/
def compelLoop1 (ps : List Nat) (x y : Nat) : List Nat → List Edge × List Edge → Except Fault ((List Edge × List Edge) × Bool)
  | [], st => .ok (st, false)
  | w :: ws, st => do
    if ← isCompelled st.1 w x then
      if w ∉ ps then do
        let edges ← setLabel st.1 x y .compelled
        let order ← eraseFirst st.2
        let st ← ps.foldlM (labelAll y) (edges, order)
        return (st, true)
      else do
        let st ← labelPending .compelled y st w
        compelLoop1 ps x y ws st
    else compelLoop1 ps x y ws st

/-- Network.cpp 643-666: the loop over the parents of `y`; the flag is `tmp2`.  There is no `break`: for every further parent the first
edge is erased again. -/
def compelLoop2 (ps xps : List Nat) (x y : Nat) (st : (List Edge × List Edge) × Bool) (z : Nat) :
    Except Fault ((List Edge × List Edge) × Bool) :=
  if z ≠ x ∧ z ∉ xps then do
    let edges ← setLabel st.1.1 x y .compelled
    let order ← eraseFirst st.1.2
    let st ← ps.foldlM (labelPending .compelled y) (edges, order)
    return (st, true)
  else .ok st

/-- Network.cpp 600-682: one round for the first edge `x → y` of `edge_order`. -/
def Net.compelRound (N : Net) (x y : Nat) (st : List Edge × List Edge) : Except Fault (List Edge × List Edge) := do
  let sx ← N.find x
  let sy ← N.find y
  let (st, tmp1) ← compelLoop1 sy.parents x y sx.parents st
  if tmp1 then return st
  else do
    let (st, tmp2) ← sy.parents.foldlM (compelLoop2 sy.parents sx.parents x y) (st, false)
    if tmp2 then return st
    else do
      let edges ← setLabel st.1 x y .reversible
      let order ← eraseFirst st.2
      sy.parents.foldlM (labelPending .reversible y) (edges, order)

/-- Network.cpp 590-684 `FindCompelled`; every round removes an edge, so `fuel = edge_order.size()` is enough. -/
def Net.compelLoop (N : Net) : Nat → List Edge × List Edge → Except Fault (List Edge)
  | _, (edges, []) => .ok edges
  | 0, (_, _ :: _) => .error .ub
  | fuel + 1, (edges, e :: order) => do
    let st ← N.compelRound e.node1 e.node2 (edges, e :: order)
    N.compelLoop fuel st

/-- Network.cpp 590-684 `FindCompelled` -/
def Net.findCompelled (N : Net) (order : List Edge) : Except Fault Net := do
  let edges ← N.compelLoop order.length (N.edges, order)
  return { N with edges := edges }

/-! ### BNSLComparison -/

/-- Network.cpp 692-699 `IsDAG`: only the first edge is looked at. -/
def Net.isDAG (N : Net) : Except Fault Bool := do
  let e ← rdAt N.edges 0
  return e.isDirected

/-- BNSLComparison.cpp 18-28: the reversible edges become undirected; `numEdges` is the member `num_edges`, which the edge operations do
not maintain. -/
def undirectReversible (edges : List Edge) (numEdges : Nat) : Except Fault (List Edge) :=
  (List.range numEdges).foldlM (fun edges i => do
    let e ← rdAt edges i
    match e.label with
    | .compelled => return edges
    | .reversible => return edges.set i (mkUndirected e.node1 e.node2)
    | .unset => .error .ub) edges

/-- BNSLComparison.cpp 44-73 `GetSHDOneEdge` -/
def shdOneEdge (T L : Net) (i1 i2 : Nat) : Except Fault Nat := do
  let _ ← T.find i1
  let _ ← T.find i2
  let _ ← L.find i1
  let _ ← L.find i2
  match T.getEdge i1 i2, L.getEdge i1 i2 with
  | none, none => return 0
  | some p1, some p2 => do
    let e1 ← rdAt T.edges p1
    let e2 ← rdAt L.edges p2
    if e1.node1 = e2.node1 ∧ e1.node2 = e2.node2 ∧ e1.end2 = e2.end2 then return 0 else return 1
  | _, _ => return 1

/-- BNSLComparison.cpp 34-41: the sum over all pairs. -/
def shdLoop (T L : Net) : Except Fault Nat :=
  (List.range L.nodes.length).foldlM (fun error i1 =>
    ((List.range L.nodes.length).filter (fun i2 => i1 < i2)).foldlM (fun error i2 => do
      return error + (← shdOneEdge T L i1 i2)) error) 0

/-- BNSLComparison.cpp 12-42 `GetSHD`; returns the distance and the changed true graph. -/
def getSHD (T L : Net) (numEdges : Nat) : Except Fault (Nat × Net) := do
  let T ← (do
    if ← L.isDAG then return T
    else
      let (order, T) ← T.orderEdge
      let T ← T.findCompelled order
      return { T with edges := ← undirectReversible T.edges numEdges })
  return (← shdLoop T L, T)

end FastPGM
