import Verif.Model.Network

/-!
Model of the handling of several sub-graphs: `FindRootsInDAGForest` and `AddRootNode`
(src/fastpgm/structure_learning/StructureLearning.cpp 151-236).
-/

namespace FastPGM

/-- StructureLearning.cpp 165-176: among the unvisited nodes with in-degree 0 the first one with the most children; `none` stands for
`max_children == -1`.  The pair is `(root, max_children)`. -/
def Net.pickRoot (N : Net) (inDegrees : List Nat) (visited : List Bool) : Except Fault (Option (Nat × Nat)) :=
  (List.range N.nodes.length).foldlM (fun best i => do
    let d ← rd inDegrees i
    let v ← rd visited i
    if d = 0 ∧ v = false then
      let s ← N.find i
      match best with
      | none => return some (i, s.children.length)
      | some (r, m) => if m < s.children.length then return some (i, s.children.length) else return some (r, m)
    else return best) none

/-- StructureLearning.cpp 190-195 and 196-201: mark the unvisited nodes of the list and queue them. -/
def visitAll (l : List Nat) (st : List Bool × List Nat) : Except Fault (List Bool × List Nat) :=
  l.foldlM (fun (st : List Bool × List Nat) j => do
    let v ← rd st.1 j
    if v then return st
    else
      let vis ← wr st.1 j true
      return (vis, st.2 ++ [j])) st

/-- StructureLearning.cpp 186-202: the breadth-first search.  Every node enters the queue at most once, so `fuel = num_nodes` is enough. -/
def Net.searchLoop (N : Net) : Nat → List Bool → List Nat → Except Fault (List Bool)
  | _, visited, [] => .ok visited
  | 0, _, _ :: _ => .error .ub
  | fuel + 1, visited, current :: que => do
    let s ← N.find current
    let st ← visitAll s.children (visited, que)
    let (visited, que) ← visitAll s.parents st
    Net.searchLoop N fuel visited que

/-- StructureLearning.cpp 163-203: the outer loop; every round visits a new node. -/
def Net.rootsLoop (N : Net) (inDegrees : List Nat) : Nat → List Bool → List Nat → Except Fault (List Nat)
  | 0, _, _ => .error .ub
  | fuel + 1, visited, roots => do
    match ← N.pickRoot inDegrees visited with
    | none => return roots
    | some (root, _) =>
      let visited ← wr visited root true
      let visited ← N.searchLoop N.nodes.length visited [root]
      Net.rootsLoop N inDegrees fuel visited (roots ++ [root])

/-- StructureLearning.cpp 151-206 `FindRootsInDAGForest`. -/
def Net.findRoots (N : Net) : Except Fault (List Nat) := do
  let inDegrees ← (List.range N.nodes.length).mapM (fun i => do return (← N.find i).parents.length)
  N.rootsLoop inDegrees (N.nodes.length + 1) (List.replicate N.nodes.length false) []

/-- StructureLearning.cpp 217-236 `AddRootNode`.  The new node is not yet in `map_idx_node_ptr` while its children are set; its
`SetParentChild` (Network.cpp 327-330) records the child and the parent.  The names are left out; the new node has two values. -/
def Net.addRootNode (N : Net) (subRoots : List Nat) : Except Fault Net := do
  let n := N.nodes.length
  let (N, root) ← subRoots.foldlM (fun (st : Net × NodeS) child => do
    let c ← st.1.find child
    let root := st.2.addChild child
    return ({ st.1 with nodes := st.1.nodes.set child (c.addParent n root.dim), edges := st.1.edges ++ [mkDirected n child] }, root))
    (N, ({ dim := 2 } : NodeS))
  return { N with nodes := N.nodes ++ [root] }

end FastPGM
