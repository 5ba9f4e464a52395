import Verif.Model.Orientation
import Verif.Model.Params

/-!
Model of `JunctionTreeStructure` (src/fastpgm/inference/JunctionTreeStructure.cpp), `Clique`, `Separator` and of the traversal of the
tree in `JunctionTree` (src/fastpgm/inference/JunctionTree.cpp 3-147).

Cliques are numbered by their position in `vector_clique_ptr_container`, separators by their position in
`vector_separator_ptr_container`.  Sets of pointers (`set<Separator*>`, `set<Clique*>`) are traversed in the order of the addresses,
which is arbitrary: it is a parameter of the model.
-/

namespace FastPGM

variable {K : Type}

/-- `matrix[i][j]` -/
def mrd (M : List (List Int)) (i j : Nat) : Except Fault Int := do
  let row ← rd M i
  rd row j

/-- `matrix[i][j] = x` -/
def mwr (M : List (List Int)) (i j : Nat) (x : Int) : Except Fault (List (List Int)) := do
  let row ← rd M i
  let row' ← wr row j x
  wr M i row'

/-- Network.cpp 495-510 `ConvertDAGToAdjacencyMatrix`. -/
def Net.adjacencyMatrix (N : Net) : Except Fault (List (List Int)) :=
  (List.range N.nodes.length).foldlM (fun M i => do
    let s ← N.find i
    s.children.foldlM (fun M c => mwr M i c 1) M)
    (List.replicate N.nodes.length (List.replicate N.nodes.length 0))

/-- JunctionTreeStructure.cpp 77-87: the parents of `i` according to the matrix. -/
def matrixParents (M : List (List Int)) (n i : Nat) : Except Fault (List Nat) :=
  (List.range n).foldlM (fun ps j => do
    if i = j then return ps
    else
      let x ← mrd M j i
      if x = 1 then return ps ++ [j] else return ps) []

/-- JunctionTreeStructure.cpp 89-99: all pairs of parents. -/
def parentPairs (parents : List Nat) : Except Fault (List (Nat × Nat)) :=
  if parents.length < 2 then .ok []
  else do
    let gen ← choiceGenerator parents.length 2
    let choices ← drain (parents.length * parents.length + 1) gen
    choices.mapM (fun c => do
      let s ← pickSet parents c 2
      let x ← rd s 0
      let y ← rd s 1
      return (x, y))

/-- JunctionTreeStructure.cpp 103-110: make the matrix symmetric. -/
def symmetrise (M : List (List Int)) (n : Nat) : Except Fault (List (List Int)) :=
  (List.range n).foldlM (fun M i =>
    (List.range i).foldlM (fun M j => do
      let x ← mrd M i j
      let y ← mrd M j i
      if x = 1 ∨ y = 1 then do
        let M ← mwr M i j 1
        mwr M j i 1
      else return M) M) M

/-- JunctionTreeStructure.cpp 73-117 `Moralize`.  `to_marry` is a set of pairs; it is kept as a list here (the order and repetitions
do not matter for the assignments of 113-116). -/
def moralize (M : List (List Int)) (n : Nat) : Except Fault (List (List Int)) := do
  let toMarry ← (List.range n).foldlM (fun (l : List (Nat × Nat)) i => do
    let ps ← matrixParents M n i
    let pairs ← parentPairs ps
    return l ++ pairs) []
  let M ← symmetrise M n
  toMarry.foldlM (fun M p => do
    let M ← mwr M p.1 p.2 1
    mwr M p.2 p.1 1) M

/-- JunctionTreeStructure.cpp 174-178 (and 156-161, where only their number is counted): the neighbours of `i`. -/
def matrixNeighbours (M : List (List Int)) (n i : Nat) : Except Fault (List Nat) :=
  (List.range n).foldlM (fun l j => do
    let x ← mrd M i j
    if x = 1 then return l ++ [j] else return l) []

/-- JunctionTreeStructure.cpp 146-166: the unprocessed node with the fewest neighbours, the first one if several.
With no unprocessed node `min_nei_node` is not initialised; this is not reached. -/
def minNeighbourNode (M : List (List Int)) (n : Nat) (done : List Bool) : Except Fault Nat := do
  let best ← (List.range n).foldlM (fun (best : Option (Nat × Nat)) i => do
    let d ← rd done i
    if d then return best
    else
      let l ← matrixNeighbours M n i
      match best with
      | none => return some (i, l.length)
      | some (b, m) => if l.length < m then return some (i, l.length) else return some (b, m)) none
  match best with
  | some (b, _) => return b
  | none => .error .ub

/-- JunctionTreeStructure.cpp 181-187: connect all pairs of the neighbours. -/
def connectAll (M : List (List Int)) : List Nat → Except Fault (List (List Int))
  | [] => .ok M
  | x :: xs => do
    let M ← xs.foldlM (fun M y => do
      let M ← mwr M x y 1
      mwr M y x 1) M
    connectAll M xs

/-- JunctionTreeStructure.cpp 215-221: remove the edges of `i`. -/
def disconnect (M : List (List Int)) (i : Nat) (neighbours : List Nat) : Except Fault (List (List Int)) :=
  neighbours.foldlM (fun M y => do
    let M ← mwr M i y 0
    mwr M y i 0) M

/-- JunctionTreeStructure.cpp 189-203: `set_intersection` of the new clique with an existing one equals the new clique. -/
def containedIn (new old : List Nat) : Bool := new.filter (fun v => v ∈ old) = new

/-- JunctionTreeStructure.cpp 130-224 `Triangulate` (recursive; every call processes one node, so `n + 1` calls suffice).  The cliques
are lists of node indices in increasing order. -/
def triangulate (n : Nat) : Nat → List (List Int) → List Bool → List (List Nat) → Except Fault (List (List Nat))
  | 0, _, _, _ => .error .ub
  | fuel + 1, M, done, cliques =>
    if done.all id then .ok cliques
    else do
      let node ← minNeighbourNode M n done
      let nbs ← matrixNeighbours M n node
      let M ← connectAll M nbs
      let clique := sortedSet (node :: nbs)
      let cliques := if cliques.any (containedIn clique) then cliques else cliques ++ [clique]
      let done ← wr done node true
      let M ← disconnect M node nbs
      triangulate n fuel M done cliques

/-- JunctionTreeStructure.cpp 237-241: the common variables of two cliques. -/
def commonVars (cliques : List (List Nat)) (i j : Nat) : List Nat :=
  (cliques.getD i []).filter (fun v => v ∈ cliques.getD j [])

/-- JunctionTreeStructure.cpp 234-255: all pairs of cliques with common variables (the candidate separators). -/
def candidateSeps (cliques : List (List Nat)) : List (Nat × Nat) :=
  (List.range cliques.length).flatMap (fun i =>
    ((List.range cliques.length).filter (fun j => i < j ∧ commonVars cliques i j ≠ [])).map (fun j => (i, j)))

/-- JunctionTreeStructure.cpp 266-281: the first candidate of maximum weight among those with exactly one end in the tree.  `ord` is the
order in which `set<Separator*>` is traversed. -/
def heaviestSep (cliques : List (List Nat)) (ord : List (Nat × Nat)) (tree : List Nat) : Option (Nat × Nat) :=
  ord.foldl (fun best p =>
    if (p.1 ∈ tree ∧ p.2 ∉ tree) ∨ (p.1 ∉ tree ∧ p.2 ∈ tree) then
      match best with
      | none => some p
      | some q => if (commonVars cliques q.1 q.2).length < (commonVars cliques p.1 p.2).length then some p else some q
    else best) none

/-- JunctionTreeStructure.cpp 264-290, the loop of Prim's algorithm.  If there is no candidate, `max_weight_sep` is a null pointer and
line 283 dereferences it. -/
def primLoop (cliques : List (List Nat)) (ord : List (Nat × Nat)) :
    Nat → List Nat → List (Nat × Nat) → Except Fault (List (Nat × Nat))
  | 0, tree, seps => if tree.length < cliques.length then .error .ub else .ok seps
  | fuel + 1, tree, seps =>
    if tree.length < cliques.length then
      match heaviestSep cliques ord tree with
      | none => .error .ub
      | some p => primLoop cliques ord fuel (setInsert p.2 (setInsert p.1 tree)) (seps ++ [p])
    else .ok seps

/-- JunctionTreeStructure.cpp 230-308 `FormJunctionTree`: the separators of the tree, each given by its two cliques.  With no clique, line
262 reads `vector_clique_ptr_container[0]` of an empty vector. -/
def formJunctionTree (cliques : List (List Nat)) (ord : List (Nat × Nat)) : Except Fault (List (Nat × Nat)) :=
  if cliques = [] then .error .ub else primLoop cliques ord cliques.length [0] []

/-- Clique.cpp 19-33 and Separator.cpp: the initial tables of the cliques and of the separators, all entries 1. -/
def initialTables [One K] (card : Nat → Nat) (cliques : List (List Nat)) : Except Fault (List (Table K)) :=
  cliques.mapM (fun c => constructEmptyTable card c)

/-- JunctionTreeStructure.cpp 331-353: multiply one table into the first clique that contains all its variables; if there is none the
table is dropped. -/
def assignTableToClique [Mul K] (cliques : List (List Nat)) (tables : List (Table K)) (pt : Table K) : Except Fault (List (Table K)) :=
  match cliques.findIdx? (fun c => pt.vars = [] ∨ c = [] ∨ (pt.vars.filter (fun v => v ∉ c)) = []) with
  | none => .ok tables
  | some i =>
    if pt.vars = [] ∨ cliques.getD i [] = [] then .ok tables
    else do
      let T ← rd tables i
      let T' ← tableMultiplication T pt
      wr tables i T'

/-- JunctionTreeStructure.cpp 314-356 `AssignPotentials`, given the tables of the network. -/
def assignPotentials [Mul K] (cliques : List (List Nat)) (tables : List (Table K)) (pts : List (Table K)) :
    Except Fault (List (Table K)) :=
  pts.foldlM (assignTableToClique cliques) tables

/-- The cliques and separators of a junction tree (JunctionTreeStructure.h), and the orders of the addresses. -/
structure JTShape where
  /-- `clique_variables` of the cliques -/
  cliques : List (List Nat)
  /-- the two cliques of each separator -/
  seps : List (Nat × Nat)
  /-- order of the addresses of the candidate separators -/
  ord : List (Nat × Nat)
  /-- order of the addresses of the cliques -/
  cord : List Nat
  deriving DecidableEq, Repr

/-- JunctionTreeStructure.cpp 20-28: the cliques of the triangulated moral graph. -/
def Net.cliques (N : Net) : Except Fault (List (List Nat)) := do
  let n := N.nodes.length
  let M ← N.adjacencyMatrix
  let M ← moralize M n
  triangulate n (n + 1) M (List.replicate n false) []

/-- JunctionTreeStructure.cpp 16-58, the constructor without the tables.  With no node, line 18 reserves `(size_t)(-1)` elements, which
throws `std::length_error`.  `cord n` is the order of the addresses of `n` cliques. -/
def Net.junctionShape (N : Net) (order : List (Nat × Nat) → List (Nat × Nat)) (cord : Nat → List Nat) :
    Except Fault JTShape :=
  if N.nodes.length = 0 then .error .throw
  else do
    let cliques ← N.cliques
    let ord := order (candidateSeps cliques)
    let seps ← formJunctionTree cliques ord
    return ⟨cliques, seps, ord, cord cliques.length⟩

/-- A clique or a separator of the tree (both are `Clique*` in the code). -/
inductive JNode where
  | clq (i : Nat)
  | sep (s : Nat)
  deriving DecidableEq, Repr

/-- JunctionTreeStructure.cpp 249-250 and 293-298: `set_neighbours_ptr`, in the order of the addresses. -/
def JTShape.neighbours (T : JTShape) : JNode → List JNode
  | .clq i => (T.ord.filter (fun p => p ∈ T.seps ∧ (p.1 = i ∨ p.2 = i))).map (fun p => JNode.sep (T.seps.idxOf p))
  | .sep s =>
    match T.seps[s]? with
    | some p => (T.cord.filter (fun c => c = p.1 ∨ c = p.2)).map JNode.clq
    | none => []

/-- The pointers set by the traversal: `ptr_upstream_clique` and `ptr_downstream_cliques`. -/
structure Marks where
  up : JNode → Option JNode := fun _ => none
  down : JNode → List JNode := fun _ => []

/-- JunctionTree.cpp 76-93, one clique or separator of a level: its neighbours except the upstream one become its children.  Returns the
pointers and the nodes collected in `vec2`. -/
def visitNode (T : JTShape) (st : Marks × List JNode) (x : JNode) : Marks × List JNode :=
  (T.neighbours x).foldl (fun st y =>
    if some y = st.1.up x then st
    else
      ({ up := fun z => if z = y then some x else st.1.up z
         down := fun z => if z = x then st.1.down x ++ [y] else st.1.down z }, st.2 ++ [y])) st

/-- JunctionTree.cpp 64-98, the `while` loop of `MarkLevel`: returns the pointers and the levels after the current one, ending with the
empty one.  A loop that has not ended after `fuel` levels is treated as a fault (it would not terminate). -/
def markLoop (T : JTShape) : Nat → Marks → List JNode → Except Fault (Marks × List (List JNode))
  | 0, _, _ => .error .ub
  | fuel + 1, m, vec =>
    if vec = [] then .ok (m, [])
    else do
      let st := vec.foldl (visitNode T) (m, [])
      let (m', rest) ← markLoop T fuel st.1 st.2
      return (m', st.2 :: rest)

/-- The entries at odd positions: `separators_by_level` gets a level whenever `nodes_by_level` has an odd number of levels
(JunctionTree.cpp 74, 95-97). -/
def oddLevels {α : Type} : List α → List α
  | _ :: y :: rest => y :: oddLevels rest
  | _ => []

/-- What `MarkLevel` leaves behind. -/
structure Levels where
  marks : Marks
  /-- `nodes_by_level` -/
  nodes : List (List JNode)
  /-- `separators_by_level` -/
  seps : List (List JNode)

/-- JunctionTree.cpp 59-103 `MarkLevel`.  The last level of both lists is removed at the end.  The number of levels of a tree is less
than twice the number of cliques plus one. -/
def markLevel (T : JTShape) (root : Nat) : Except Fault Levels := do
  let (m, rest) ← markLoop T (2 * T.cliques.length + 2) {} [JNode.clq root]
  let levels := [JNode.clq root] :: rest
  return ⟨m, levels.dropLast, (oddLevels levels).dropLast⟩

/-- JunctionTree.cpp 109-147 `GetMaxLevel`: the same traversal, and the number of levels without the last one; the pointers are
cleared again. -/
def getMaxLevel (T : JTShape) (root : Nat) : Except Fault Nat := do
  let (_, rest) ← markLoop T (2 * T.cliques.length + 2) {} [JNode.clq root]
  return rest.length

/-- JunctionTree.cpp 16-26: the first clique with the fewest levels. -/
def chooseRoot (T : JTShape) : Except Fault Nat := do
  let m0 ← getMaxLevel T 0
  let (_, root) ← (List.range (T.cliques.length - 1)).foldlM (fun (st : Nat × Nat) k => do
    let m ← getMaxLevel T (k + 1)
    if m < st.1 then return (m, k + 1) else return st) (m0, 0)
  return root

end FastPGM
