import Verif.Model.Network
import Verif.Model.Skeleton

/-!
Model of the orientation phase of PC-stable (src/fastpgm/structure_learning/PCStable.cpp 639-871) and of the completion to a DAG
(src/fastpgm/structure_learning/StructureLearning.cpp 73-144).

`adj` is the map `adjacencies` of the skeleton phase; it is not changed any more.  Iterators into `vec_edges` are positions; the loops that
hold an iterator while an edge is appended get the capacity `cap` of `vec_edges`, since the iterator is invalid after a reallocation.
-/

namespace FastPGM

/-- Network.cpp 289-296 `IsAdjacentTo`. -/
def isAdjacentTo (adj : List (List Nat)) (a c : Nat) : Except Fault Bool := do
  let l ← rdAt adj a
  return decide (c ∈ l)

/-- Network.cpp 302-306 `IsDirectedFromTo`. -/
def Net.isDirectedFromTo (N : Net) (a c : Nat) : Except Fault Bool := do
  let _ ← N.find a
  let s ← N.find c
  return decide (a ∈ s.parents)

/-- Network.cpp 315-319 `IsUndirected`. -/
def Net.isUndirected (N : Net) (adj : List (List Nat)) (a c : Nat) : Except Fault Bool := do
  if ← isAdjacentTo adj a c then
    if ← N.isDirectedFromTo a c then return false
    else
      let r ← N.isDirectedFromTo c a
      return !r
  else return false

/-- All results of `Next` until the empty one (the loop `while (!(combination = cg.Next()).empty())`), at most `fuel`. -/
def drain : Nat → ChoiceGen → Except Fault (List (List Int))
  | 0, _ => .error .ub
  | fuel + 1, gen => do
    let (c, gen) ← gen.next
    if c = [] then return []
    else do
      let cs ← drain fuel gen
      return c :: cs

/-- PCStable.cpp 678-720: replace `a -- b -- c` by `a -> b <- c`. -/
def orientTriple (N : Net) (a b c : Nat) : Except Fault Net := do
  let (N, deletedDirected1) ← N.deleteDirectedEdge b a
  let (N, deletedUndirected1) ← (if deletedDirected1 then .ok (N, false) else N.deleteUndirectedEdge a b)
  let toAdd1 := deletedDirected1 || deletedUndirected1
  let (N, deletedDirected2) ← N.deleteDirectedEdge b c
  let (N, deletedUndirected2) ← (if deletedDirected2 then .ok (N, false) else N.deleteUndirectedEdge c b)
  let toAdd2 := deletedDirected2 || deletedUndirected2
  let (N, added1) ← (if toAdd1 then N.addDirectedEdge a b else .ok (N, false))
  let (N, added2) ← (if toAdd2 then N.addDirectedEdge c b else .ok (N, false))
  if (toAdd1 && !added1) || (toAdd2 && !added2) then do
    let N ← (if toAdd1 then
        (if deletedDirected1 then do return (← N.addDirectedEdge b a).1 else N.addUndirectedEdge a b)
      else .ok N)
    (if toAdd2 then
        (if deletedDirected2 then do return (← N.addDirectedEdge b c).1 else N.addUndirectedEdge c b)
      else .ok N)
  else return N

/-- PCStable.cpp 656-722: the pair of neighbours of `b` at the positions given by `choice`.  `sepset[make_pair(a, c)]` is the empty set if
nothing is recorded. -/
def orientPair (adj : List (List Nat)) (sep : Sepset) (b : Nat) (l : List Nat) (N : Net) (choice : List Int) : Except Fault Net := do
  let s ← pickSet l choice 2
  let a ← rd s 0
  let c ← rd s 1
  if ← isAdjacentTo adj a c then return N
  else if b ∈ (sep a c).getD [] then return N
  else orientTriple N a b c

/-- PCStable.cpp 639-724 `OrientVStructure`. -/
def orientVStructure (adj : List (List Nat)) (sep : Sepset) (N : Net) : Except Fault Net :=
  (List.range N.nodes.length).foldlM (fun N b => do
    let l ← rdAt adj b
    if l.length < 2 then return N
    else do
      let gen ← choiceGenerator l.length 2
      let choices ← drain (l.length * l.length + 1) gen
      choices.foldlM (orientPair adj sep b l) N) N

/-- StructureLearning.cpp 73-84 `Direct`, called while an iterator into `vec_edges` is held: appending to a full vector reallocates it and
leaves the iterator dangling. -/
def direct (cap : Nat) (N : Net) (a c : Nat) : Except Fault (Net × Bool) := do
  let size := N.edges.length
  let (N, added) ← N.addDirectedEdge a c
  if added then
    if size ≥ cap then .error .ub
    else do
      let (N, _) ← N.deleteUndirectedEdge a c
      return (N, true)
  else return (N, false)

/-- PCStable.cpp 777-786 `Rule1`, the loop over the parents of `b`. -/
def rule1Loop (cap : Nat) (adj : List (List Nat)) (b c : Nat) : List Nat → Net → Except Fault (Net × Bool)
  | [], N => .ok (N, false)
  | a :: as, N => do
    if ← isAdjacentTo adj c a then rule1Loop cap adj b c as N
    else do
      let (N, r) ← direct cap N b c
      if r then return (N, true) else rule1Loop cap adj b c as N

/-- PCStable.cpp 777-786 `Rule1`. -/
def rule1 (cap : Nat) (adj : List (List Nat)) (N : Net) (b c : Nat) : Except Fault (Net × Bool) := do
  let s ← N.find b
  rule1Loop cap adj b c s.parents N

/-- StructureLearning.cpp 92-105 `GetCommonAdjacents`. -/
def commonAdjacents (adj : List (List Nat)) (x y : Nat) : Except Fault (List Nat) := do
  let lx ← rdAt adj x
  let ly ← rdAt adj y
  return lx.filter (fun z => z ∈ ly)

/-- PCStable.cpp 791-805 `Rule2`, the loop over the common neighbours. -/
def rule2Loop (cap : Nat) (a c : Nat) : List Nat → Net → Except Fault (Net × Bool)
  | [], N => .ok (N, false)
  | b :: bs, N => do
    let ab ← N.isDirectedFromTo a b
    let bc ← (if ab then N.isDirectedFromTo b c else .ok false)
    if bc then do
      let (N, r) ← direct cap N a c
      if r then return (N, true) else rule2Loop cap a c bs N
    else rule2Loop cap a c bs N

/-- PCStable.cpp 791-805 `Rule2`. -/
def rule2 (cap : Nat) (adj : List (List Nat)) (N : Net) (a c : Nat) : Except Fault (Net × Bool) := do
  let common ← commonAdjacents adj a c
  rule2Loop cap a c common N

/-- PCStable.cpp 838-850 `R3Helper`. -/
def r3Helper (cap : Nat) (adj : List (List Nat)) (N : Net) (a d b c : Nat) : Except Fault (Net × Bool) := do
  let b5 ← N.isUndirected adj d b
  let b6 ← N.isUndirected adj d c
  let b7 ← N.isDirectedFromTo b a
  let b8 ← N.isDirectedFromTo c a
  if b5 && b6 && b7 && b8 then direct cap N d a else return (N, false)

/-- PCStable.cpp 810-832: the loop over the pairs `i < j` of common neighbours. -/
def rule3Loop (cap : Nat) (adj : List (List Nat)) (a d : Nat) : List (Nat × Nat) → Net → Except Fault (Net × Bool)
  | [], N => .ok (N, false)
  | (b, c) :: ps, N => do
    if ← isAdjacentTo adj b c then rule3Loop cap adj a d ps N
    else do
      let (N, r) ← r3Helper cap adj N a d b c
      if r then return (N, true) else rule3Loop cap adj a d ps N

/-- The pairs at positions `i < j`, in the order of the two nested loops. -/
def pairsOf : List Nat → List (Nat × Nat)
  | [] => []
  | b :: bs => bs.map (fun c => (b, c)) ++ pairsOf bs

/-- PCStable.cpp 810-832 `Rule3`. -/
def rule3 (cap : Nat) (adj : List (List Nat)) (N : Net) (d a : Nat) : Except Fault (Net × Bool) := do
  let common ← commonAdjacents adj a d
  rule3Loop cap adj a d (pairsOf common) N

/-- PCStable.cpp 755-760: the rules in turn until one succeeds. -/
def tryRules (cap : Nat) (adj : List (List Nat)) (N : Net) (x y : Nat) : Except Fault (Net × Bool) := do
  let (N, r) ← rule1 cap adj N x y
  if r then return (N, true) else do
  let (N, r) ← rule1 cap adj N y x
  if r then return (N, true) else do
  let (N, r) ← rule2 cap adj N x y
  if r then return (N, true) else do
  let (N, r) ← rule2 cap adj N y x
  if r then return (N, true) else do
  let (N, r) ← rule3 cap adj N x y
  if r then return (N, true) else rule3 cap adj N y x

/-- PCStable.cpp 748-770: one pass over the edges from position `i`; the result says whether an edge was oriented.  After an
orientation the iterator stays (the edge it pointed to has been erased). -/
def impliedPass (cap : Nat) (adj : List (List Nat)) : Nat → Nat → Net → Bool → Except Fault (Net × Bool)
  | 0, _, _, _ => .error .ub
  | fuel + 1, i, N, oriented =>
    match N.edges[i]? with
    | none => .ok (N, oriented)
    | some e => do
      if ← N.isUndirected adj e.node1 e.node2 then do
        let (N, r) ← tryRules cap adj N e.node1 e.node2
        if r then impliedPass cap adj fuel i N true else impliedPass cap adj fuel (i + 1) N oriented
      else return (N, oriented)

/-- PCStable.cpp 734-772 `OrientImplied`.  `fuel` bounds the passes, `fuel'` the iterations of a pass (the loops are unbounded in the
code). -/
def orientImplied (cap : Nat) (adj : List (List Nat)) (fuel' : Nat) : Nat → Net → Except Fault Net
  | 0, _ => .error .ub
  | fuel + 1, N => do
    let (N, oriented) ← impliedPass cap adj fuel' 0 N false
    if oriented then orientImplied cap adj fuel' fuel N else return N

/-- StructureLearning.cpp 110-144 `DirectLeftEdges`; `bits k` is the result of the `k`-th call of `Random01` (`false` for 0).  The iterator
never moves: the edge it points to is erased. -/
def directLeftEdges (cap : Nat) (adj : List (List Nat)) (bits : Nat → Bool) : Nat → Nat → Net → Except Fault Net
  | 0, _, _ => .error .ub
  | fuel + 1, k, N =>
    match N.edges[0]? with
    | none => .ok N
    | some e => do
      if ← N.isUndirected adj e.node1 e.node2 then do
        let (x, y) := if bits k then (e.node2, e.node1) else (e.node1, e.node2)
        let (N, r) ← direct cap N x y
        if r then directLeftEdges cap adj bits fuel (k + 1) N
        else do
          let (N, r) ← direct cap N y x
          if r then directLeftEdges cap adj bits fuel (k + 1) N else .error .exit
      else return N

/-- The network after the skeleton phase: the nodes, and one undirected edge for each remaining entry of `vec_edges`. -/
def skeletonNet (dims : List Nat) (k : Skeleton) : Net :=
  { Net.empty dims with edges := k.edges.map (fun e => mkUndirected e.x e.y) }

/-- PCStable.cpp 239-257: the orientation phase.  `GenerateUndirectedCompleteGraph` made room for `n(n-1)/2` edges; `cap` is the capacity
of `vec_edges`, at least that. -/
def orientPhase (cap : Nat) (bits : Nat → Bool) (dag : Bool) (fuel : Nat) (dims : List Nat) (k : Skeleton) : Except Fault Net := do
  let N ← orientVStructure k.adj k.sep (skeletonNet dims k)
  let N ← orientImplied cap k.adj fuel fuel N
  if dag then directLeftEdges cap k.adj bits fuel 0 N else return N

end FastPGM
