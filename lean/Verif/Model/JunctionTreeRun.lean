import Verif.Model.JunctionTree
import Verif.Model.Inference

/-!
Model of inference on the junction tree (src/fastpgm/inference/JunctionTree.cpp 3-45 and 149-1500): table storage, evidence, message
passing, queries, backup and reset.

The loops flattened over all tables of a level (`Compute2DIndex`) are modelled as loops over the tables and their entries: by C45 the
flattened loop handles every entry exactly once, whatever the schedule.
-/

namespace FastPGM

variable {K : Type}

/-- The tables of the cliques and of the separators (`p_table`).  `old_ptable` is only used within one level operation. -/
structure JState (K : Type) where
  clq : List (Table K)
  sep : List (Table K)
  deriving DecidableEq, Repr

/-- The number of a separator (JunctionTree.cpp 88-90: `dynamic_cast<Separator*>`; a failed cast gives a null pointer). -/
def JNode.sepIdx : JNode → Except Fault Nat
  | .sep s => .ok s
  | .clq _ => .error .ub

/-- The number of a clique. -/
def JNode.clqIdx : JNode → Except Fault Nat
  | .clq i => .ok i
  | .sep _ => .error .ub

/-- Dereference `ptr_upstream_clique`; a null pointer is undefined behaviour. -/
def Marks.upOf (m : Marks) (x : JNode) : Except Fault JNode :=
  match m.up x with
  | some y => .ok y
  | none => .error .ub

/-- JunctionTree.cpp 157-205 `ReorganizeTableStorage`, one clique: the variables of the upstream separator are moved to the end unless
they are there already. -/
def reorganizeClique [Zero K] (m : Marks) (st : JState K) (i : Nat) : Except Fault (JState K) :=
  match m.up (.clq i) with
  | none => .ok st
  | some y => do
    let s ← y.sepIdx
    let T ← rd st.clq i
    let S ← rd st.sep s
    if T.vars.length < S.vars.length then .error .ub
    else if T.vars.drop (T.vars.length - S.vars.length) = S.vars then return st
    else do
      let T' ← tableMoveToEnd T S.vars
      let clq ← wr st.clq i T'
      return { st with clq := clq }

/-- JunctionTree.cpp 157-205 `ReorganizeTableStorage`. -/
def reorganizeStorage [Zero K] (m : Marks) (st : JState K) : Except Fault (JState K) :=
  (List.range st.clq.length).foldlM (reorganizeClique m) st

/-- JunctionTree.cpp 381-438 `LoadEvidenceToNodesOptimized`, for the tables that contain the variable (267-283). -/
def reduceTables [Zero K] (index value : Nat) (tables : List (Table K)) : Except Fault (List (Table K)) :=
  tables.mapM (fun T => if index ∈ T.vars then tableReduction T index value else .ok T)

/-- JunctionTree.cpp 238-305 `LoadDiscreteEvidence`.  `n` is `num_nodes`; evidence on other variables is ignored. -/
def loadEvidence [Zero K] (n : Nat) (E : List (Nat × Nat)) (st : JState K) : Except Fault (JState K) :=
  E.foldlM (fun st e => do
    if n ≤ e.1 then return st
    else
      let clq ← reduceTables e.1 e.2 st.clq
      let sep ← reduceTables e.1 e.2 st.sep
      return ⟨clq, sep⟩) st

/-- JunctionTree.cpp 583-588, 682-688, 1053-1059: entrywise quotient of the new marginal and the old table, 0 where the old is 0. -/
def divideEntries [Div K] [Zero K] [DecidableEq K] (n : Nat) (tmp old : List K) : Except Fault (List K) :=
  (List.range n).foldlM (fun p k => do
    let o ← rd old k
    if o = 0 then wr p k 0
    else
      let t ← rd tmp k
      wr p k (t / o)) old

/-- JunctionTree.cpp 978-1070 `SeparatorLevelCollectionOptimized`, one separator: sum the child clique's entries `k` with equal
`k % table_size` and divide by the old table. -/
def separatorCollect [Zero K] [Add K] [Div K] [DecidableEq K] (m : Marks) (st : JState K) (x : JNode) : Except Fault (JState K) := do
  let s ← x.sepIdx
  let child ← rd (m.down x) 0
  let c ← child.clqIdx
  let S ← rd st.sep s
  let T ← rd st.clq c
  if S.size = 0 then .error .ub
  else do
    let tmp ← scatterAdd (List.replicate S.size 0) ((List.range T.size).map (fun k => k % S.size)) T.pot T.size
    let pot ← divideEntries S.size tmp S.pot
    let sep ← wr st.sep s { S with pot := pot }
    return { st with sep := sep }

/-- JunctionTree.cpp 751-852 `CliqueLevelCollection`, one clique and its `k`-th child: extend the separator's table to the clique and
multiply. -/
def cliqueCollect [Mul K] (m : Marks) (k : Nat) (st : JState K) (x : JNode) : Except Fault (JState K) := do
  let i ← x.clqIdx
  let y ← rd (m.down x) k
  let s ← y.sepIdx
  let T ← rd st.clq i
  let S ← rd st.sep s
  let loc := S.vars.map (getVariableIndex T.vars)
  let tableIndex ← (List.range T.size).mapM (transferIndex T.cum loc S.cum)
  let ext ← tableIndex.mapM (rd S.pot)
  let pot ← mulEntries T.size T.pot ext
  let clq ← wr st.clq i { T with pot := pot }
  return { st with clq := clq }

/-- `p_table.Normalize()` for one clique. -/
def normalizeClique [Zero K] [Add K] [Div K] [DecidableEq K] (st : JState K) (x : JNode) : Except Fault (JState K) := do
  let i ← x.clqIdx
  let T ← rd st.clq i
  let T' ← normalize T
  let clq ← wr st.clq i T'
  return { st with clq := clq }

/-- JunctionTree.cpp 622-739 `SeparatorLevelDistribution`, one separator: marginalise the parent clique to the separator's variables and
divide by the old table. -/
def separatorDistribute [Zero K] [Add K] [Div K] [DecidableEq K] (m : Marks) (st : JState K) (x : JNode) : Except Fault (JState K) := do
  let s ← x.sepIdx
  let y ← m.upOf x
  let i ← y.clqIdx
  let S ← rd st.sep s
  let T ← rd st.clq i
  let loc := S.vars.map (getVariableIndex T.vars)
  let tableIndex ← (List.range T.size).mapM (transferIndex T.cum loc S.cum)
  let tmp ← scatterAdd (List.replicate S.size 0) tableIndex T.pot T.size
  let pot ← divideEntries S.size tmp S.pot
  let sep ← wr st.sep s { S with pot := pot }
  return { st with sep := sep }

/-- JunctionTree.cpp 1072-1160 `CliqueLevelDistributionOptimized`, one clique: entry `k` is multiplied by entry `k % table_size` of the
upstream separator. -/
def cliqueDistribute [Mul K] (m : Marks) (st : JState K) (x : JNode) : Except Fault (JState K) := do
  let i ← x.clqIdx
  let y ← m.upOf x
  let s ← y.sepIdx
  let T ← rd st.clq i
  let S ← rd st.sep s
  if S.size = 0 then .error .ub
  else do
    let ext ← (List.range T.size).mapM (fun k => rd S.pot (k % S.size))
    let pot ← mulEntries T.size T.pot ext
    let clq ← wr st.clq i { T with pot := pot }
    return { st with clq := clq }

/-- JunctionTree.cpp 1173-1225, a clique level of `Collect`: first the first children of all cliques of the level, then the second
children, …; each time the cliques that have a `k`-th child are multiplied and normalised. -/
def cliqueLevelCollect [Zero K] [Add K] [Mul K] [Div K] [DecidableEq K]
    (m : Marks) (level : List JNode) (st : JState K) : Except Fault (JState K) :=
  (List.range (level.foldl (fun b x => max b (m.down x).length) 0)).foldlM (fun st k => do
    let has := level.filter (fun x => k < (m.down x).length)
    let st ← has.foldlM (cliqueCollect m k) st
    has.foldlM normalizeClique st) st

/-- JunctionTree.cpp 1162-1228 `Collect`. -/
def collect [Zero K] [Add K] [Mul K] [Div K] [DecidableEq K] (L : Levels) (st : JState K) : Except Fault (JState K) :=
  (List.range (L.nodes.length - 1)).reverse.foldlM (fun st i => do
    if i % 2 = 1 then
      let level ← rd L.seps (i / 2)
      level.foldlM (separatorCollect L.marks) st
    else
      let level ← rd L.nodes i
      cliqueLevelCollect L.marks level st) st

/-- JunctionTree.cpp 1230-1255 `Distribute`. -/
def distribute [Zero K] [Add K] [Mul K] [Div K] [DecidableEq K] (L : Levels) (st : JState K) : Except Fault (JState K) :=
  (List.range (L.nodes.length - 1)).foldlM (fun st k => do
    let i := k + 1
    if i % 2 = 1 then
      let level ← rd L.seps (i / 2)
      level.foldlM (separatorDistribute L.marks) st
    else
      let level ← rd L.nodes i
      let st ← level.foldlM (cliqueDistribute L.marks) st
      level.foldlM normalizeClique st) st

/-- JunctionTree.cpp 1261-1287 and 1332-1362: the first clique with the fewest variables among those that contain the query. -/
def selectClique (tables : List (Table K)) (query : Nat) : Option (Table K) :=
  tables.foldl (fun best T =>
    match best with
    | some B => if B.vars.length ≤ (sortedSet T.vars).length then best else if query ∈ T.vars then some T else best
    | none => if query ∈ T.vars then some T else best) none

/-- JunctionTree.cpp 1261-1302 `CalculateMarginalProbability`. -/
def marginalProbability [Zero K] [Add K] [Div K] [DecidableEq K]
    (card : Nat → Nat) (st : JState K) (query : Nat) : Except Fault (Table K) :=
  match selectClique st.clq query with
  | none => .error .exit
  | some T =>
    if T.vars.length = 1 then .ok T
    else do
      let M ← tableMarginalization T [query] [card query]
      normalize M

/-- JunctionTree.cpp 1307-1380 `GetProbabilitiesAllNodes`: one number -1 for every value of every node, overwritten from the front by the
probabilities of the nodes without evidence; a node with evidence advances the position by one. -/
def probabilitiesAllNodes [Zero K] [One K] [Neg K] [Add K] [Div K] [DecidableEq K]
    (n : Nat) (card : Nat → Nat) (E : List (Nat × Nat)) (st : JState K) :
    Except Fault (List K) := do
  let (probs, _) ← (List.range n).foldlM (fun (pl : List K × Nat) i => do
    if E.any (fun e => e.1 = i) then return (pl.1, pl.2 + 1)
    else
      match selectClique st.clq i with
      | none => .error .exit
      | some T => do
        let T ← (if 1 < T.vars.length then tableMarginalization T [i] [card i] else .ok T)
        let T ← normalize T
        (List.range T.size).foldlM (fun (pl : List K × Nat) j => do
          let p ← rd T.pot j
          let probs ← wr pl.1 pl.2 p
          return (probs, pl.2 + 1)) pl) (List.replicate (((List.range n).map card).sum) (-1), 0)
  return probs

/-- JunctionTree.cpp 1399-1413: load the evidence, normalise all cliques, pass the messages. -/
def propagate [Zero K] [Add K] [Mul K] [Div K] [DecidableEq K]
    (L : Levels) (n : Nat) (E : List (Nat × Nat)) (st : JState K) : Except Fault (JState K) := do
  let st ← loadEvidence n E st
  let clq ← st.clq.mapM normalize
  let st ← collect L ⟨clq, st.sep⟩
  distribute L st

/-- A constructed junction tree (class `JunctionTree`): structure, levels, current tables, backup. -/
structure JTree (K : Type) where
  shape : JTShape
  levels : Levels
  /-- `num_nodes` of the network -/
  n : Nat
  card : Nat → Nat
  state : JState K
  /-- `clique_backup`, `separator_backup` -/
  backup : JState K

/-- JunctionTree.cpp 224-236 `ResetJunctionTree`. -/
def JTree.reset (J : JTree K) : JTree K := { J with state := J.backup }

/-- JunctionTree.cpp 1383-1397 `InferenceUsingJT` and 1399-1432 `PredictUseJTInfer` with `mode = 1`: the predicted label and the tree
afterwards. -/
def JTree.predict [Zero K] [Add K] [Mul K] [Div K] [LT K] [DecidableLT K] [DecidableEq K]
    (J : JTree K) (E : List (Nat × Nat)) (query : Nat) : Except Fault (Nat × JTree K) := do
  let st ← propagate J.levels J.n E J.state
  let pt ← marginalProbability J.card st query
  let label ← argMax pt.pot
  return (label, (JTree.reset { J with state := st }))

/-- The marginal of the query variable that `PredictUseJTInfer` bases its answer on, and the tree afterwards. -/
def JTree.marginal [Zero K] [Add K] [Mul K] [Div K] [DecidableEq K]
    (J : JTree K) (E : List (Nat × Nat)) (query : Nat) : Except Fault (Table K × JTree K) := do
  let st ← propagate J.levels J.n E J.state
  let pt ← marginalProbability J.card st query
  return (pt, (JTree.reset { J with state := st }))

/-- JunctionTree.cpp 1399-1432 `PredictUseJTInfer` with `mode = 0`: the probabilities handed to the error measures, and the tree
afterwards. -/
def JTree.probabilities [Zero K] [One K] [Neg K] [Add K] [Mul K] [Div K] [DecidableEq K]
    (J : JTree K) (E : List (Nat × Nat)) : Except Fault (List K × JTree K) := do
  let st ← propagate J.levels J.n E J.state
  let probs ← probabilitiesAllNodes J.n J.card E st
  return (probs, (JTree.reset { J with state := st }))

/-- JunctionTreeStructure.cpp 16-58 and JunctionTree.cpp 3-45: construction of the tree from a network and the tables of its nodes. -/
def buildJunctionTree [Zero K] [One K] [Mul K]
    (N : Net) (card : Nat → Nat) (pts : List (Table K)) (order : List (Nat × Nat) → List (Nat × Nat))
    (cord : Nat → List Nat) : Except Fault (JTree K) := do
  let shape ← N.junctionShape order cord
  let clq ← initialTables card shape.cliques
  let sep ← initialTables card (shape.seps.map (fun p => commonVars shape.cliques p.1 p.2))
  let clq ← assignPotentials shape.cliques clq pts
  let root ← chooseRoot shape
  let levels ← markLevel shape root
  let st ← reorganizeStorage levels.marks ⟨clq, sep⟩
  return ⟨shape, levels, N.nodes.length, card, st, st⟩

/-- JunctionTree.cpp 1438-1465 `Predict` with `mode = 1`.  `num_instances / 20` is 0 for fewer than 20 instances, and then
`progress % every_1_of_20` divides by zero. -/
def JTree.predictAll [Zero K] [Add K] [Mul K] [Div K] [LT K] [DecidableLT K] [DecidableEq K]
    (J : JTree K) (evidences : List (List (Nat × Nat))) (query : Nat) :
    Except Fault (List Nat × JTree K) :=
  evidences.foldlM (fun (st : List Nat × JTree K) E => do
    if evidences.length / 20 = 0 then .error .ub
    else
      let (label, J) ← st.2.predict E query
      return (st.1 ++ [label], J)) ([], J)

end FastPGM
