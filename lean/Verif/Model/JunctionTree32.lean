import Verif.Model.JunctionTreeRun
import Verif.Model.Int32

/-!
Construction of the junction tree and queries (JunctionTreeStructure.cpp, JunctionTree.cpp) with the numbers of table entries, the sums
over a level and the sizes of the index arrays computed in `int`.  Everything else is as in `Model/JunctionTree.lean` and
`Model/JunctionTreeRun.lean`, where the same functions are modelled with unbounded numbers.

The tables of the candidate separators that do not become part of the tree (JunctionTreeStructure.cpp 243-250) are left out: each is on
a part of the variables of a clique, so it is no larger than the table of that clique, which is built before.
-/

namespace FastPGM

variable {K : Type}

/-- PotentialTableBase.cpp 137-151 `ConstructEmptyPotentialTable` with 1216-1226. -/
def constructEmptyTable32 [One K] (card : Nat → Nat) (nodes : List Nat) : Except Fault (Table K) := do
  let dims := nodes.map card
  let cum ← constructCumLevels32 dims
  let size ← firstProduct32 cum dims
  return ⟨nodes, dims, cum, size, List.replicate size 1⟩

/-- Clique.cpp 19-33 and Separator.cpp: the initial tables. -/
def initialTables32 [One K] (card : Nat → Nat) (cliques : List (List Nat)) : Except Fault (List (Table K)) :=
  cliques.mapM (fun c => constructEmptyTable32 card c)

/-- PotentialTableBase.cpp 243-252 `TableReorganizationMain`: here the arrays hold one configuration only, so there are no offsets. -/
def reorgIndex32 (cumFrom : List Nat) (loc : List Nat) (cumTo : List Nat) (i : Nat) : Except Fault Nat := do
  let full ← getConfig cumFrom i
  let part ← loc.mapM (rd full)
  getIndex32 part cumTo

/-- PotentialTableBase.cpp 165-196 `TableReorganization`. -/
def tableReorganization32 (T ref : Table K) : Except Fault (Table K) :=
  if T.vars.length < ref.vars.length ∨ T.size < ref.size then .error .ub
  else do
    let loc := ref.vars.map (getVariableIndex T.vars)
    let tableIndex ← (List.range ref.size).mapM (reorgIndex32 T.cum loc ref.cum)
    let pot ← scatterSet ref.pot tableIndex T.pot ref.size
    return { ref with pot := pot }

/-- PotentialTableBase.cpp 198-241 `TableReorganizationPre`. -/
def tableReorganizationPre32 [Zero K] (T : Table K) (common : List Nat) : Except Fault (Table K × List Nat) := do
  let (kept, tmp) ← reorgScan 0 T.vars common
  let loc := kept ++ tmp
  let keptVars ← kept.mapM (rd T.vars)
  let dims ← loc.mapM (rd T.dims)
  let cum ← constructCumLevels32 dims
  return (⟨keptVars ++ common, dims, cum, T.size, List.replicate T.size 0⟩, loc)

/-- JunctionTree.cpp 182-198: the variables of the upstream separator are moved to the end. -/
def tableMoveToEnd32 [Zero K] (T : Table K) (common : List Nat) : Except Fault (Table K) := do
  let (new, loc) ← tableReorganizationPre32 T common
  let tableIndex ← (List.range new.size).mapM (reorgIndex32 T.cum loc new.cum)
  let pot ← scatterSet new.pot tableIndex T.pot new.size
  return { new with pot := pot }

/-- PotentialTableBase.cpp 884-905 `TableMultiplication`. -/
def tableMultiplication32 [Mul K] (T S : Table K) : Except Fault (Table K) := do
  let tmp ← (if T.vars.length > S.vars.length then tableExtension32 S T.vars T.dims else .ok S)
  let tmp ← (if T.vars ≠ tmp.vars then tableReorganization32 tmp T else .ok tmp)
  let pot ← mulEntries T.size T.pot tmp.pot
  return { T with pot := pot }

/-- JunctionTreeStructure.cpp 331-353, one table. -/
def assignTableToClique32 [Mul K] (cliques : List (List Nat)) (tables : List (Table K)) (pt : Table K) : Except Fault (List (Table K)) :=
  match cliques.findIdx? (fun c => pt.vars = [] ∨ c = [] ∨ (pt.vars.filter (fun v => v ∉ c)) = []) with
  | none => .ok tables
  | some i =>
    if pt.vars = [] ∨ cliques.getD i [] = [] then .ok tables
    else do
      let T ← rd tables i
      let T' ← tableMultiplication32 T pt
      wr tables i T'

/-- JunctionTreeStructure.cpp 314-356 `AssignPotentials`. -/
def assignPotentials32 [Mul K] (cliques : List (List Nat)) (tables : List (Table K)) (pts : List (Table K)) :
    Except Fault (List (Table K)) :=
  pts.foldlM (assignTableToClique32 cliques) tables

/-- JunctionTreeStructure.cpp 362-373 `GetAveAndMaxCliqueSize`: `total_size` and `max_size`.  (The mean that is returned is
`(float)total_size/(float)num_clique`.) -/
def cliqueSizes32 (tables : List (Table K)) : Except Fault (Nat × Nat) :=
  tables.foldlM (fun (st : Nat × Nat) T => do
    let total ← add32 st.1 T.size
    return (total, if T.size > st.2 then T.size else st.2)) (0, 0)

/-- JunctionTree.cpp 157-205 `ReorganizeTableStorage`, one clique. -/
def reorganizeClique32 [Zero K] (m : Marks) (st : JState K) (i : Nat) : Except Fault (JState K) :=
  match m.up (.clq i) with
  | none => .ok st
  | some y => do
    let s ← y.sepIdx
    let T ← rd st.clq i
    let S ← rd st.sep s
    if T.vars.length < S.vars.length then .error .ub
    else if T.vars.drop (T.vars.length - S.vars.length) = S.vars then return st
    else do
      let T' ← tableMoveToEnd32 T S.vars
      let clq ← wr st.clq i T'
      return { st with clq := clq }

/-- JunctionTree.cpp 157-205 `ReorganizeTableStorage`. -/
def reorganizeStorage32 [Zero K] (m : Marks) (st : JState K) : Except Fault (JState K) :=
  (List.range st.clq.length).foldlM (reorganizeClique32 m) st

/-- JunctionTreeStructure.cpp 16-58 and JunctionTree.cpp 3-45: construction of the tree; also the total and the maximum number of entries
that 53-55 print. -/
def buildJunctionTree32 [Zero K] [One K] [Mul K]
    (N : Net) (card : Nat → Nat) (pts : List (Table K)) (order : List (Nat × Nat) → List (Nat × Nat))
    (cord : Nat → List Nat) : Except Fault (JTree K × Nat × Nat) := do
  let shape ← N.junctionShape order cord
  let clq ← initialTables32 card shape.cliques
  let sep ← initialTables32 card (shape.seps.map (fun p => commonVars shape.cliques p.1 p.2))
  let clq ← assignPotentials32 shape.cliques clq pts
  let sizes ← cliqueSizes32 clq
  let root ← chooseRoot shape
  let levels ← markLevel shape root
  let st ← reorganizeStorage32 levels.marks ⟨clq, sep⟩
  return (⟨shape, levels, N.nodes.length, card, st, st⟩, sizes.1, sizes.2)

/-- JunctionTree.cpp 405-438: the tables that contain the variable are reduced. -/
def reduceTables32 [Zero K] (index value : Nat) (tables : List (Table K)) : Except Fault (List (Table K)) :=
  tables.mapM (fun T => if index ∈ T.vars then tableReduction32 T index value else .ok T)

/-- JunctionTree.cpp 238-305 `LoadDiscreteEvidence` with 381-438; 396-402 add up the sizes of all cliques and separators that contain the
variable. -/
def loadEvidence32 [Zero K] (n : Nat) (E : List (Nat × Nat)) (st : JState K) : Except Fault (JState K) :=
  E.foldlM (fun st e => do
    if n ≤ e.1 then return st
    else
      let _ ← levelSums32 (((st.clq ++ st.sep).filter (fun T => e.1 ∈ T.vars)).map (·.size))
      let clq ← reduceTables32 e.1 e.2 st.clq
      let sep ← reduceTables32 e.1 e.2 st.sep
      return ⟨clq, sep⟩) st

/-- `p_table.table_size` of a clique -/
def clqSize (st : JState K) (x : JNode) : Except Fault Nat := do
  let i ← x.clqIdx
  let T ← rd st.clq i
  return T.size

/-- `p_table.table_size` of a separator -/
def sepSize (st : JState K) (x : JNode) : Except Fault Nat := do
  let s ← x.sepIdx
  let S ← rd st.sep s
  return S.size

/-- JunctionTree.cpp 978-1070 `SeparatorLevelCollectionOptimized`; 1016-1017 add up the sizes of the child cliques, 1045-1046 those of the
separators. -/
def separatorLevelCollect32 [Zero K] [Add K] [Div K] [DecidableEq K] (m : Marks) (level : List JNode) (st : JState K) :
    Except Fault (JState K) := do
  let sizes ← level.mapM (fun x => do
    let y ← rd (m.down x) 0
    clqSize st y)
  let _ ← levelSums32 sizes
  let st ← level.foldlM (separatorCollect m) st
  let sizes ← level.mapM (sepSize st)
  let _ ← levelSums32 sizes
  return st

/-- JunctionTree.cpp 622-739 `SeparatorLevelDistribution`, one separator; 673-674 are the sizes of `full_config` and `partial_config`. -/
def separatorDistribute32 [Zero K] [Add K] [Div K] [DecidableEq K] (m : Marks) (st : JState K) (x : JNode) : Except Fault (JState K) := do
  let s ← x.sepIdx
  let y ← m.upOf x
  let i ← y.clqIdx
  let S ← rd st.sep s
  let T ← rd st.clq i
  let loc := S.vars.map (getVariableIndex T.vars)
  let _ ← mul32 T.size T.vars.length
  let _ ← mul32 T.size S.vars.length
  let tableIndex ← (List.range T.size).mapM (transferIndex32 T.vars.length S.vars.length T.cum loc S.cum)
  let tmp ← scatterAdd (List.replicate S.size 0) tableIndex T.pot T.size
  let pot ← divideEntries S.size tmp S.pot
  let sep ← wr st.sep s { S with pot := pot }
  return { st with sep := sep }

/-- JunctionTree.cpp 622-739 `SeparatorLevelDistribution`; 677-678 add up, for every separator of the level, the size of its upstream
clique; 707-708 the sizes of the separators. -/
def separatorLevelDistribute32 [Zero K] [Add K] [Div K] [DecidableEq K] (m : Marks) (level : List JNode) (st : JState K) :
    Except Fault (JState K) := do
  let sizes ← level.mapM (fun x => do
    let y ← m.upOf x
    clqSize st y)
  let _ ← levelSums32 sizes
  let st ← level.foldlM (separatorDistribute32 m) st
  let sizes ← level.mapM (sepSize st)
  let _ ← levelSums32 sizes
  return st

/-- JunctionTree.cpp 751-852 `CliqueLevelCollection`, one clique; 796-797 are the sizes of `full_config` and `partial_config`. -/
def cliqueCollect32 [Mul K] (m : Marks) (k : Nat) (st : JState K) (x : JNode) : Except Fault (JState K) := do
  let i ← x.clqIdx
  let y ← rd (m.down x) k
  let s ← y.sepIdx
  let T ← rd st.clq i
  let S ← rd st.sep s
  let loc := S.vars.map (getVariableIndex T.vars)
  let _ ← mul32 T.size T.vars.length
  let _ ← mul32 T.size S.vars.length
  let tableIndex ← (List.range T.size).mapM (transferIndex32 T.vars.length S.vars.length T.cum loc S.cum)
  let ext ← tableIndex.mapM (rd S.pot)
  let pot ← mulEntries T.size T.pot ext
  let clq ← wr st.clq i { T with pot := pot }
  return { st with clq := clq }

/-- JunctionTree.cpp 1173-1225 with 751-861 `CliqueLevelCollection`; 800-801 and 831-832 add up the sizes of the cliques. -/
def cliqueLevelCollect32 [Zero K] [Add K] [Mul K] [Div K] [DecidableEq K]
    (m : Marks) (level : List JNode) (st : JState K) : Except Fault (JState K) :=
  (List.range (level.foldl (fun b x => max b (m.down x).length) 0)).foldlM (fun st k => do
    let has := level.filter (fun x => k < (m.down x).length)
    let sizes ← has.mapM (clqSize st)
    let _ ← levelSums32 sizes
    let st ← has.foldlM (cliqueCollect32 m k) st
    let sizes ← has.mapM (clqSize st)
    let _ ← levelSums32 sizes
    has.foldlM normalizeClique st) st

/-- JunctionTree.cpp 1072-1160 `CliqueLevelDistributionOptimized`; 1104-1105 and 1133-1134 add up the sizes of the cliques. -/
def cliqueLevelDistribute32 [Zero K] [Add K] [Mul K] [Div K] [DecidableEq K]
    (m : Marks) (level : List JNode) (st : JState K) : Except Fault (JState K) := do
  let sizes ← level.mapM (clqSize st)
  let _ ← levelSums32 sizes
  let st ← level.foldlM (cliqueDistribute m) st
  let sizes ← level.mapM (clqSize st)
  let _ ← levelSums32 sizes
  level.foldlM normalizeClique st

/-- JunctionTree.cpp 1162-1228 `Collect`. -/
def collect32 [Zero K] [Add K] [Mul K] [Div K] [DecidableEq K] (L : Levels) (st : JState K) : Except Fault (JState K) :=
  (List.range (L.nodes.length - 1)).reverse.foldlM (fun st i => do
    if i % 2 = 1 then
      let level ← rd L.seps (i / 2)
      separatorLevelCollect32 L.marks level st
    else
      let level ← rd L.nodes i
      cliqueLevelCollect32 L.marks level st) st

/-- JunctionTree.cpp 1230-1255 `Distribute`. -/
def distribute32 [Zero K] [Add K] [Mul K] [Div K] [DecidableEq K] (L : Levels) (st : JState K) : Except Fault (JState K) :=
  (List.range (L.nodes.length - 1)).foldlM (fun st k => do
    let i := k + 1
    if i % 2 = 1 then
      let level ← rd L.seps (i / 2)
      separatorLevelDistribute32 L.marks level st
    else
      let level ← rd L.nodes i
      cliqueLevelDistribute32 L.marks level st) st

/-- JunctionTree.cpp 1399-1413: load the evidence, normalise all cliques, pass the messages. -/
def propagate32 [Zero K] [Add K] [Mul K] [Div K] [DecidableEq K]
    (L : Levels) (n : Nat) (E : List (Nat × Nat)) (st : JState K) : Except Fault (JState K) := do
  let st ← loadEvidence32 n E st
  let clq ← st.clq.mapM normalize
  let st ← collect32 L ⟨clq, st.sep⟩
  distribute32 L st

/-- JunctionTree.cpp 1261-1302 `CalculateMarginalProbability`. -/
def marginalProbability32 [Zero K] [Add K] [Div K] [DecidableEq K]
    (card : Nat → Nat) (st : JState K) (query : Nat) : Except Fault (Table K) :=
  match selectClique st.clq query with
  | none => .error .exit
  | some T =>
    if T.vars.length = 1 then .ok T
    else do
      let M ← tableMarginalization32 T [query] [card query]
      normalize M

/-- JunctionTree.cpp 1383-1432 `InferenceUsingJT`, `PredictUseJTInfer` with `mode = 1`: the marginal of the query variable, and the tree
afterwards. -/
def JTree.marginal32 [Zero K] [Add K] [Mul K] [Div K] [DecidableEq K]
    (J : JTree K) (E : List (Nat × Nat)) (query : Nat) : Except Fault (Table K × JTree K) := do
  let st ← propagate32 J.levels J.n E J.state
  let pt ← marginalProbability32 J.card st query
  return (pt, (JTree.reset { J with state := st }))

/-- The same: the predicted label, and the tree afterwards. -/
def JTree.predict32 [Zero K] [Add K] [Mul K] [Div K] [LT K] [DecidableLT K] [DecidableEq K]
    (J : JTree K) (E : List (Nat × Nat)) (query : Nat) : Except Fault (Nat × JTree K) := do
  let st ← propagate32 J.levels J.n E J.state
  let pt ← marginalProbability32 J.card st query
  let label ← argMax pt.pot
  return (label, (JTree.reset { J with state := st }))

end FastPGM
