import Verif.Model.Threads
import Verif.Model.JunctionTreeRun

/-!
The parallel loops of the junction tree (src/fastpgm/inference/JunctionTree.cpp 381-438, 622-697, 751-852, 978-1034, 1072-1151), access
by access.

The arrays that the iterations of a loop write, the tables, and the arrays `e_loc`, `full_config`, `v_index` of pointers are places of
shared memory.  What is only set before a loop and read in it (`cum_sum`, `nv_old`, `cl_old`, `loc_in_old`, `common_dims`, the shape of
`tmp_pt`) is a parameter of the iteration.  The sequential parts between the loops are computations on the tables as in
`Model/JunctionTreeRun`.
-/

namespace FastPGM

variable {K : Type}

/-- A place of shared memory. -/
inductive Place where
  /-- `full_config[k]`, the pointer -/
  | fullPtr (k : Nat)
  /-- `v_index[k]`, the pointer -/
  | indexPtr (k : Nat)
  /-- `e_loc[k]` -/
  | eLoc (k : Nat)
  /-- `full_config[j][o]` -/
  | full (j o : Nat)
  /-- `partial_config[j][o]` -/
  | part (j o : Nat)
  /-- `table_index[j][k]`, `v_index[j][k]` -/
  | index (j k : Nat)
  /-- `potentials[k]` of the table of clique `c` -/
  | pot (c k : Nat)
  /-- `tmp_pt[j].potentials[k]` -/
  | tmp (j k : Nat)
  /-- `p_table` of a clique or separator as a whole -/
  | table (x : JNode)
  deriving DecidableEq

/-- What is stored at a place.  A pointer to an allocated array is the length of the array. -/
inductive Cell (K : Type) where
  | int (n : Nat)
  | num (x : K)
  | tab (T : Table K)

/-- The memory of the loops. -/
abbrev JMem (K : Type) := Mem Place (Cell K)

/-- A thread of the loops. -/
abbrev JProg (K α : Type) := Thread Place (Cell K) α

/-- Read an `int`. -/
def readInt (l : Place) : JProg K Nat := .read l (fun v => match v with | .int n => .ret n | _ => .fault .ub)

/-- Read a `double`. -/
def readNum (l : Place) : JProg K K := .read l (fun v => match v with | .num x => .ret x | _ => .fault .ub)

/-- Read a table. -/
def readTab (l : Place) : JProg K (Table K) := .read l (fun v => match v with | .tab T => .ret T | _ => .fault .ub)

/-- PotentialTableBase.cpp 1151-1159 and 1179-1187 `GetConfigValueByTableIndex(a, config)`; `cell i` is the place of `config[i]`. -/
def writeConfig (cell : Nat → Place) (nv : Nat) (cum : List Nat) (a : Nat) : JProg K Nat :=
  (List.range nv).foldlM (fun a i => do
    let c ← Thread.lift (rd cum i)
    if c = 0 then Thread.fault .ub
    else do
      Thread.store (cell i) (.int (a / c))
      return a % c) a

/-- PotentialTableBase.cpp 1164-1170 and 1192-1198 `GetTableIndexByConfigValue`. -/
def readIndex (cell : Nat → Place) (nv : Nat) (cum : List Nat) : JProg K Nat :=
  (List.range nv).foldlM (fun t i => do
    let v ← readInt (cell i)
    let c ← Thread.lift (rd cum i)
    return t + v * c) 0

/-- What the iterations of one table need to know in `SeparatorLevelDistribution` and `CliqueLevelCollection`: number of variables and
`cum_levels` of the table whose entries are visited and of the table into which the index leads, the locations, the number of entries. -/
structure Transfer where
  nvFrom : Nat
  cumFrom : List Nat
  loc : List Nat
  nvTo : Nat
  cumTo : List Nat
  size : Nat

/-- JunctionTree.cpp 691 and 815 with PotentialTableBase.cpp 574-584 `TableMarginalizationMain` and 852-862 `TableExtensionMain`: the index
of entry `k` of table `j` is stored in `table_index[j][k]`. -/
def transferMain (t : Transfer) (j k : Nat) : JProg K Unit := do
  let _ ← writeConfig (fun i => .full j (k * t.nvFrom + i)) t.nvFrom t.cumFrom k
  (List.range t.nvTo).foldlM (fun (_ : Unit) l => do
    let o ← Thread.lift (rd t.loc l)
    let v ← readInt (.full j (k * t.nvFrom + o))
    Thread.store (.part j (k * t.nvTo + l)) (.int v)) ()
  let i ← readIndex (fun l => .part j (k * t.nvTo + l)) t.nvTo t.cumTo
  Thread.store (.index j k) (.int i)

/-- The body of a flattened loop: `Compute2DIndex(j, k, s, size, cum_sum)`, then iteration `k` of table `j`. -/
def flatBody (sizes : List Nat) (body : Nat → Nat → JProg K Unit) (s : Nat) : JProg K Unit := do
  let jk ← Thread.lift (compute2DIndex s sizes.length (prefixSums sizes).1)
  body jk.1 jk.2

/-- JunctionTree.cpp 668, 673-674, 791, 796-797: the arrays of the level are allocated; there is nothing at the places of a table that does
not exist. -/
def transferMem (ts : List Transfer) : JMem K
  | .full j o => ts[j]?.bind (fun t => if o < t.size * t.nvFrom then some none else none)
  | .part j o => ts[j]?.bind (fun t => if o < t.size * t.nvTo then some none else none)
  | .index j k => ts[j]?.bind (fun t => if k < t.size then some none else none)
  | _ => none

/-- An `int` that a thread has left in memory. -/
def JMem.int (m : JMem K) (l : Place) : Except Fault Nat := do
  match ← Mem.get m l with
  | .int n => return n
  | _ => .error .ub

/-- A `double` in memory. -/
def JMem.num (m : JMem K) (l : Place) : Except Fault K := do
  match ← Mem.get m l with
  | .num x => return x
  | _ => .error .ub

/-- A table in memory. -/
def JMem.tab (m : JMem K) (l : Place) : Except Fault (Table K) := do
  match ← Mem.get m l with
  | .tab T => return T
  | _ => .error .ub

/-- `table_index` after a loop. -/
def JMem.rows (m : JMem K) (sizes : List Nat) : Except Fault (List (List Nat)) :=
  (List.range sizes.length).mapM (fun j => do
    let n ← rd sizes j
    (List.range n).mapM (fun k => JMem.int m (.index j k)))

/-- JunctionTree.cpp 685-692 and 809-816: the parallel loop that fills `table_index`, with `p` threads. -/
def parTransfer (K : Type) (p : Nat) (ts : List Transfer) : Par (List (List Nat)) := do
  let sizes := ts.map (·.size)
  let m ← parFor p (prefixSums sizes).2 (flatBody (K := K) sizes (fun j k => do
    let t ← Thread.lift (rd ts j)
    transferMain t j k)) (transferMem ts)
  Par.lift (JMem.rows m sizes)

/-- JunctionTree.cpp 1011 and 1099: `table_index` allocated. -/
def indexMem (sizes : List Nat) : JMem K
  | .index j k => sizes[j]?.bind (fun n => if k < n then some none else none)
  | _ => none

/-- JunctionTree.cpp 1024-1031 and 1112-1119: the parallel loop of the optimised versions, `table_index[j][k] = k % common_dims[j]`. -/
def parMod (K : Type) (p : Nat) (sizes dims : List Nat) : Par (List (List Nat)) := do
  let m ← parFor p (prefixSums sizes).2 (flatBody (K := K) sizes (fun j k => do
    let d ← Thread.lift (rd dims j)
    if d = 0 then Thread.fault .ub else Thread.store (.index j k) (.int (k % d))))
    (indexMem sizes)
  Par.lift (JMem.rows m sizes)

/-- The tables of the cliques and the extended tables `tmp_pt` in memory. -/
def mulMem (clq : List (Table K)) (exts : List (List K)) : JMem K
  | .pot c k => clq[c]?.bind (fun T => T.pot[k]?.map (fun x => some (.num x)))
  | .tmp j k => exts[j]?.bind (fun e => e[k]?.map (fun x => some (.num x)))
  | _ => none

/-- JunctionTree.cpp 849-854 and 1145-1150: the parallel loop `potentials[k] *= tmp_pt[j].potentials[k]`; `cs j` is the number of the
`j`-th clique, `exts j` the potentials of `tmp_pt[j]`. -/
def parMul [Mul K] (p : Nat) (cs sizes : List Nat) (exts : List (List K)) (clq : List (Table K)) : Par (List (Table K)) := do
  let m ← parFor p (prefixSums sizes).2 (flatBody (K := K) sizes (fun j k => do
    let c ← Thread.lift (rd cs j)
    let a ← readNum (.pot c k)
    let b ← readNum (.tmp j k)
    Thread.store (.pot c k) (.num (a * b)))) (mulMem clq exts)
  Par.lift ((List.range clq.length).mapM (fun c => do
    let T ← rd clq c
    let pot ← (List.range T.pot.length).mapM (fun k => JMem.num m (.pot c k))
    return { T with pot := pot }))

/-- Write tables back: `clq[c] = T` for each listed pair. -/
def storeTables (tables : List (Table K)) (new : List (Nat × Table K)) : Except Fault (List (Table K)) :=
  new.foldlM (fun tables cT => wr tables cT.1 cT.2) tables

/-- JunctionTree.cpp 622-739 `SeparatorLevelDistribution`: pre-computation for all separators of the level, the parallel loop, then
`TableMarginalizationPost` and the division. -/
def separatorLevelDistributeP [Zero K] [Add K] [Div K] [DecidableEq K] (p : Nat) (m : Marks) (level : List JNode) (st : JState K) :
    Par (JState K) := do
  let items ← Par.lift (level.mapM (fun x => do
    let s ← x.sepIdx
    let y ← m.upOf x
    let i ← y.clqIdx
    let S ← rd st.sep s
    let T ← rd st.clq i
    return (s, S, T)))
  let rows ← parTransfer K p (items.map (fun it => ⟨it.2.2.vars.length, it.2.2.cum, it.2.1.vars.map (getVariableIndex it.2.2.vars),
    it.2.1.vars.length, it.2.1.cum, it.2.2.size⟩))
  let tmps ← Par.lift ((List.zip items rows).mapM (fun ir =>
    scatterAdd (List.replicate ir.1.2.1.size 0) ir.2 ir.1.2.2.pot ir.1.2.2.size))
  let new ← Par.lift ((List.zip items tmps).mapM (fun it => do
    let pot ← divideEntries it.1.2.1.size it.2 it.1.2.1.pot
    return (it.1.1, { it.1.2.1 with pot := pot })))
  let sep ← Par.lift (storeTables st.sep new)
  return { st with sep := sep }

/-- JunctionTree.cpp 978-1070 `SeparatorLevelCollectionOptimized`. -/
def separatorLevelCollectP [Zero K] [Add K] [Div K] [DecidableEq K] (p : Nat) (m : Marks) (level : List JNode) (st : JState K) :
    Par (JState K) := do
  let items ← Par.lift (level.mapM (fun x => do
    let s ← x.sepIdx
    let child ← rd (m.down x) 0
    let c ← child.clqIdx
    let S ← rd st.sep s
    let T ← rd st.clq c
    return (s, S, T)))
  let rows ← parMod K p (items.map (fun it => it.2.2.size)) (items.map (fun it => it.2.1.size))
  let tmps ← Par.lift ((List.zip items rows).mapM (fun ir =>
    scatterAdd (List.replicate ir.1.2.1.size 0) ir.2 ir.1.2.2.pot ir.1.2.2.size))
  let new ← Par.lift ((List.zip items tmps).mapM (fun it => do
    let pot ← divideEntries it.1.2.1.size it.2 it.1.2.1.pot
    return (it.1.1, { it.1.2.1 with pot := pot })))
  let sep ← Par.lift (storeTables st.sep new)
  return { st with sep := sep }

/-- JunctionTree.cpp 751-855 `CliqueLevelCollection` for the cliques `has` that have a `k`-th child, without the normalisation at the end:
pre-computation, the parallel loop, `TableExtensionPost`, the parallel multiplication. -/
def cliqueRoundCollectP [Mul K] (p : Nat) (m : Marks) (k : Nat) (has : List JNode) (st : JState K) : Par (JState K) := do
  let items ← Par.lift (has.mapM (fun x => do
    let i ← x.clqIdx
    let y ← rd (m.down x) k
    let s ← y.sepIdx
    let T ← rd st.clq i
    let S ← rd st.sep s
    return (i, S, T)))
  let rows ← parTransfer K p (items.map (fun it => ⟨it.2.2.vars.length, it.2.2.cum, it.2.1.vars.map (getVariableIndex it.2.2.vars),
    it.2.1.vars.length, it.2.1.cum, it.2.2.size⟩))
  let exts ← Par.lift ((List.zip items rows).mapM (fun ir => ir.2.mapM (rd ir.1.2.1.pot)))
  let clq ← parMul p (items.map (·.1)) (items.map (fun it => it.2.2.size)) exts st.clq
  return { st with clq := clq }

/-- JunctionTree.cpp 1072-1151 `CliqueLevelDistributionOptimized` without the normalisation at the end. -/
def cliqueLevelDistributeP [Mul K] (p : Nat) (m : Marks) (level : List JNode) (st : JState K) : Par (JState K) := do
  let items ← Par.lift (level.mapM (fun x => do
    let i ← x.clqIdx
    let y ← m.upOf x
    let s ← y.sepIdx
    let T ← rd st.clq i
    let S ← rd st.sep s
    return (i, S, T)))
  let rows ← parMod K p (items.map (fun it => it.2.2.size)) (items.map (fun it => it.2.1.size))
  let exts ← Par.lift ((List.zip items rows).mapM (fun ir => ir.2.mapM (rd ir.1.2.1.pot)))
  let clq ← parMul p (items.map (·.1)) (items.map (fun it => it.2.2.size)) exts st.clq
  return { st with clq := clq }

/-- JunctionTree.cpp 1180-1225: a clique level of `Collect`. -/
def cliqueLevelCollectP [Zero K] [Add K] [Mul K] [Div K] [DecidableEq K] (p : Nat) (m : Marks) (level : List JNode) (st : JState K) :
    Par (JState K) :=
  (List.range (level.foldl (fun b x => max b (m.down x).length) 0)).foldlM (fun st k => do
    let has := level.filter (fun x => k < (m.down x).length)
    let st ← cliqueRoundCollectP p m k has st
    Par.lift (has.foldlM normalizeClique st)) st

/-- JunctionTree.cpp 1162-1228 `Collect(num_threads)`. -/
def collectP [Zero K] [Add K] [Mul K] [Div K] [DecidableEq K] (p : Nat) (L : Levels) (st : JState K) : Par (JState K) :=
  (List.range (L.nodes.length - 1)).reverse.foldlM (fun st i =>
    if i % 2 = 1 then do
      let level ← Par.lift (rd L.seps (i / 2))
      separatorLevelCollectP p L.marks level st
    else do
      let level ← Par.lift (rd L.nodes i)
      cliqueLevelCollectP p L.marks level st) st

/-- JunctionTree.cpp 1230-1255 `Distribute(num_threads)`. -/
def distributeP [Zero K] [Add K] [Mul K] [Div K] [DecidableEq K] (p : Nat) (L : Levels) (st : JState K) : Par (JState K) :=
  (List.range (L.nodes.length - 1)).foldlM (fun st k =>
    if (k + 1) % 2 = 1 then do
      let level ← Par.lift (rd L.seps ((k + 1) / 2))
      separatorLevelDistributeP p L.marks level st
    else do
      let level ← Par.lift (rd L.nodes (k + 1))
      let st ← cliqueLevelDistributeP p L.marks level st
      Par.lift (level.foldlM normalizeClique st)) st

/-- JunctionTree.cpp 267-283: `vector_reduced_node_ptr`, the cliques and then the separators whose table contains the variable. -/
def reducedNodes (index : Nat) (st : JState K) : List JNode :=
  ((List.range st.clq.length).filter (fun i => index ∈ (st.clq[i]?.map (·.vars)).getD [])).map JNode.clq ++
  ((List.range st.sep.length).filter (fun s => index ∈ (st.sep[s]?.map (·.vars)).getD [])).map JNode.sep

/-- The table of a clique or separator. -/
def JState.tableOf (st : JState K) : JNode → Option (Table K)
  | .clq i => st.clq[i]?
  | .sep s => st.sep[s]?

/-- Memory before the first loop of `LoadEvidenceToNodesOptimized`: the tables and the three arrays of `n` elements (383-387). -/
def evidenceMem (n : Nat) (st : JState K) : JMem K
  | .fullPtr k => if k < n then some none else none
  | .indexPtr k => if k < n then some none else none
  | .eLoc k => if k < n then some none else none
  | .table x => (st.tableOf x).map (fun T => some (.tab T))
  | _ => none

/-- JunctionTree.cpp 406-414: allocate the arrays of table `k`, find the location of the evidence variable. -/
def evidencePre (index : Nat) (nodes : List JNode) (k : Nat) : JProg K Unit := do
  let x ← Thread.lift (rd nodes k)
  let T ← readTab (.table x)
  Thread.store (.fullPtr k) (.int (T.size * T.vars.length))
  Thread.store (.indexPtr k) (.int T.size)
  Thread.store (.eLoc k) (.int (getVariableIndex T.vars index))

/-- The memory with the arrays that the pointers `full_config[k]`, `v_index[k]` point to. -/
def allocated (m : JMem K) : JMem K
  | .full k o => match m (.fullPtr k) with
    | some (some (.int n)) => if o < n then some none else none
    | _ => none
  | .index k o => match m (.indexPtr k) with
    | some (some (.int n)) => if o < n then some none else none
    | _ => none
  | l => m l

/-- JunctionTree.cpp 420-427 with PotentialTableBase.cpp 313-318 `TableReductionMain`. -/
def evidenceMain (nodes : List JNode) (k i : Nat) : JProg K Unit := do
  let x ← Thread.lift (rd nodes k)
  let T ← readTab (.table x)
  let loc ← readInt (.eLoc k)
  let _ ← writeConfig (fun o => .full k (i * T.vars.length + o)) T.vars.length T.cum i
  let v ← readInt (.full k (i * T.vars.length + loc))
  Thread.store (.index k i) (.int v)

/-- PotentialTableBase.cpp 320-362 `TableReductionPost`, given `v_index`. -/
def reductionPost [Zero K] (T : Table K) (value loc : Nat) (valueIndex : List Nat) : Except Fault (Table K) := do
  let dim ← rd T.dims loc
  if dim = 0 then .error .ub
  else
    let newSize := T.size / dim
    let (pot, _) ← reductionCopy valueIndex value T.pot T.size (List.replicate newSize 0)
    if T.vars.length - 1 > 0 then
      let cum ← constructCumLevels (T.dims.eraseIdx loc)
      return ⟨T.vars.eraseIdx loc, T.dims.eraseIdx loc, cum, newSize, pot⟩
    else
      return ⟨[], [], [], 1, pot⟩

/-- JunctionTree.cpp 435-441: replace the table, release the arrays (`SAFE_DELETE_ARRAY` sets the pointer to null). -/
def evidencePost [Zero K] (value : Nat) (nodes : List JNode) (k : Nat) : JProg K Unit := do
  let x ← Thread.lift (rd nodes k)
  let T ← readTab (.table x)
  let loc ← readInt (.eLoc k)
  let vs ← (List.range T.size).foldlM (fun vs i => do
    let v ← readInt (.index k i)
    return vs ++ [v]) []
  let T' ← Thread.lift (reductionPost T value loc vs)
  Thread.store (.table x) (.tab T')
  Thread.store (.fullPtr k) (.int 0)
  Thread.store (.indexPtr k) (.int 0)

/-- JunctionTree.cpp 381-447 `LoadEvidenceToNodesOptimized` (with 267-283): the three parallel loops. -/
def loadVariableP [Zero K] (p index value : Nat) (st : JState K) : Par (JState K) := do
  let nodes := reducedNodes index st
  let sizes := nodes.map (fun x => ((st.tableOf x).map (·.size)).getD 0)
  let m ← parFor p nodes.length (evidencePre index nodes) (evidenceMem nodes.length st)
  let m ← parFor p (prefixSums sizes).2 (flatBody sizes (evidenceMain nodes)) (allocated m)
  let m ← parFor p nodes.length (evidencePost value nodes) m
  let clq ← Par.lift ((List.range st.clq.length).mapM (fun i => JMem.tab m (.table (.clq i))))
  let sep ← Par.lift ((List.range st.sep.length).mapM (fun s => JMem.tab m (.table (.sep s))))
  return ⟨clq, sep⟩

/-- JunctionTree.cpp 238-305 `LoadDiscreteEvidence(E, num_threads)`. -/
def loadEvidenceP [Zero K] (p n : Nat) (E : List (Nat × Nat)) (st : JState K) : Par (JState K) :=
  E.foldlM (fun st e => if n ≤ e.1 then return st else loadVariableP p e.1 e.2 st) st

/-- JunctionTree.cpp 1399-1413 with `num_threads`. -/
def propagateP [Zero K] [Add K] [Mul K] [Div K] [DecidableEq K] (p : Nat) (L : Levels) (n : Nat) (E : List (Nat × Nat)) (st : JState K) :
    Par (JState K) := do
  let st ← loadEvidenceP p n E st
  let clq ← Par.lift (st.clq.mapM normalize)
  let st ← collectP p L ⟨clq, st.sep⟩
  distributeP p L st

/-- JunctionTree.cpp 1383-1397 and 1399-1432 with `mode = 1` and `num_threads`: the predicted label and the tree afterwards. -/
def JTree.predictP [Zero K] [Add K] [Mul K] [Div K] [LT K] [DecidableLT K] [DecidableEq K] (J : JTree K) (p : Nat) (E : List (Nat × Nat))
    (query : Nat) : Par (Nat × JTree K) := do
  let st ← propagateP p J.levels J.n E J.state
  let pt ← Par.lift (marginalProbability J.card st query)
  let label ← Par.lift (argMax pt.pot)
  return (label, JTree.reset { J with state := st })

/-- The marginal on which the prediction is based. -/
def JTree.marginalP [Zero K] [Add K] [Mul K] [Div K] [DecidableEq K] (J : JTree K) (p : Nat) (E : List (Nat × Nat)) (query : Nat) :
    Par (Table K × JTree K) := do
  let st ← propagateP p J.levels J.n E J.state
  let pt ← Par.lift (marginalProbability J.card st query)
  return (pt, JTree.reset { J with state := st })

/-- JunctionTree.cpp 1399-1432 with `mode = 0` and `num_threads`. -/
def JTree.probabilitiesP [Zero K] [One K] [Neg K] [Add K] [Mul K] [Div K] [DecidableEq K] (J : JTree K) (p : Nat) (E : List (Nat × Nat)) :
    Par (List K × JTree K) := do
  let st ← propagateP p J.levels J.n E J.state
  let probs ← Par.lift (probabilitiesAllNodes J.n J.card E st)
  return (probs, JTree.reset { J with state := st })

/-- JunctionTree.cpp 1438-1465 `Predict` with `mode = 1` and `num_threads`. -/
def JTree.predictAllP [Zero K] [Add K] [Mul K] [Div K] [LT K] [DecidableLT K] [DecidableEq K] (J : JTree K) (p : Nat)
    (evidences : List (List (Nat × Nat))) (query : Nat) : Par (List Nat × JTree K) :=
  evidences.foldlM (fun (st : List Nat × JTree K) E =>
    if evidences.length / 20 = 0 then Par.lift (.error .ub)
    else do
      let r ← st.2.predictP p E query
      return (st.1 ++ [r.1], r.2)) ([], J)

end FastPGM
