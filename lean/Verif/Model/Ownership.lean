import Verif.Model.JunctionTree

/-!
The objects that the commands of `fastpgm_api.cpp` allocate with `new` and release with `delete`: which object is released when, through
which static type, and which objects are used in between.  What the objects contain is the subject of the other files; here an object is an
address with its class.
-/

namespace FastPGM

/-- The classes whose objects are allocated with `new` and kept beyond one function call, and the element types of the arrays. -/
inductive Cls where
  | dataset | network | customNetwork | structureLearning | pcStable | paramLearning | inference | junctionTree | jtStructure
  | clique | separator | node | discreteNode | continuousNode | sampleSet | int | intPtr
  deriving DecidableEq, Repr

/-- The direct base class (CustomNetwork.h, PCStable.h, JunctionTree.h, Separator.h, DiscreteNode.h, ContinuousNode.h). -/
def Cls.base : Cls → Option Cls
  | .customNetwork => some .network
  | .pcStable => some .structureLearning
  | .junctionTree => some .inference
  | .separator => some .clique
  | .discreteNode => some .node
  | .continuousNode => some .node
  | _ => none

/-- Whether the destructor of the class is virtual.  Network.h, StructureLearning.h, Inference.h 51 and Clique.h 42 declare a virtual
destructor and their derived classes inherit that; Node.h has virtual functions (55, 56, 60) but declares no destructor. -/
def Cls.virtualDtor : Cls → Bool
  | .network | .customNetwork | .structureLearning | .pcStable | .inference | .junctionTree | .clique | .separator => true
  | _ => false

/-- A live object: address, dynamic class, allocated by `new[]`. -/
structure LiveObj where
  addr : Nat
  cls : Cls
  arr : Bool := false
  deriving DecidableEq, Repr

/-- The heap: the live objects and the next fresh address (addresses are not used again). -/
structure Heap where
  next : Nat := 0
  live : List LiveObj := []
  deriving DecidableEq, Repr

/-- `new C` and `new C[k]` -/
def Heap.new (h : Heap) (c : Cls) (arr : Bool := false) : Nat × Heap :=
  (h.next, ⟨h.next + 1, h.live ++ [⟨h.next, c, arr⟩]⟩)

/-- `k` times `new C` (or `new C[…]`) in a loop -/
def Heap.newMany (h : Heap) (c : Cls) (arr : Bool) (k : Nat) : List Nat × Heap :=
  ((List.range k).map (fun i => h.next + i), ⟨h.next + k, h.live ++ (List.range k).map (fun i => ⟨h.next + i, c, arr⟩)⟩)

/-- A delete expression: the static class, whether it is `delete[]`, and the pointer. -/
structure Del where
  static : Cls
  arr : Bool := false
  ptr : Option Nat
  deriving DecidableEq, Repr

/-- The pointer may be deleted through the static class (C++17 [expr.delete] 3): `delete` for `new` and `delete[]` for `new[]`, and the
dynamic class is the static class or, for a single object, derived from it while the destructor of the static class is virtual. -/
def Del.allowed (virt : Cls → Bool) (d : Del) (o : LiveObj) : Bool :=
  o.arr = d.arr ∧ (o.cls = d.static ∨ (d.arr = false ∧ o.cls.base = some d.static ∧ virt d.static = true))

/-- common.h 18, 19 `SAFE_DELETE` and `SAFE_DELETE_ARRAY`: nothing for a null pointer.  Releasing an object that is not live, or through a
class that does not allow it, is undefined behaviour.  The deletions made by the destructor of the object follow in the list of deletions. -/
def Heap.del (virt : Cls → Bool) (h : Heap) (d : Del) : Except Fault Heap :=
  match d.ptr with
  | none => .ok h
  | some a =>
    match h.live.find? (fun o => o.addr = a) with
    | none => .error .ub
    | some o => if d.allowed virt o then .ok { h with live := h.live.filter (fun o => o.addr ≠ a) } else .error .ub

/-- A sequence of delete expressions. -/
def Heap.delAll (virt : Cls → Bool) (h : Heap) (ds : List Del) : Except Fault Heap := ds.foldlM (Heap.del virt) h

/-- The objects at these addresses are read or written; one that is not live is undefined behaviour. -/
def Heap.use (h : Heap) (as : List Nat) : Except Fault Unit :=
  if as.all (fun a => h.live.any (fun o => o.addr = a)) then .ok () else .error .ub

/-- Dataset.h: the members of a dataset that point to memory it owns: `dataset_all_vars` with its rows, `dataset_columns` with its columns. -/
structure DatasetObj where
  self : Nat
  rows : List Nat := []
  allVars : Option Nat := none
  cols : List Nat := []
  columns : Option Nat := none

/-- Dataset.cpp 7-26, the constructors: both arrays are null pointers. -/
def newDataset (h : Heap) : DatasetObj × Heap :=
  let (a, h) := h.new .dataset
  ({ self := a }, h)

/-- Dataset.cpp 828-857 `Vector2IntArray` and `RowMajor2ColumnMajor` as called by the loaders of training data; the loaders of testing data
(535-605, 250-298) do not call them. -/
def DatasetObj.load (d : DatasetObj) (h : Heap) (numInstance numVars : Nat) : DatasetObj × Heap :=
  let (all, h) := h.new .intPtr true
  let (rows, h) := h.newMany .int true numInstance
  let (columns, h) := h.new .intPtr true
  let (cols, h) := h.newMany .int true numVars
  ({ d with rows := rows, allVars := some all, cols := cols, columns := some columns }, h)

/-- Dataset.cpp 36-50 `~Dataset` and the deletion of the object itself. -/
def DatasetObj.deletions (d : DatasetObj) : List Del :=
  (if d.allVars.isSome then d.rows.map (fun a => ⟨.int, true, some a⟩) ++ [⟨.intPtr, true, d.allVars⟩] else []) ++
  (if d.columns.isSome then d.cols.map (fun a => ⟨.int, true, some a⟩) ++ [⟨.intPtr, true, d.columns⟩] else []) ++
  [⟨.dataset, false, some d.self⟩]

/-- Network.h: a network and the nodes in `map_idx_node_ptr`, in the order of their indexes. -/
structure NetObj where
  self : Nat
  nodes : List Nat := []

/-- Network.cpp 8-12 and CustomNetwork.cpp: a network without nodes. -/
def newNetObj (h : Heap) (c : Cls) : NetObj × Heap :=
  let (a, h) := h.new c
  ({ self := a }, h)

/-- `k` nodes are allocated and entered: StructureLearning.cpp 17 and 219, XMLBIFParser.cpp 48, CustomNetwork.cpp 92 (all of them
`DiscreteNode`). -/
def NetObj.addNodes (n : NetObj) (h : Heap) (k : Nat) : NetObj × Heap :=
  let (as, h) := h.newMany .discreteNode false k
  ({ n with nodes := n.nodes ++ as }, h)

/-- Network.cpp 56-62 `~Network`, which releases the nodes through `Node*`, and the deletion of the object itself, through static class
`c`. -/
def NetObj.deletions (n : NetObj) (c : Cls) : List Del :=
  n.nodes.map (fun a => ⟨.node, false, some a⟩) ++ [⟨c, false, some n.self⟩]

/-- JunctionTree.h and JunctionTreeStructure.h: the members of a junction tree that point to memory it owns. -/
structure JTObj where
  self : Nat
  tree : Nat
  cliques : List Nat
  seps : List Nat
  cliqueBackup : Nat
  sepBackup : Nat

/-- JunctionTreeStructure.cpp 20-51 and 230-308: allocate the cliques (208) and the candidate separators (249), keep those of the tree
(`vector_separator_ptr_container`, 284) and release the others (299-307; those with `is_in_jt` still false). -/
def newStructure (virt : Cls → Bool) (h : Heap) (T : JTShape) : Except Fault (Nat × List Nat × List Nat × Heap) := do
  let (tree, h) := h.new .jtStructure
  let (cliques, h) := h.newMany .clique false T.cliques.length
  let cands := candidateSeps T.cliques
  let (all, h) := h.newMany .separator false cands.length
  let seps ← T.seps.mapM (fun p => rd all (cands.idxOf p))
  let unused := (cands.zip all).filter (fun q => q.1 ∉ T.seps)
  let h ← h.delAll virt (unused.map (fun q => ⟨.separator, false, some q.2⟩))
  return (tree, cliques, seps, h)

/-- JunctionTree.cpp 5-39: the structure and the two arrays of `BackUpJunctionTree` (212, 213). -/
def newJunctionTree (virt : Cls → Bool) (h : Heap) (T : JTShape) : Except Fault (JTObj × Heap) := do
  let (self, h) := h.new .junctionTree
  let (tree, cliques, seps, h) ← newStructure virt h T
  let (cb, h) := h.new .clique true
  let (sb, h) := h.new .separator true
  return (⟨self, tree, cliques, seps, cb, sb⟩, h)

/-- JunctionTree.cpp 47-51 `~JunctionTree`, JunctionTreeStructure.cpp 58-66 `~JunctionTreeStructure`, and the deletion of the object itself
through `Inference*`. -/
def JTObj.deletions (j : JTObj) : List Del :=
  j.cliques.map (fun a => ⟨.clique, false, some a⟩) ++ j.seps.map (fun a => ⟨.separator, false, some a⟩) ++
  [⟨.jtStructure, false, some j.tree⟩, ⟨.clique, true, some j.cliqueBackup⟩, ⟨.separator, true, some j.sepBackup⟩,
   ⟨.inference, false, some j.self⟩]

/-- The objects that `EvaluateAccuracy` and the message passing read. -/
def JTObj.addrs (j : JTObj) : List Nat := [j.self, j.tree, j.cliqueBackup, j.sepBackup] ++ j.cliques ++ j.seps

/-- PCStable.cpp 14-16 `~PCStable`, which releases the network it was given, and the deletion of the object itself through
`StructureLearning*`. -/
def pcStableDeletions (self : Nat) (net : NetObj) : List Del :=
  net.deletions .network ++ [⟨.structureLearning, false, some self⟩]

/-- fastpgm_api.cpp 32-39, 59-66, 112-119: the reference network is loaded, compared and released. -/
def compareReference (virt : Cls → Bool) (h : Heap) (net : NetObj) (ref : Option Nat) : Except Fault Heap :=
  match ref with
  | none => .ok h
  | some k => do
    let (r, h) := newNetObj h .customNetwork
    let (r, h) := r.addNodes h k
    h.use (r.self :: r.nodes ++ (net.self :: net.nodes))
    h.delAll virt (r.deletions .customNetwork)

/-- fastpgm_api.cpp 18-43 `BNSL_PCStable`. -/
def bnslObjects (virt : Cls → Bool) (rows vars : Nat) (ref : Option Nat) : Except Fault Heap := do
  let (trainer, h) := newDataset {}
  let (trainer, h) := trainer.load h rows vars
  let (net, h) := newNetObj h .network
  let (bnsl, h) := h.new .pcStable
  let (net, h) := net.addNodes h vars
  h.use (bnsl :: net.self :: net.nodes ++ (trainer.self :: trainer.cols))
  let h ← h.delAll virt trainer.deletions
  let h ← compareReference virt h net ref
  h.delAll virt (net.deletions .network)

/-- fastpgm_api.cpp 45-74 `BNL_PCStable`. -/
def bnlObjects (virt : Cls → Bool) (rows vars : Nat) (ref : Option Nat) : Except Fault Heap := do
  let (trainer, h) := newDataset {}
  let (trainer, h) := trainer.load h rows vars
  let (net, h) := newNetObj h .network
  let (bnsl, h) := h.new .pcStable
  let (net, h) := net.addNodes h vars
  h.use (bnsl :: net.self :: net.nodes ++ (trainer.self :: trainer.cols))
  let h ← compareReference virt h net ref
  let (bnpl, h) := h.new .paramLearning
  h.use (bnpl :: net.self :: net.nodes ++ (trainer.self :: trainer.cols))
  let h ← h.delAll virt trainer.deletions
  h.delAll virt (net.deletions .network)

/-- fastpgm_api.cpp 76-93 `BNEI_JT` for a network of `n` nodes whose junction tree is `T`.  The testing data have no arrays; the
constructor of `Inference` copies what it needs from them. -/
def bneiObjects (virt : Cls → Bool) (n : Nat) (T : JTShape) : Except Fault Heap := do
  let (net, h) := newNetObj {} .customNetwork
  let (net, h) := net.addNodes h n
  let (tester, h) := newDataset h
  h.use (net.self :: net.nodes ++ [tester.self])
  let (jt, h) ← newJunctionTree virt h T
  let h ← h.delAll virt tester.deletions
  h.use (net.self :: net.nodes ++ jt.addrs)
  let h ← h.delAll virt jt.deletions
  h.delAll virt (net.deletions .customNetwork)

/-- fastpgm_api.cpp 95-133 `C_PCStable_JT`; the learned network gets the node ROOT as well. -/
def classifyObjects (virt : Cls → Bool) (rows vars : Nat) (ref : Option Nat) (T : JTShape) : Except Fault Heap := do
  let (trainer, h) := newDataset {}
  let (trainer, h) := trainer.load h rows vars
  let (tester, h) := newDataset h
  let (net, h) := newNetObj h .network
  let (bnsl, h) := h.new .pcStable
  let (net, h) := net.addNodes h (vars + 1)
  h.use (bnsl :: net.self :: net.nodes ++ (trainer.self :: trainer.cols))
  let h ← compareReference virt h net ref
  let (bnpl, h) := h.new .paramLearning
  h.use (bnpl :: net.self :: net.nodes ++ (trainer.self :: trainer.cols))
  let h ← h.delAll virt trainer.deletions
  h.use (net.self :: net.nodes ++ [tester.self])
  let (jt, h) ← newJunctionTree virt h T
  let h ← h.delAll virt tester.deletions
  h.use (net.self :: net.nodes ++ jt.addrs)
  let h ← h.delAll virt jt.deletions
  let h ← h.delAll virt (pcStableDeletions bnsl net)
  h.delAll virt [⟨.paramLearning, false, some bnpl⟩]

/-- fastpgm_api.cpp 135-170 `Sample_Generator` for a network of `n` nodes. -/
def sampleObjects (virt : Cls → Bool) (n : Nat) (libsvm : Bool) : Except Fault Heap := do
  let (net, h) := newNetObj {} .customNetwork
  let (net, h) := net.addNodes h n
  let (gen, h) := h.new .sampleSet
  h.use (gen :: net.self :: net.nodes)
  let h ← h.delAll virt [⟨.sampleSet, false, some gen⟩]
  if libsvm then h.delAll virt (net.deletions .customNetwork)
  else do
    let (dts, h) := newDataset h
    h.use (dts.self :: net.self :: net.nodes)
    let h ← h.delAll virt (net.deletions .customNetwork)
    h.use [dts.self]
    h.delAll virt dts.deletions

/-- A program that learns a structure with the library and releases what it allocated, the learner first. -/
def learnThenRelease (virt : Cls → Bool) (vars : Nat) : Except Fault Heap := do
  let (net, h) := newNetObj {} .network
  let (bnsl, h) := h.new .pcStable
  let (net, h) := net.addNodes h vars
  let h ← h.delAll virt (pcStableDeletions bnsl net)
  h.delAll virt (net.deletions .network)

end FastPGM
