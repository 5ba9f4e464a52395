import Verif.Model.Orientation
import Verif.Model.RootNode
import Verif.Model.Params
import Verif.Model.Evaluation
import Verif.Model.Inference

/-!
Model of the commands as a whole (src/fastpgm/fastpgm_api/fastpgm_api.cpp): the composition of the loaders, structure learning, parameter
learning and inference.  The files are the characters of the files; printing and the time measurements are left out.
-/

namespace FastPGM

variable {K : Type}

/-- What the environment decides in one execution: the mathematical library, the results of the random number generators, the schedules of
the parallel loops, the order in which equal candidates are examined while the junction tree is built, and a bound for the loops that are
not bounded in the code. -/
structure Execution (K : Type) where
  /-- `log` -/
  log : K → K
  /-- `pchisq` -/
  pchisq : K → Nat → Option K
  /-- StructureLearning.cpp 110-144: the results of `Random01` in `DirectLeftEdges` -/
  bits : Nat → Bool
  /-- ParameterLearning.cpp 49: the random values of the ROOT node -/
  rnd : Nat → Nat → Nat
  /-- PCStable.cpp 132-133: the order of the iterations of level 0 -/
  order0 : List Nat
  /-- PCStable.cpp 289-291: the schedules of the later levels -/
  sched : Nat → Schedule
  /-- JunctionTreeStructure.cpp: the order of the candidate separators -/
  order : List (Nat × Nat) → List (Nat × Nat)
  /-- JunctionTreeStructure.cpp: the order of the cliques -/
  cord : Nat → List Nat
  fuel : Nat

/-- Dataset.h 31 `dataset_columns`.  The values are used as indices. -/
def Dataset.natColumns (D : Dataset) : List (List Nat) := D.columns.map (fun c => c.map Int.toNat)

/-- Dataset.h 32 `vector_dataset_all_vars`. -/
def Dataset.natRows (D : Dataset) : List (List (Nat × Nat)) := D.rows.map (fun r => r.map (fun p => (p.1.toNat, p.2.toNat)))

/-- StructureLearning.cpp 11-34 `AssignNodeInformation`: the domain sizes of the nodes (the names and the value names are left out).  All
nodes get an entry of `vars_possible_values_ids` and of `num_of_possible_values_of_disc_vars`. -/
def assignNodeInformation (D : Dataset) : Except Fault (List Nat) :=
  (List.range D.numVars).mapM (fun i => do
    let _ ← rd D.valueIds i
    let size ← rd D.numValues i
    return size.toNat)

/-- PCStable.cpp 134-146 with IndependenceTest.cpp 12-21: every test is made by an object whose constructor ends the program if the significance
level is not between 0 and 1.  The first test is the first one of the complete graph, if that has an edge. -/
def checkAlpha [Field K] [LinearOrder K] (alpha : K) (numVars : Nat) : Except Fault Unit :=
  if 2 ≤ numVars ∧ (alpha < 0 ∨ 1 < alpha) then .error .exit else .ok ()

/-- PCStable.cpp 26-84 `StructLearnCompData` without saving: the network and its member `num_edges`.  `depth` is 1000 (PCStable.h 37), the
batches are of 128 edges (PCStable.cpp 281-283), and `vec_edges` has room for the complete graph (Network.cpp 273).  `num_edges` is kept up to
date while the skeleton is learned and when ROOT is added; the orientation does not change it. -/
def structLearnFull [Field K] [LinearOrder K] (X : Execution K) (alpha : K) (groupSize : Nat) (dag addRoot : Bool) (D : Dataset) :
    Except Fault (Net × Nat) := do
  let dims ← assignNodeInformation D
  let _ ← checkAlpha alpha D.numVars
  let k ← learnSkeleton (ciTest X.log X.pchisq alpha dims D.natColumns D.numInstance) D.numVars 1000 groupSize 128 X.order0 X.sched X.fuel
  let N ← orientPhase (D.numVars * (D.numVars - 1) / 2) X.bits dag X.fuel dims k
  if addRoot then do
    let roots ← N.findRoots
    let N ← N.addRootNode roots
    return (N, k.edges.length + roots.length)
  else return (N, k.edges.length)

/-- The network that `StructLearnCompData` learns. -/
def structLearn [Field K] [LinearOrder K] (X : Execution K) (alpha : K) (groupSize : Nat) (dag addRoot : Bool) (D : Dataset) :
    Except Fault Net := do
  let (N, _) ← structLearnFull X alpha groupSize dag addRoot D
  return N

/-- The domain size of a node. -/
def Net.card (N : Net) : Nat → Nat := fun i => (N.nodes.map NodeS.dim).getD i 0

/-- fastpgm_api.cpp 96-135 `C_PCStable_JT` without a reference network and without saving the network: the accuracy it prints. -/
def classify [Field K] [LinearOrder K] (X : Execution K) (alpha : K) (groupSize : Nat) (train test : Str) : Except Fault K := do
  let trainer ← loadCSVTraining train true 0
  let tester ← trainer.forTesting.loadCSVTesting test true 0
  let N ← structLearn X alpha groupSize true true trainer
  let pts : List (Table K) ← learnParams N trainer.natColumns trainer.numVars trainer.numInstance 1 X.rnd []
  let (evidences, truths) ← inferenceInit 1 tester.classVar.toNat tester.natRows
  let J ← buildJunctionTree N N.card pts X.order X.cord
  let (labels, _) ← J.predictAll evidences tester.classVar.toNat
  accuracy truths labels

end FastPGM
