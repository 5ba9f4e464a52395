import Verif.Model.Pipeline
import Verif.Model.BifNetwork
import Verif.Model.Compare
import Verif.Model.SaveFiles

/-!
Model of the commands that learn a network (src/fastpgm/fastpgm_api/fastpgm_api.cpp 18-75 and 96-135), from the files they read to the files
they write and the numbers they print.  An empty path of the reference network is `none`.  If a command ends in a fault, what it has written
before is left out.
-/

namespace FastPGM

variable {K : Type}

/-- Reading and printing of numbers, and a bound for the loop of the BIF loader that is not bounded in the code. -/
structure Numbers (K : Type) where
  /-- `stod` -/
  stod : Str → Except Fault K
  /-- CustomNetwork.cpp 191: a probability as a number of observations, `(int) (prob*10000)` -/
  toCount : K → Int
  /-- `to_string` -/
  fmt : K → Str
  rounds : Nat

/-- StructureLearning.cpp 19-24: the member `node_name`. -/
def assignNames (D : Dataset) : List Str :=
  if D.varNames.length = D.numVars then D.varNames else (List.range D.numVars).map (fun i : Nat => intToStr i)

/-- What a command writes and prints. -/
structure LearnOutput where
  /-- the structure file -/
  structFile : Option Str
  /-- the printed distance -/
  shd : Option Nat
  /-- the parameter file -/
  paramFile : Option Str
  deriving DecidableEq

/-- fastpgm_api.cpp 32-41, 59-68, 112-121: comparison with the reference network.  The outer `none`: the loader does not end within the
bound. -/
def reportSHD (nums : Numbers K) (ref : Option Str) (N : Net) : Except Fault (Option (Option Nat)) :=
  match ref with
  | none => return some none
  | some file => do
    match ← loadBIF nums.stod nums.toCount nums.rounds file with
    | none => return none
    | some F => do
      let (d, _) ← getSHD F.net N F.numEdges
      return some (some d)

/-- fastpgm_api.cpp 18-44 `BNSL_PCStable`. -/
def bnsl [Field K] [LinearOrder K] (X : Execution K) (nums : Numbers K) (alpha : K) (groupSize : Nat) (ref : Option Str) (train : Str)
    (saveStruct : Bool) : Except Fault (Option LearnOutput) := do
  let trainer ← loadCSVTraining train true 0
  let (N, numEdges) ← structLearnFull X alpha groupSize false false trainer
  let structFile ← (if saveStruct then do return some (← saveStructure (assignNames trainer) numEdges N) else return none)
  match ← reportSHD nums ref N with
  | none => return none
  | some shd => return some { structFile := structFile, shd := shd, paramFile := none }

/-- fastpgm_api.cpp 46-75 `BNL_PCStable`. -/
def bnl [Field K] [LinearOrder K] (X : Execution K) (nums : Numbers K) (alpha : K) (groupSize : Nat) (ref : Option Str) (train : Str)
    (saveStruct saveParam : Bool) : Except Fault (Option LearnOutput) := do
  let trainer ← loadCSVTraining train true 0
  let (N, numEdges) ← structLearnFull X alpha groupSize false false trainer
  let structFile ← (if saveStruct then do return some (← saveStructure (assignNames trainer) numEdges N) else return none)
  match ← reportSHD nums ref N with
  | none => return none
  | some shd => do
    let pts : List (Table K) ← learnParams N trainer.natColumns trainer.numVars trainer.numInstance 1 X.rnd []
    let paramFile ← (if saveParam then do
      return some (← saveParameters nums.fmt (assignNames trainer) trainer.valueIds N.nodes.length pts) else return none)
    return some { structFile := structFile, shd := shd, paramFile := paramFile }

/-- StructureLearning.cpp 220-222: the values of ROOT. -/
def rootValues : List (Str × Int) := [(lit "0", 0), (lit "1", 1)]

/-- fastpgm_api.cpp 96-135 `C_PCStable_JT`: the files, the distance and the accuracy. -/
def classifyFull [Field K] [LinearOrder K] (X : Execution K) (nums : Numbers K) (alpha : K) (groupSize : Nat) (ref : Option Str)
    (train test : Str) (saveStruct saveParam : Bool) : Except Fault (Option (LearnOutput × K)) := do
  let trainer ← loadCSVTraining train true 0
  let tester ← trainer.forTesting.loadCSVTesting test true 0
  let (N, numEdges) ← structLearnFull X alpha groupSize true true trainer
  let names := assignNames trainer ++ [lit "ROOT"]
  let structFile ← (if saveStruct then do return some (← saveStructure names numEdges N) else return none)
  match ← reportSHD nums ref N with
  | none => return none
  | some shd => do
    let pts : List (Table K) ← learnParams N trainer.natColumns trainer.numVars trainer.numInstance 1 X.rnd []
    let paramFile ← (if saveParam then do
      return some (← saveParameters nums.fmt names (trainer.valueIds ++ [rootValues]) N.nodes.length pts) else return none)
    let (evidences, truths) ← inferenceInit 1 tester.classVar.toNat tester.natRows
    let J ← buildJunctionTree N N.card pts X.order X.cord
    let (labels, _) ← J.predictAll evidences tester.classVar.toNat
    return some ({ structFile := structFile, shd := shd, paramFile := paramFile }, ← accuracy truths labels)

end FastPGM
