import Verif.Model.Pipeline
import Verif.Model.XmlNetwork
import Verif.Model.Sampler

/-!
Model of the commands that start from a network file (src/fastpgm/fastpgm_api/fastpgm_api.cpp): exact inference and generation of samples.
The network file is the parsed XML document, the data files are the characters of the files.
-/

namespace FastPGM

variable {K ω : Type}

/-- Dataset.cpp 23-34: the data set for testing that is made from a network. -/
def NetFile.testDataset (F : NetFile) : Dataset := { valueIds := F.valueIds, numVars := F.net.nodes.length }

/-- JunctionTree.cpp 1399-1470 `Predict` and `PredictUseJTInfer` with `mode = 2`: the tree is updated for every instance and nothing is
kept. -/
def JTree.propagateAll [Field K] [DecidableEq K] (J : JTree K) (evidences : List (List (Nat × Nat))) : Except Fault (JTree K) :=
  evidences.foldlM (fun J E => do
    if evidences.length / 20 = 0 then .error .ub
    else do
      let st ← propagate J.levels J.n E J.state
      return JTree.reset { J with state := st }) J

/-- fastpgm_api.cpp 77-94 `BNEI_JT` with Inference.cpp 51-73 `EvaluateAccuracy`: the two averages it prints.  `pt` is the file of reference
distributions; without it (empty path) the mode becomes 2 and nothing is printed. -/
def exactInference [Field K] [LinearOrder K] (stod : Str → Except Fault K) (toCount : K → Int) (trunc : K → Int) (sqrt : K → K)
    (order : List (Nat × Nat) → List (Nat × Nat)) (cord : Nat → List Nat) (doc : XmlDoc) (test : Str) (pt : Option Str) :
    Except Fault (Option (K × K)) := do
  let F ← loadXMLBIF stod toCount doc
  let tester ← F.testDataset.loadCSVTesting test true 0
  let (evidences, _) ← inferenceInit 0 tester.classVar.toNat tester.natRows
  let pts : List (Table K) ← sampleTables F.net F.prob
  let J ← buildJunctionTree F.net F.net.card pts order cord
  match pt with
  | none => do
    let _ ← J.propagateAll evidences
    return none
  | some file => do
    let truths ← loadGroundTruth stod (F.net.nodes.map NodeS.dim) evidences.length file
    let r ← J.evaluate trunc sqrt evidences truths
    return some r

/-- fastpgm_api.cpp 137-170 `Sample_Generator`: the text of the file with the samples, in LIBSVM or in CSV format.  The LIBSVM file is
written in any case, and read again for the CSV file. -/
def sampleGenerator [Field K] [DecidableEq K] (stod : Str → Except Fault K) (toCount : K → Int) (draw : List K → ω → Except Fault Nat)
    (rnd : Nat → Nat → ω) (doc : XmlDoc) (libsvm : Bool) (numSamples : Nat) (cls : Int) : Except Fault Str := do
  let F ← loadXMLBIF stod toCount doc
  let (samples, N) ← generateSamples draw F.net F.prob numSamples rnd
  let text ← outputLIBSVM N.nodes.length numSamples cls samples
  if libsvm then return text
  else do
    let D ← F.testDataset.loadLIBSVMTesting text cls
    let names ← (List.range D.numVars).mapM (rd F.names)
    Dataset.storeCSV { D with varNames := names } true

end FastPGM
