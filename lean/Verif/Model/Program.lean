import Verif.Model.LearnCommands
import Verif.Model.Commands
import Verif.Model.Parameter

/-!
Model of the program as a whole (src/fastpgm/main.cpp) on a file system: from the command line and the files to the changed files and the
printed results.

The commands are those of `Model/LearnCommands.lean` and `Model/Commands.lean`, here with the files read and written one after the other, in
the order of the code.  A file that cannot be opened ends the program.  The XML tokenizer is an arbitrary function.
-/

namespace FastPGM

/-- The files, and where the program may write. -/
structure World where
  files : Str → Option Str
  writable : Str → Bool

/-- Why a run does not end regularly: a fault, or a loop without end (more rounds than the bound in `Numbers`). -/
inductive Stop where
  | fault (f : Fault)
  | endless
deriving DecidableEq, Repr

/-- Programs that read and write files.  What has been written remains after a fault. -/
abbrev Prog (α : Type) := ExceptT Stop (StateM World) α

variable {K ω α : Type}

/-- A part of the program that does not use files. -/
def Prog.pure (r : Except Fault α) : Prog α := fun w =>
  match r with
  | .ok a => (.ok a, w)
  | .error f => (.error (.fault f), w)

/-- A loop that does not end. -/
def Prog.endless : Prog α := fun w => (.error .endless, w)

/-- `ifstream` and the check after it (Dataset.cpp 390-397, 518-524, CustomNetwork.cpp 18-24, 53-59, Inference.cpp 120-126): the text of the
file. -/
def readFile (path : Str) : Prog Str := fun w =>
  match w.files path with
  | some text => (.ok text, w)
  | none => (.error (.fault .exit), w)

/-- The files after writing. -/
def World.put (w : World) (path text : Str) : World := { w with files := fun q => if q = path then some text else w.files q }

/-- `ofstream`, the check after it and the output (StructureLearning.cpp 239-293, ParameterLearning.cpp 112-154, SampleSetGenerator.cpp 53-90,
Dataset.cpp 625-700).  After a fault the opened file is empty; what has been written of the text until then is left out. -/
def saveFile (path : Str) (text : Except Fault Str) : Prog Unit := fun w =>
  if w.writable path then
    match text with
    | .ok t => (.ok (), w.put path t)
    | .error f => (.error (.fault f), w.put path [])
  else (.error (.fault .exit), w)

/-- fastpgm_api.cpp 32-41, 59-68, 112-121; an empty path means that there is no reference network. -/
def compareRef (nums : Numbers K) (ref : Str) (N : Net) : Prog (Option Nat) :=
  if ref = [] then return none
  else do
    let text ← readFile ref
    match ← Prog.pure (loadBIF nums.stod nums.toCount nums.rounds text) with
    | none => Prog.endless
    | some F => do
      let (d, _) ← Prog.pure (getSHD F.net N F.numEdges)
      return some d

/-- fastpgm_api.cpp 18-44 `BNSL_PCStable` -/
def runBNSL [Field K] [LinearOrder K] (X : Execution K) (nums : Numbers K) (alpha : K) (groupSize : Nat) (ref train : Str) (saveStruct : Bool) :
    Prog (Option Nat) := do
  let text ← readFile train
  let trainer ← Prog.pure (loadCSVTraining text true 0)
  let (N, numEdges) ← Prog.pure (structLearnFull X alpha groupSize false false trainer)
  if saveStruct then saveFile (train ++ lit "_struct") (saveStructure (assignNames trainer) numEdges N)
  compareRef nums ref N

/-- fastpgm_api.cpp 46-75 `BNL_PCStable` -/
def runBNL [Field K] [LinearOrder K] (X : Execution K) (nums : Numbers K) (alpha : K) (groupSize : Nat) (ref train : Str)
    (saveStruct saveParam : Bool) : Prog (Option Nat) := do
  let text ← readFile train
  let trainer ← Prog.pure (loadCSVTraining text true 0)
  let (N, numEdges) ← Prog.pure (structLearnFull X alpha groupSize false false trainer)
  if saveStruct then saveFile (train ++ lit "_struct") (saveStructure (assignNames trainer) numEdges N)
  let shd ← compareRef nums ref N
  let pts : List (Table K) ← Prog.pure (learnParams N trainer.natColumns trainer.numVars trainer.numInstance 1 X.rnd [])
  if saveParam then
    saveFile (train ++ lit "_param") (saveParameters nums.fmt (assignNames trainer) trainer.valueIds N.nodes.length pts)
  return shd

/-- fastpgm_api.cpp 96-135 `C_PCStable_JT` -/
def runClassify [Field K] [LinearOrder K] (X : Execution K) (nums : Numbers K) (alpha : K) (groupSize : Nat) (ref train test : Str)
    (saveStruct saveParam : Bool) : Prog (Option Nat × K) := do
  let text ← readFile train
  let trainer ← Prog.pure (loadCSVTraining text true 0)
  let text ← readFile test
  let tester ← Prog.pure (trainer.forTesting.loadCSVTesting text true 0)
  let (N, numEdges) ← Prog.pure (structLearnFull X alpha groupSize true true trainer)
  let names := assignNames trainer ++ [lit "ROOT"]
  if saveStruct then saveFile (train ++ lit "_struct") (saveStructure names numEdges N)
  let shd ← compareRef nums ref N
  let pts : List (Table K) ← Prog.pure (learnParams N trainer.natColumns trainer.numVars trainer.numInstance 1 X.rnd [])
  if saveParam then
    saveFile (train ++ lit "_param") (saveParameters nums.fmt names (trainer.valueIds ++ [rootValues]) N.nodes.length pts)
  let acc ← Prog.pure (do
    let (evidences, truths) ← inferenceInit 1 tester.classVar.toNat tester.natRows
    let J ← buildJunctionTree N N.card pts X.order X.cord
    let (labels, _) ← J.predictAll evidences tester.classVar.toNat
    accuracy truths labels)
  return (shd, acc)

/-- What the environment of the program decides, besides `Execution` and `Numbers`. -/
structure Runtime (K ω : Type) where
  X : Execution K
  nums : Numbers K
  /-- the literal 0.05 -/
  alpha0 : K
  /-- tinyxml2 on the text of a file -/
  xml : Str → Except Fault XmlDoc
  trunc : K → Int
  sqrt : K → K
  /-- `discrete_distribution` -/
  draw : List K → ω → Except Fault Nat
  /-- SampleSetGenerator.cpp 36-37: the random numbers of the samples -/
  samples : Nat → Nat → ω
  /-- `__FILE__` -/
  source : Str

/-- fastpgm_api.cpp 77-94 `BNEI_JT`; an empty path means that there are no reference distributions. -/
def runInference [Field K] [LinearOrder K] (R : Runtime K ω) (net test pt : Str) : Prog (Option (K × K)) := do
  let text ← readFile net
  let doc ← Prog.pure (R.xml text)
  let F ← Prog.pure (loadXMLBIF R.nums.stod R.nums.toCount doc)
  let text ← readFile test
  let tester ← Prog.pure (F.testDataset.loadCSVTesting text true 0)
  let (evidences, _) ← Prog.pure (inferenceInit 0 tester.classVar.toNat tester.natRows)
  let pts : List (Table K) ← Prog.pure (sampleTables F.net F.prob)
  let J ← Prog.pure (buildJunctionTree F.net F.net.card pts R.X.order R.X.cord)
  if pt = [] then do
    let _ ← Prog.pure (J.propagateAll evidences)
    return none
  else do
    let file ← readFile pt
    let truths ← Prog.pure (loadGroundTruth R.nums.stod (F.net.nodes.map NodeS.dim) evidences.length file)
    let r ← Prog.pure (J.evaluate R.trunc R.sqrt evidences truths)
    return some r

/-- fastpgm_api.cpp 6-16 `GetLastPath`: what comes before the last slash. -/
def getLastPath (path : Str) : Str := ((path.reverse.dropWhile (fun c => c ≠ 47)).drop 1).reverse

/-- fastpgm_api.cpp 137-170 `Sample_Generator`.  SampleSetGenerator.cpp 11: a negative number of samples is too large for `resize`. -/
def runSamples [Field K] [LinearOrder K] (R : Runtime K ω) (net : Str) (libsvm : Bool) (numSamples cls : Int) : Prog Unit := do
  let text ← readFile net
  let doc ← Prog.pure (R.xml text)
  let F ← Prog.pure (loadXMLBIF R.nums.stod R.nums.toCount doc)
  if numSamples < 0 then Prog.pure (.error .throw)
  else do
    let (samples, N) ← Prog.pure (generateSamples R.draw F.net F.prob numSamples.toNat R.samples)
    let path := getLastPath net ++ lit "/sample_" ++ intToStr numSamples
    saveFile (path ++ lit "_libsvm") (outputLIBSVM N.nodes.length numSamples.toNat cls samples)
    if libsvm then return ()
    else do
      let text ← readFile (path ++ lit "_libsvm")
      let D ← Prog.pure (F.testDataset.loadLIBSVMTesting text cls)
      let names ← Prog.pure ((List.range D.numVars).mapM (rd F.names))
      saveFile (path ++ lit "_csv") (Dataset.storeCSV { D with varNames := names } true)

/-- `string::find`: the first place where `s` occurs in the text. -/
def findString (s : Str) : Str → Option Nat
  | [] => if s = [] then some 0 else none
  | c :: cs => if s.isPrefixOf (c :: cs) then some 0 else (findString s cs).map (· + 1)

/-- main.cpp 25-28: the directory of the data, from the path of the source file.  If the path does not have the name of the project, `find` returns the
largest number of its type, and the sum wraps around to 7. -/
def dataPath (source : Str) : Str :=
  match findString (lit "FastPGM") source with
  | some k => source.take (k + 8) ++ lit "dataset/"
  | none => source.take 7 ++ lit "dataset/"

/-- What the program prints about its results. -/
inductive Printed (K : Type) where
  | nothing
  /-- the distance, if there is a reference network -/
  | distance (d : Option Nat)
  /-- the two averages, if there are reference distributions -/
  | errors (e : Option (K × K))
  /-- the distance and the accuracy -/
  | accuracy (d : Option Nat) (a : K)
deriving DecidableEq

/-- main.cpp 30-241: the chosen command.  A path that is not given stays empty.  A negative group size is modelled as 0; both end the program
in the first group of tests, the code with an exception. -/
def dispatch [Field K] [LinearOrder K] (R : Runtime K ω) (p : Settings K) : Prog (Printed K) :=
  let d := dataPath R.source
  let ref := if p.refNetFile = [] then [] else d ++ p.refNetFile
  if p.job = 0 then
    if p.method ≠ 0 then Prog.pure (.error .exit)
    else do
      return .distance (← runBNSL R.X R.nums p.alpha p.groupSize.toNat ref (d ++ p.trainSetFile) p.saveStruct)
  else if p.job = 1 then
    if p.method ≠ 0 then Prog.pure (.error .exit)
    else do
      return .distance (← runBNL R.X R.nums p.alpha p.groupSize.toNat ref (d ++ p.trainSetFile) p.saveStruct p.saveParam)
  else if p.job = 2 then
    if p.method = 1 then do
      let pt := if p.ptFile = [] then [] else d ++ p.ptFile
      return .errors (← runInference R (d ++ p.netFile) (d ++ p.testSetFile) pt)
    else Prog.pure (.error .exit)
  else if p.job = 3 then
    if p.method = 0 then Prog.pure (.error .exit) else return .nothing
  else if p.job = 4 then
    if p.method = 1 then do
      let (shd, a) ← runClassify R.X R.nums p.alpha p.groupSize.toNat ref (d ++ p.trainSetFile) (d ++ p.testSetFile) p.saveStruct p.saveParam
      return .accuracy shd a
    else return .nothing
  else if p.job = 5 then
    if p.method = 0 ∨ p.method = 1 then do
      runSamples R (d ++ p.netFile) (p.method ≠ 1) p.numSamples p.classVariable
      return .nothing
    else return .nothing
  else return .nothing

/-- main.cpp 20-243 `main`: the result and the files afterwards. -/
def program [Field K] [LinearOrder K] (R : Runtime K ω) (args : List Str) : Prog (Printed K) := do
  let p ← Prog.pure (parseParameters R.nums.stod R.alpha0 args)
  dispatch R p

end FastPGM
