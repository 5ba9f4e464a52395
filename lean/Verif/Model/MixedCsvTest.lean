import Verif.Model.MixedDataset

/-!
Model of src/fastpgm/Dataset.cpp 511-603 for data with continuous variables (`cont_vars` not empty).
-/

namespace FastPGM

variable {F : Type}

/-- Dataset.cpp 556-592: one cell of a test line. -/
def testCellM (stof : Str → Except Fault F) (cont : List Int) (ids : List ValueMap) (strVal : Bool) (parsed : List Str)
    (row : List (Int × MVal F)) (i : Nat) : Except Fault (List (Int × MVal F)) := do
  let cell ← rd parsed i
  if (i : Int) ∈ cont then do
    let f ← stof cell
    return row ++ [((i : Int), .flt f)]
  else if cell = [] then return row
  else if strVal then do
    let m ← rd ids i
    match m.find cell with
    | some v => return row ++ [((i : Int), .int v)]
    | none => return row
  else do
    let v ← stoi cell
    return row ++ [((i : Int), .int v)]

/-- Dataset.cpp 549-593: one test line. -/
def testLineM (stof : Str → Except Fault F) (cont : List Int) (ids : List ValueMap) (numVars : Nat) (strVal : Bool)
    (rows : List (List (Int × MVal F))) (sample : Str) : Except Fault (List (List (Int × MVal F))) := do
  let parsed ← split (trimRight sample) [44]
  let row ← (List.range numVars).foldlM (testCellM stof cont ids strVal parsed) []
  return rows ++ [row]

/-- Dataset.cpp 511-603 `LoadCSVTestingData`, on a data set that has the value maps of the training data (constructor of lines 15-18). -/
def MDataset.loadCSVTesting (stof : Str → Except Fault F) (D : MDataset F) (file : Str) (strVal : Bool) (cls : Int) (cont : List Int) :
    Except Fault (MDataset F) :=
  if strVal && D.valueIds = [] then .error .exit
  else do
    let (_, sample, f) := readTwo file
    let rows ← doWhileGetline (testLineM stof cont D.valueIds D.numVars strVal) (file.length + 1) D.rows sample f
    return { D with rows := rows, numInstance := rows.length, classVar := cls }

/-- Dataset.cpp 15-18: a data set for testing made from a training data set. -/
def MDataset.forTesting (D : MDataset F) : MDataset F := { valueIds := D.valueIds, numVars := D.numVars }

end FastPGM
