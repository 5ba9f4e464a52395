import Verif.Model.Dataset

/-!
Model of src/fastpgm/Dataset.cpp for data with continuous variables (`cont_vars` not empty).

`F` is the type `float`; `stof` is an arbitrary partial function on strings.  `cont` is the set `cont_vars` as a list.
-/

namespace FastPGM

variable {F : Type}

/-- common.h 28-39 `Value` -/
inductive MVal (F : Type) where
  | int (i : Int)
  | flt (f : F)
  deriving DecidableEq, Repr

/-- common.h 37 `GetInt` -/
def MVal.getInt : MVal F → Except Fault Int
  | .int i => .ok i
  | .flt _ => .error .exit

/-- Dataset.h 19-34; `none` is a null pointer. -/
structure MDataset (F : Type) where
  numInstance : Nat := 0
  numVars : Nat := 0
  classVar : Int := -1
  varNames : List Str := []
  valueIds : List ValueMap := []
  numValues : List Int := []
  allVars : Option (List (List Int)) := none
  columns : Option (List (List Int)) := none
  rows : List (List (Int × MVal F)) := []
  deriving DecidableEq, Repr

/-- Reading a member that may be a null pointer. -/
def derefArr {α : Type} : Option α → Except Fault α
  | some a => .ok a
  | none => .error .ub

/-- Dataset.cpp 834-840: one row of `Vector2IntArray`. -/
def intRowM (numVars : Nat) (row : List (Int × MVal F)) : Except Fault (List Int) :=
  row.foldlM (fun acc vv => do wrI acc vv.1 (← vv.2.getInt)) (List.replicate numVars 0)

/-- Dataset.cpp 828-842 `Vector2IntArray` -/
def MDataset.vector2IntArray (D : MDataset F) : Except Fault (MDataset F) := do
  let all ← (List.range D.numInstance).mapM (fun s => do intRowM D.numVars (← rd D.rows s))
  return { D with allVars := some all }

/-- Dataset.cpp 848-858 `RowMajor2ColumnMajor` -/
def MDataset.rowMajor2ColumnMajor (D : MDataset F) : Except Fault (MDataset F) := do
  let cols ← (List.range D.numVars).mapM (fun i =>
    (List.range D.numInstance).mapM (fun j => do rd (← rd (← derefArr D.allVars) j) i))
  return { D with columns := some cols }

/-- Dataset.cpp 131-138 and 490-496: the arrays are made for purely discrete data alone. -/
def MDataset.arrays (D : MDataset F) (cont : List Int) : Except Fault (MDataset F) :=
  if cont = [] then do
    let D ← D.vector2IntArray
    D.rowMajor2ColumnMajor
  else .ok D

/-! ### CSV -/

/-- State of the training loop. -/
structure CsvStateM (F : Type) where
  counter : List Int
  ids : List ValueMap
  rows : List (List (Int × MVal F))
  deriving DecidableEq, Repr

/-- Dataset.cpp 448-476: one cell. -/
def trainCellM (stof : Str → Except Fault F) (cont : List Int) (strVal : Bool) (parsed : List Str) (st : CsvStateM F × List (Int × MVal F))
    (i : Nat) : Except Fault (CsvStateM F × List (Int × MVal F)) := do
  let cell ← rd parsed i
  if (i : Int) ∈ cont then
    let f ← stof cell
    return (st.1, st.2 ++ [((i : Int), .flt f)])
  else if strVal then
    let m ← rd st.1.ids i
    match m.find cell with
    | none => do
      let c ← rd st.1.counter i
      return ({ st.1 with counter := st.1.counter.set i (c + 1), ids := st.1.ids.set i (m ++ [(cell, c + 1)]) },
        st.2 ++ [((i : Int), .int (c + 1))])
    | some v => return (st.1, st.2 ++ [((i : Int), .int v)])
  else do
    let v ← stoi cell
    return (st.1, st.2 ++ [((i : Int), .int v)])

/-- Dataset.cpp 440-478: one line. -/
def trainLineM (stof : Str → Except Fault F) (cont : List Int) (numVars : Nat) (strVal : Bool) (st : CsvStateM F) (sample : Str) :
    Except Fault (CsvStateM F) := do
  let parsed ← split (trimRight sample) [44]
  let (st, row) ← (List.range numVars).foldlM (trainCellM stof cont strVal parsed) (st, [])
  return { st with rows := st.rows ++ [row] }

/-- Dataset.cpp 389-503 `LoadCSVTrainingData` on a new data set. -/
def loadCSVTrainingM (stof : Str → Except Fault F) (file : Str) (strVal : Bool) (cls : Int) (cont : List Int) : Except Fault (MDataset F) := do
  let (header, sample, f) := readTwo file
  let numVars := header.countP (· = 44) + 1
  let names ← split (trimRight header) [44]
  if ¬ names.Nodup then .error .exit
  else do
    let st ← doWhileGetline (trainLineM stof cont numVars strVal) (file.length + 1)
      { counter := List.replicate numVars (-1), ids := List.replicate numVars [], rows := [] } sample f
    let numValues ← (List.range numVars).mapM (fun i => do return ((← rd st.ids i).length : Int))
    let D : MDataset F := { numInstance := st.rows.length, numVars := numVars, classVar := cls, varNames := names, valueIds := st.ids,
                            numValues := numValues, rows := st.rows }
    D.arrays cont

/-- Dataset.cpp 656-679: the text of one value; the value is read with `GetInt` (line 658). -/
def storeCellM (D : MDataset F) (strVal : Bool) (value : List Str) (vv : Int × MVal F) : Except Fault (List Str) := do
  let n ← vv.2.getInt
  if strVal then do
    let m ← rdI D.valueIds vv.1
    let key := match m.find? (fun p => p.2 = n) with
      | some p => p.1
      | none => []
    if key = [] then .error .exit else wrI value vv.1 key
  else wrI value vv.1 (intToStr n)

/-- Dataset.cpp 614-692 `StoreCSVData`: the bytes of the file. -/
def MDataset.storeCSV (D : MDataset F) (strVal : Bool) : Except Fault Str :=
  if D.varNames = [] || (strVal && D.valueIds = []) then .error .exit
  else if D.numVars ≠ D.varNames.length then .error .exit
  else do
    let names ← popBack (D.varNames.flatMap (fun n => n ++ [44]))
    (List.range D.numInstance).foldlM (fun out i => do
      let row ← rd D.rows i
      let value ← row.foldlM (storeCellM D strVal) (List.replicate D.numVars [])
      let sample ← popBack (value.flatMap (fun v => v ++ [44]))
      return out ++ sample ++ [10]) (names ++ [10])

/-! ### LIBSVM -/

/-- Dataset.cpp 84-92, 105-112, 202-210, 229-236: a value of the variable `index`. -/
def parseVal (stof : Str → Except Fault F) (cont : List Int) (index : Int) (s : Str) : Except Fault (MVal F) :=
  if index ∈ cont then do return .flt (← stof s)
  else do return .int (← stoi s)

/-- Dataset.cpp 97-118: one feature. -/
def svmTrainFeatureM (stof : Str → Except Fault F) (cont : List Int) (st : List (Int × MVal F) × Int) (feature : Str) :
    Except Fault (List (Int × MVal F) × Int) := do
  let parts ← split feature [58]
  let index ← stoi (← rd parts 0)
  let value ← parseVal stof cont index (← rd parts 1)
  return (st.1 ++ [(index, value)], if index > st.2 then index else st.2)

/-- Dataset.cpp 74-121: one line.  The label is parsed as a value of variable 0, whatever the class variable is (84, 89). -/
def svmTrainLineM (stof : Str → Except Fault F) (cont : List Int) (cls : Int) (st : List (List (Int × MVal F)) × Int) (sample : Str) :
    Except Fault (List (List (Int × MVal F)) × Int) := do
  let parsed ← split (trimRight sample) [32]
  let label ← parseVal stof cont 0 (← rd parsed 0)
  let (row, m) ← (parsed.drop 1).foldlM (svmTrainFeatureM stof cont) ([(cls, label)], st.2)
  return (st.1 ++ [row], m)

/-- Dataset.cpp 55-162 `LoadLIBSVMTrainingData` on a new data set.  Line 151 reads `dataset_columns`. -/
def loadLIBSVMTrainingM (stof : Str → Except Fault F) (file : Str) (cls : Int) (cont : List Int) : Except Fault (MDataset F) := do
  let (rows, m) ← whileGetline (svmTrainLineM stof cont cls) (file.length + 2) ([], -1) [] { rest := file }
  let numVars := (m + 1).toNat
  let D : MDataset F := { numInstance := rows.length, numVars := numVars, classVar := cls,
                          varNames := (List.range numVars).map (fun i : Nat => intToStr i), rows := rows }
  let D ← D.arrays cont
  let numValues ← (List.range numVars).mapM (fun i => do
    let m ← (List.range D.numInstance).foldlM (fun (m : Int) j => do
      let v ← rd (← rd (← derefArr D.columns) i) j
      return if v > m then v else m) (-1)
    return m + 1)
  return { D with numValues := numValues, valueIds := List.replicate numVars [] }

/-- Dataset.cpp 214-239: one feature of a test line. -/
def svmTestFeatureM (stof : Str → Except Fault F) (cont : List Int) (numVars : Nat) (row : List (Int × MVal F)) (feature : Str) :
    Except Fault (List (Int × MVal F)) := do
  let parts ← split feature [58]
  let index ← stoi (← rd parts 0)
  if index ≥ numVars then return row
  else do
    let value ← parseVal stof cont index (← rd parts 1)
    wrI row index (index, value)

/-- Dataset.cpp 180-284: one test line.  Missing features are 0 of their kind (191-198; `zero` is the `float` 0). -/
def svmTestLineM (stof : Str → Except Fault F) (zero : F) (cont : List Int) (numVars : Nat) (cls : Int) (rows : List (List (Int × MVal F)))
    (sample : Str) : Except Fault (List (List (Int × MVal F))) := do
  let parsed ← split (trimRight sample) [32]
  let label ← parseVal stof cont 0 (← rd parsed 0)
  let row ← wrI ((List.range numVars).map (fun i : Nat => ((i : Int), if (i : Int) ∈ cont then MVal.flt zero else .int 0))) cls (cls, label)
  let row ← (parsed.drop 1).foldlM (svmTestFeatureM stof cont numVars) row
  return rows ++ [row]

/-- Dataset.cpp 164-299 `LoadLIBSVMTestingData` -/
def MDataset.loadLIBSVMTesting (stof : Str → Except Fault F) (zero : F) (D : MDataset F) (file : Str) (cls : Int) (cont : List Int) :
    Except Fault (MDataset F) := do
  let (sample, f) := getline { rest := file } []
  let rows ← whileNotEof (svmTestLineM stof zero cont D.numVars cls) (file.length + 2) D.rows sample f
  return { D with rows := rows, numInstance := rows.length, classVar := cls }

end FastPGM
