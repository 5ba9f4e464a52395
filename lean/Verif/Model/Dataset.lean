import Verif.Model.Strings

/-!
Model of src/fastpgm/Dataset.cpp: loading and storing of LIBSVM and CSV files, row-major and column-major arrays.

Files are byte strings; a file that cannot be opened ends the program and is left out.  Only discrete data is modelled
(`cont_vars` empty), so a `VarVal` is a pair of integers.
-/

namespace FastPGM

/-! ### Streams -/

/-- An `ifstream`: the bytes not read yet and the two state bits. -/
structure InFile where
  rest : Str
  eof : Bool := false
  fail : Bool := false
  deriving DecidableEq, Repr

/-- `std::getline(in, s)`: for a stream that is not good, `s` keeps its value `old`; otherwise `s` receives the bytes up to the next
newline (which is removed) or the end of the file, `eof` is set if the end was met and `fail` if no byte was extracted. -/
def getline (f : InFile) (old : Str) : Str × InFile :=
  if f.eof || f.fail then (old, { f with fail := true })
  else
    let line := f.rest.takeWhile (· ≠ 10)
    match f.rest.dropWhile (· ≠ 10) with
    | [] => (line, { rest := [], eof := true, fail := line = [] })
    | _ :: rest => (line, { rest := rest })

/-! ### Numbers -/

/-- The decimal digits of a natural number. -/
def natDigits (n : Nat) : Str := if n < 10 then [48 + (n : Int)] else natDigits (n / 10) ++ [48 + ((n % 10 : Nat) : Int)]
termination_by n
decreasing_by omega

/-- `std::to_string(int)` -/
def intToStr (i : Int) : Str := if i < 0 then 45 :: natDigits i.natAbs else natDigits i.natAbs

/-- `isspace` in the C locale. -/
def isSpace (c : Int) : Bool := (9 ≤ c && c ≤ 13) || c = 32

/-- A decimal digit. -/
def isDigit (c : Int) : Bool := 48 ≤ c && c ≤ 57

/-- The value of a digit string. -/
def digitsVal (s : Str) : Int := s.foldl (fun a c => a * 10 + (c - 48)) 0

/-- `int` range. -/
def inInt (i : Int) : Bool := -2147483648 ≤ i && i ≤ 2147483647

/-- The sign and the digits `strtol` sees: white space is skipped, then an optional sign, then the longest run of digits. -/
def numberPart (s : Str) : Bool × Str :=
  match s.dropWhile isSpace with
  | 45 :: cs => (true, cs.takeWhile isDigit)
  | 43 :: cs => (false, cs.takeWhile isDigit)
  | cs => (false, cs.takeWhile isDigit)

/-- `std::stoi`: throws if there is no digit or the number does not fit in an `int`. -/
def stoi (s : Str) : Except Fault Int :=
  let (neg, ds) := numberPart s
  let i := if neg then - digitsVal ds else digitsVal ds
  if ds = [] then .error .throw
  else if inInt i then .ok i else .error .throw

/-! ### Data sets -/

/-- `map<string, int>`; the order of the list is not modelled. -/
abbrev ValueMap := List (Str × Int)

/-- `map::find` -/
def ValueMap.find (m : ValueMap) (s : Str) : Option Int := m.lookup s

/-- Dataset.h 19-34 -/
structure Dataset where
  numInstance : Nat := 0
  numVars : Nat := 0
  classVar : Int := -1
  varNames : List Str := []
  /-- `vars_possible_values_ids` -/
  valueIds : List ValueMap := []
  /-- `num_of_possible_values_of_disc_vars` -/
  numValues : List Int := []
  /-- `dataset_all_vars` -/
  allVars : List (List Int) := []
  /-- `dataset_columns` -/
  columns : List (List Int) := []
  /-- `vector_dataset_all_vars` -/
  rows : List (List (Int × Int)) := []
  deriving DecidableEq, Repr

/-- Read an array at an `int` position. -/
def rdI {α : Type} (l : List α) (i : Int) : Except Fault α := if i < 0 then .error .ub else rd l i.toNat

/-- Write an array at an `int` position. -/
def wrI {α : Type} (l : List α) (i : Int) (a : α) : Except Fault (List α) := if i < 0 then .error .ub else wr l i.toNat a

/-- Dataset.cpp 834-840: one row of `Vector2IntArray`. -/
def intRow (numVars : Nat) (row : List (Int × Int)) : Except Fault (List Int) :=
  row.foldlM (fun acc vv => wrI acc vv.1 vv.2) (List.replicate numVars 0)

/-- Dataset.cpp 828-842 `Vector2IntArray` -/
def Dataset.vector2IntArray (D : Dataset) : Except Fault Dataset := do
  let all ← (List.range D.numInstance).mapM (fun s => do intRow D.numVars (← rd D.rows s))
  return { D with allVars := all }

/-- Dataset.cpp 848-858 `RowMajor2ColumnMajor` -/
def Dataset.rowMajor2ColumnMajor (D : Dataset) : Except Fault Dataset := do
  let cols ← (List.range D.numVars).mapM (fun i =>
    (List.range D.numInstance).mapM (fun j => do rd (← rd D.allVars j) i))
  return { D with columns := cols }

/-! ### CSV -/

/-- `getline` on a new `ifstream`, and a second one into the same string. -/
def readTwo (file : Str) : Str × Str × InFile :=
  let (header, f) := getline { rest := file } []
  let (sample, f) := getline f header
  (header, sample, f)

/-- `do { body } while (getline(in_file, sample));`.  Every round but the last consumes a byte, so `file.length + 1` rounds are enough. -/
def doWhileGetline {σ : Type} (body : σ → Str → Except Fault σ) : Nat → σ → Str → InFile → Except Fault σ
  | 0, _, _, _ => .error .ub
  | fuel + 1, st, sample, f => do
    let st ← body st sample
    let (sample, f) := getline f sample
    if f.fail then return st
    else doWhileGetline body fuel st sample f

/-- State of the training loop: `counter`, `vars_possible_values_ids` (whose keys are also the sets of
`map_disc_vars_string_values`) and the rows. -/
structure CsvState where
  counter : List Int
  ids : List ValueMap
  rows : List (List (Int × Int))
  deriving DecidableEq, Repr

/-- Dataset.cpp 448-476: one cell. -/
def trainCell (strVal : Bool) (parsed : List Str) (st : CsvState × List (Int × Int)) (i : Nat) : Except Fault (CsvState × List (Int × Int)) := do
  let cell ← rd parsed i
  if strVal then
    let m ← rd st.1.ids i
    match m.find cell with
    | none => do
      let c ← rd st.1.counter i
      return ({ st.1 with counter := st.1.counter.set i (c + 1), ids := st.1.ids.set i (m ++ [(cell, c + 1)]) }, st.2 ++ [((i : Int), c + 1)])
    | some v => return (st.1, st.2 ++ [((i : Int), v)])
  else do
    let v ← stoi cell
    return (st.1, st.2 ++ [((i : Int), v)])

/-- Dataset.cpp 440-478: one line. -/
def trainLine (numVars : Nat) (strVal : Bool) (st : CsvState) (sample : Str) : Except Fault CsvState := do
  let parsed ← split (trimRight sample) [44]
  let (st, row) ← (List.range numVars).foldlM (trainCell strVal parsed) (st, [])
  return { st with rows := st.rows ++ [row] }

/-- Dataset.cpp 389-503 `LoadCSVTrainingData` on a new data set. -/
def loadCSVTraining (file : Str) (strVal : Bool) (cls : Int) : Except Fault Dataset := do
  let (header, sample, f) := readTwo file
  let numVars := header.countP (· = 44) + 1
  let names ← split (trimRight header) [44]
  if ¬ names.Nodup then .error .exit
  else do
    let st ← doWhileGetline (trainLine numVars strVal) (file.length + 1)
      { counter := List.replicate numVars (-1), ids := List.replicate numVars [], rows := [] } sample f
    let numValues ← (List.range numVars).mapM (fun i => do return ((← rd st.ids i).length : Int))
    let D : Dataset := { numInstance := st.rows.length, numVars := numVars, classVar := cls, varNames := names, valueIds := st.ids,
                         numValues := numValues, rows := st.rows }
    let D ← D.vector2IntArray
    D.rowMajor2ColumnMajor

/-- Dataset.cpp 555-590: one cell of a test line. -/
def testCell (ids : List ValueMap) (strVal : Bool) (parsed : List Str) (row : List (Int × Int)) (i : Nat) : Except Fault (List (Int × Int)) := do
  let cell ← rd parsed i
  if cell = [] then return row
  else if strVal then do
    let m ← rd ids i
    match m.find cell with
    | some v => return row ++ [((i : Int), v)]
    | none => return row
  else do
    let v ← stoi cell
    return row ++ [((i : Int), v)]

/-- Dataset.cpp 546-592: one test line. -/
def testLine (ids : List ValueMap) (numVars : Nat) (strVal : Bool) (rows : List (List (Int × Int))) (sample : Str) :
    Except Fault (List (List (Int × Int))) := do
  let parsed ← split (trimRight sample) [44]
  let row ← (List.range numVars).foldlM (testCell ids strVal parsed) []
  return rows ++ [row]

/-- Dataset.cpp 511-603 `LoadCSVTestingData`, on a data set that has the value maps of the training data (constructor of lines 15-18). -/
def Dataset.loadCSVTesting (D : Dataset) (file : Str) (strVal : Bool) (cls : Int) : Except Fault Dataset :=
  if strVal && D.valueIds = [] then .error .exit
  else do
    let (_, sample, f) := readTwo file
    let rows ← doWhileGetline (testLine D.valueIds D.numVars strVal) (file.length + 1) D.rows sample f
    return { D with rows := rows, numInstance := rows.length, classVar := cls }

/-- Dataset.cpp 15-18: a data set for testing made from a training data set. -/
def Dataset.forTesting (D : Dataset) : Dataset := { valueIds := D.valueIds, numVars := D.numVars }

/-- `s.pop_back()` -/
def popBack (s : Str) : Except Fault Str := if s = [] then .error .ub else .ok s.dropLast

/-- Dataset.cpp 656-679: the text of one value. -/
def storeCell (D : Dataset) (strVal : Bool) (value : List Str) (vv : Int × Int) : Except Fault (List Str) :=
  if strVal then do
    let m ← rdI D.valueIds vv.1
    let key := match m.find? (fun p => p.2 = vv.2) with
      | some p => p.1
      | none => []
    if key = [] then .error .exit else wrI value vv.1 key
  else wrI value vv.1 (intToStr vv.2)

/-- Dataset.cpp 614-692 `StoreCSVData`: the bytes of the file. -/
def Dataset.storeCSV (D : Dataset) (strVal : Bool) : Except Fault Str :=
  if D.varNames = [] || (strVal && D.valueIds = []) then .error .exit
  else if D.numVars ≠ D.varNames.length then .error .exit
  else do
    let names ← popBack (D.varNames.flatMap (fun n => n ++ [44]))
    (List.range D.numInstance).foldlM (fun out i => do
      let row ← rd D.rows i
      let value ← row.foldlM (storeCell D strVal) (List.replicate D.numVars [])
      let sample ← popBack (value.flatMap (fun v => v ++ [44]))
      return out ++ sample ++ [10]) (names ++ [10])

/-! ### LIBSVM -/

/-- `while (getline(in_file, sample)) { body }` -/
def whileGetline {σ : Type} (body : σ → Str → Except Fault σ) : Nat → σ → Str → InFile → Except Fault σ
  | 0, _, _, _ => .error .ub
  | fuel + 1, st, sample, f =>
    let (sample, f) := getline f sample
    if f.fail then .ok st
    else do
      let st ← body st sample
      whileGetline body fuel st sample f

/-- `getline; while (!in_file.eof()) { body; getline }`, after the first `getline`. -/
def whileNotEof {σ : Type} (body : σ → Str → Except Fault σ) : Nat → σ → Str → InFile → Except Fault σ
  | 0, _, _, _ => .error .ub
  | fuel + 1, st, sample, f =>
    if f.eof then .ok st
    else do
      let st ← body st sample
      let (sample, f) := getline f sample
      whileNotEof body fuel st sample f

/-- Dataset.cpp 97-118: one feature; the state is the row and `max_index_occurred`. -/
def svmTrainFeature (st : List (Int × Int) × Int) (feature : Str) : Except Fault (List (Int × Int) × Int) := do
  let parts ← split feature [58]
  let index ← stoi (← rd parts 0)
  let value ← stoi (← rd parts 1)
  return (st.1 ++ [(index, value)], if index > st.2 then index else st.2)

/-- Dataset.cpp 74-121: one line. -/
def svmTrainLine (cls : Int) (st : List (List (Int × Int)) × Int) (sample : Str) : Except Fault (List (List (Int × Int)) × Int) := do
  let parsed ← split (trimRight sample) [32]
  let label ← stoi (← rd parsed 0)
  let (row, m) ← (parsed.drop 1).foldlM svmTrainFeature ([(cls, label)], st.2)
  return (st.1 ++ [row], m)

/-- Dataset.cpp 55-162 `LoadLIBSVMTrainingData` on a new data set. -/
def loadLIBSVMTraining (file : Str) (cls : Int) : Except Fault Dataset := do
  let (rows, m) ← whileGetline (svmTrainLine cls) (file.length + 2) ([], -1) [] { rest := file }
  let numVars := (m + 1).toNat
  let D : Dataset := { numInstance := rows.length, numVars := numVars, classVar := cls,
                       varNames := (List.range numVars).map (fun i : Nat => intToStr i), rows := rows }
  let D ← D.vector2IntArray
  let D ← D.rowMajor2ColumnMajor
  let numValues ← (List.range numVars).mapM (fun i => do
    let m ← (List.range D.numInstance).foldlM (fun (m : Int) j => do
      let v ← rd (← rd D.columns i) j
      return if v > m then v else m) (-1)
    return m + 1)
  return { D with numValues := numValues, valueIds := List.replicate numVars [] }

/-- Dataset.cpp 214-239: one feature of a test line. -/
def svmTestFeature (numVars : Nat) (row : List (Int × Int)) (feature : Str) : Except Fault (List (Int × Int)) := do
  let parts ← split feature [58]
  let index ← stoi (← rd parts 0)
  if index ≥ numVars then return row
  else do
    let value ← stoi (← rd parts 1)
    wrI row index (index, value)

/-- Dataset.cpp 180-284: one test line. -/
def svmTestLine (numVars : Nat) (cls : Int) (rows : List (List (Int × Int))) (sample : Str) : Except Fault (List (List (Int × Int))) := do
  let parsed ← split (trimRight sample) [32]
  let label ← stoi (← rd parsed 0)
  let row ← wrI ((List.range numVars).map (fun i : Nat => ((i : Int), (0 : Int)))) cls (cls, label)
  let row ← (parsed.drop 1).foldlM (svmTestFeature numVars) row
  return rows ++ [row]

/-- Dataset.cpp 164-299 `LoadLIBSVMTestingData` -/
def Dataset.loadLIBSVMTesting (D : Dataset) (file : Str) (cls : Int) : Except Fault Dataset := do
  let (sample, f) := getline { rest := file } []
  let rows ← whileNotEof (svmTestLine D.numVars cls) (file.length + 2) D.rows sample f
  return { D with rows := rows, numInstance := rows.length, classVar := cls }

/-- Dataset.cpp 326-356: one line of the LIBSVM file, without the end of line.  If the class variable is missing, `label_pos` is -1 and
the erase is undefined. -/
def svmStoreRow (numVars : Nat) (cls : Int) (row : List (Int × Int)) : Except Fault Str :=
  if row.length ≠ numVars then .error .exit
  else match row.findIdx? (fun vv => vv.1 = cls) with
    | none => .error .ub
    | some pos => do
      let label ← rd row pos
      let rest := row.eraseIdx pos
      (List.range (numVars - 1)).foldlM (fun sample j => do
        let vv ← rd rest j
        return if vv.2 ≠ 0 then sample ++ intToStr vv.1 ++ [58] ++ intToStr vv.2 ++ [32] else sample) (intToStr label.2 ++ [32])

/-- Dataset.cpp 307-362 `StoreLIBSVMData`, the data file. -/
def Dataset.storeLIBSVM (D : Dataset) : Except Fault Str :=
  (List.range D.numInstance).foldlM (fun out i => do
    let line ← svmStoreRow D.numVars D.classVar (← rd D.rows i)
    return out ++ line ++ [10]) []

/-- Dataset.cpp 364-382: the file of the mappings (the order inside a map is not modelled). -/
def Dataset.storeMappings (D : Dataset) : Except Fault Str :=
  (List.range D.numVars).foldlM (fun out i => do
    let name ← rd D.varNames i
    let m ← rd D.valueIds i
    return out ++ name ++ [61] ++ intToStr i ++ [10] ++ m.flatMap (fun p => [32, 32] ++ p.1 ++ [61] ++ intToStr p.2 ++ [10])) []

end FastPGM
