import Verif.Model.JunctionTreeRun
import Verif.Model.Dataset

/-!
Model of the evaluation of approximate distributions (src/fastpgm/inference/Inference.cpp 105-203, JunctionTree.cpp 1399-1470 with `mode = 0`).

`sqrt` is `std::sqrt` on numbers that are not negative; the square root of a negative number, and 0/0, is the outcome `nan`.  `trunc` is the
conversion of a double to `long long`; numbers outside of `long long` are not modelled.
-/

namespace FastPGM

variable {K : Type}

/-- Inference.cpp 192-203 `Round`. -/
def roundTo [Field K] (trunc : K → Int) (number : K) (bits : Nat) : K :=
  let integerpart := trunc number
  let number := number - (integerpart : K)
  let number := (List.range bits).foldl (fun x _ => x * 10) number
  let number := (trunc (number + 1 / 2) : K)
  let number := (List.range bits).foldl (fun x _ => x / 10) number
  (integerpart : K) + number

/-- Inference.cpp 156-169 `CalculateMSE`. -/
def calculateMSE [Field K] [LinearOrder K] (trunc : K → Int) (sqrt : K → K) (exact approx : List K) : Except Fault K := do
  let (num, error) ← (List.range exact.length).foldlM (fun (acc : Nat × K) i => do
    let e ← rd exact i
    if 0 < e then do
      let a ← rd approx i
      let d := roundTo trunc a 7 - e
      return (acc.1 + 1, acc.2 + d * d)
    else return acc) (0, 0)
  if num = 0 then .error .nan else return sqrt (error / (num : K))

/-- Inference.cpp 176-190 `CalculateHellingerDistance`. -/
def calculateHellinger [Field K] [LinearOrder K] (trunc : K → Int) (sqrt : K → K) (exact approx : List K) : Except Fault K := do
  let (num, error) ← (List.range exact.length).foldlM (fun (acc : Nat × K) i => do
    let e ← rd exact i
    if 0 < e then do
      let a ← rd approx i
      if roundTo trunc a 7 < 0 then .error .nan
      else do
        let d := sqrt (roundTo trunc a 7) - sqrt e
        return (acc.1 + 1, acc.2 + d * d)
    else return acc) (0, 0)
  if num = 0 then .error .nan else return sqrt (error / (num : K))

/-- Inference.cpp 134-147: one line of the file of reference distributions. -/
def truthLine [Neg K] [One K] (stod : Str → Except Fault K) (dim : Nat) (acc : List K × Nat) (line : Str) : Except Fault (List K × Nat) := do
  if line = [] then do
    let t ← wr acc.1 acc.2 (-1)
    return (t, acc.2 + 1)
  else do
    let parsed ← split line [32]
    (List.range dim).foldlM (fun (acc : List K × Nat) k => do
      let p ← stod (← rd parsed k)
      let t ← wr acc.1 acc.2 p
      return (t, acc.2 + 1)) acc

/-- Inference.cpp 109-149 `LoadGroundTruthProbabilityTable` for a file that can be opened; `dims` are the domain sizes of the nodes. -/
def loadGroundTruth [Neg K] [One K] [Zero K] (stod : Str → Except Fault K) (dims : List Nat) (instances : Nat) (file : Str) :
    Except Fault (List (List K)) := do
  let (tables, _) ← (List.range instances).foldlM (fun (st : List (List K) × Str × InFile) _ => do
    let (table, _, line, f) ← dims.foldlM (fun (st : List K × Nat × Str × InFile) dim => do
      let (table, l, line, f) := st
      let (line, f) := getline f line
      let line := trimRight line
      let (table, l) ← truthLine stod dim (table, l) line
      return (table, l, line, f)) (List.replicate dims.sum 0, 0, st.2.1, st.2.2)
    return (st.1 ++ [table], line, f)) ([], [], { rest := file })
  return tables

/-- JunctionTree.cpp 1438-1470 `Predict` with `mode = 0`: the printed averages of the two error measures. -/
def JTree.evaluate [Field K] [LinearOrder K] (trunc : K → Int) (sqrt : K → K) (J : JTree K) (evidences : List (List (Nat × Nat)))
    (truths : List (List K)) : Except Fault (K × K) := do
  let (mse, hd, _) ← evidences.zipIdx.foldlM (fun (st : K × K × JTree K) E => do
    if evidences.length / 20 = 0 then .error .ub
    else do
      let (probs, J) ← st.2.2.probabilities E.1
      let exact ← rd truths E.2
      let m ← calculateMSE trunc sqrt exact probs
      let h ← calculateHellinger trunc sqrt exact probs
      return (st.1 + m, st.2.1 + h, J)) (0, 0, J)
  if evidences.length = 0 then .error .nan else return (mse / (evidences.length : K), hd / (evidences.length : K))

end FastPGM
