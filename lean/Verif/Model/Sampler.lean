import Verif.Model.Params
import Verif.Model.Dataset
import Mathlib.Algebra.Order.Field.Basic

/-!
Model of the sample generator (src/fastpgm/SampleSetGenerator.cpp).

`std::discrete_distribution` is a parameter `draw`: given the weights and a piece of randomness it returns an index.  The engine, seeded
from the clock for every sample, is an arbitrary supply of randomness `rnd i t` for draw `t` of sample `i`.
-/

namespace FastPGM

variable {K ω : Type}

/-- SampleSetGenerator.cpp 24-30: the table of every node; `prob i` is the `GetProbability` of node `i`. -/
def sampleTables [Zero K] (N : Net) (prob : Nat → Nat → Config → Except Fault K) : Except Fault (List (Table K)) :=
  (List.range N.nodes.length).mapM (fun i => nodeTable N i (prob i))

/-- SampleSetGenerator.cpp 38-43: one variable of one sample. -/
def sampleNode [Zero K] (draw : List K → ω → Except Fault Nat) (cpts : List (Table K)) (sample : List Nat) (index : Nat) (r : ω) :
    Except Fault (List Nat) := do
  let T ← rd cpts index
  let d ← rd T.dims 0
  let weights ← getReducedPotentials T (List.replicate d 0) sample
  let k ← draw weights r
  wr sample index k

/-- SampleSetGenerator.cpp 36-44: one sample, in the topological order `ord`. -/
def sampleOne [Zero K] (draw : List K → ω → Except Fault Nat) (cpts : List (Table K)) (ord : List Nat) (rnd : Nat → ω)
    (sample : List Nat) : Except Fault (List Nat) :=
  ord.zipIdx.foldlM (fun s x => sampleNode draw cpts s x.1 (rnd x.2)) sample

/-- SampleSetGenerator.cpp 6-15 (the samples start as zeros) and 20-46 `GenerateSamplesBasedOnCPTs`; the network is returned because
`GetTopoOrd` keeps the order in it. -/
def generateSamples [Zero K] (draw : List K → ω → Except Fault Nat) (N : Net) (prob : Nat → Nat → Config → Except Fault K)
    (numSamples : Nat) (rnd : Nat → Nat → ω) : Except Fault (List (List Nat) × Net) := do
  let cpts ← sampleTables N prob
  (List.range numSamples).foldlM (fun st i => do
    let (ord, N) ← st.2.getTopoOrd
    let s ← sampleOne draw cpts ord (rnd i) (← rd st.1 i)
    return (← wr st.1 i s, N)) (List.replicate numSamples (List.replicate N.nodes.length 0), N)

/-- `std::discrete_distribution` by inversion, the way libstdc++ does it: the first index whose cumulated weight reaches the random
number `u`, the last one if rounding leaves none.  Negative weights or weights that are all zero violate its precondition. -/
def drawInverse [Field K] [LinearOrder K] (weights : List K) (u : K) : Except Fault Nat :=
  if (∃ p ∈ weights, p < 0) ∨ weights.sum = 0 then .error .ub
  else .ok (((List.range weights.length).find? (fun k => decide (u * weights.sum ≤ (weights.take (k + 1)).sum))).getD (weights.length - 1))

/-- SampleSetGenerator.cpp 61-74: the line of one sample, without the end of line. -/
def sampleLine (numNodes : Nat) (cls : Int) (sample : List Nat) : Except Fault Str := do
  let label ← rdI sample cls
  (List.range numNodes).foldlM (fun line (j : Nat) =>
    if (j : Int) ≠ cls then do
      let var ← rd sample j
      return if var ≠ 0 then line ++ (intToStr j ++ [58] ++ intToStr var ++ [32]) else line
    else return line) (intToStr label ++ [32])

/-- SampleSetGenerator.cpp 52-85 `OutputLIBSVM`: the text written. -/
def outputLIBSVM (numNodes numSamples : Nat) (cls : Int) (samples : List (List Nat)) : Except Fault Str :=
  (List.range numSamples).foldlM (fun out i => do
    let line ← sampleLine numNodes cls (← rd samples i)
    return out ++ line ++ [10]) []

end FastPGM
