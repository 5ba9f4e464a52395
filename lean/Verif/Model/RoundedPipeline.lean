import Verif.Model.RoundedLearning
import Verif.Spec.Rounding

/-!
Model of the classification command with all numbers of type `double` in machine arithmetic.
-/

namespace FastPGM

open Spec

variable {K : Type}

/-- fastpgm_api.cpp 96-135 `C_PCStable_JT` (see `classify`) in machine arithmetic: the independence tests compute with `o`, and the tables,
the junction tree and the accuracy with `ar`. -/
def classifyR {L : Type} [Field L] [LinearOrder L] [Field K] [LinearOrder K] (o : DoubleOps L) (ar : Arithmetic K) (X : Execution L) (alpha : L)
    (groupSize : Nat) (train test : Str) : Except Fault (Rounded ar) := do
  let trainer ← loadCSVTraining train true 0
  let tester ← trainer.forTesting.loadCSVTesting test true 0
  let (N, _) ← structLearnFullR o X alpha groupSize true true trainer
  let pts : List (Table (Rounded ar)) ← learnParams N trainer.natColumns trainer.numVars trainer.numInstance 1 X.rnd []
  let (evidences, truths) ← inferenceInit 1 tester.classVar.toNat tester.natRows
  let J ← buildJunctionTree N N.card pts X.order X.cord
  let (labels, _) ← J.predictAll evidences tester.classVar.toNat
  accuracy truths labels

end FastPGM
