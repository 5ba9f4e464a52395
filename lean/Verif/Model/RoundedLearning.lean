import Verif.Model.RoundedTest
import Verif.Model.Pipeline

/-!
Structure learning with the independence tests in machine arithmetic.
-/

namespace FastPGM

variable {K : Type}

/-- PCStable.cpp 26-84 `StructLearnCompData` (see `structLearnFull`), with the tests in the arithmetic `o`: the rest of the function computes with
integers only. -/
def structLearnFullR [Field K] [LinearOrder K] (o : DoubleOps K) (X : Execution K) (alpha : K) (groupSize : Nat) (dag addRoot : Bool) (D : Dataset) :
    Except Fault (Net × Nat) := do
  let dims ← assignNodeInformation D
  let _ ← checkAlpha alpha D.numVars
  let k ← learnSkeleton (ciTestR o alpha dims D.natColumns D.numInstance) D.numVars 1000 groupSize 128 X.order0 X.sched X.fuel
  let N ← orientPhase (D.numVars * (D.numVars - 1) / 2) X.bits dag X.fuel dims k
  if addRoot then do
    let roots ← N.findRoots
    let N ← N.addRootNode roots
    return (N, k.edges.length + roots.length)
  else return (N, k.edges.length)

end FastPGM
