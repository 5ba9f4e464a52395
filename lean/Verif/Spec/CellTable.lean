import Verif.Spec.Params

/-!
Specification side of the contingency tables and of the G² test of conditional independence.
-/

namespace FastPGM.Spec

open FastPGM

variable {K : Type}

/-- The contribution `2 O log (O / E)` of one cell, `E = N(x,z) N(y,z) / N(z)` being the expected number; empty cells contribute
nothing. -/
def gTerm [Field K] (log : K → K) (nxyz nxz nyz nz : Nat) : K :=
  if nxyz = 0 then 0 else 2 * (nxyz : K) * log ((nxyz : K) / ((nyz : K) * (nxz : K) / (nz : K)))

/-- The G² statistic of `x` and `y` given `z`: the sum over all values of the variables. -/
def gSquare [Field K] (log : K → K) (card : Nat → Nat) (rows : List Assignment) (x y : Nat) (z : List Nat) : K :=
  sumOut card (z ++ [x, y]) (fun a => gTerm log (countSame rows (z ++ [x, y]) a) (countSame rows (z ++ [x]) a)
    (countSame rows (z ++ [y]) a) (countSame rows z a)) (fun _ => 0)

/-- How many values of `v` occur together with the values `a` gives to `z`. -/
def observedValues (card : Nat → Nat) (rows : List Assignment) (v : Nat) (z : List Nat) (a : Assignment) : Nat :=
  ((Finset.range (card v)).filter (fun w => 0 < countSame rows (z ++ [v]) (a.set v w))).card

/-- Adjusted degrees of freedom: the sum over the values of `z` of `(r-1)(s-1)`, `r` and `s` being the numbers of values of `x` and `y`
that occur (a factor is 0 if none occurs). -/
def degrees (card : Nat → Nat) (rows : List Assignment) (x y : Nat) (z : List Nat) : Nat :=
  sumOut card z (fun a => (observedValues card rows x z a - 1) * (observedValues card rows y z a - 1)) (fun _ => 0)

/-- The verdict of the test: independent if there is no degree of freedom or the p-value `1 - F(G²)` exceeds `alpha`
(`pchisq` gives `none` for NaN, and a comparison with NaN is false). -/
def Independent [Field K] [LinearOrder K] (log : K → K) (pchisq : K → Nat → Option K) (alpha : K) (card : Nat → Nat)
    (rows : List Assignment) (x y : Nat) (z : List Nat) : Prop :=
  degrees card rows x y z = 0 ∨
    ∃ q, pchisq (gSquare log card rows x y z) (degrees card rows x y z) = some q ∧ alpha < 1 - q

end FastPGM.Spec
