import Verif.Spec.CellTable
import Mathlib.Data.Real.Basic

/-!
Specification side of what the test statistic measures.
-/

namespace FastPGM.Spec

open FastPGM

/-- In the data, `x` and `y` are independent given `z`: `N(x,y,z) N(z) = N(x,z) N(y,z)` for all values. -/
def IndependentInData (card : Nat → Nat) (rows : List Assignment) (x y : Nat) (z : List Nat) : Prop :=
  ∀ a, InRange card (z ++ [x, y]) a →
    countSame rows (z ++ [x, y]) a * countSame rows z a = countSame rows (z ++ [x]) a * countSame rows (z ++ [y]) a

/-- What is used of the chi-square distribution function for a positive number of degrees of freedom: it is defined, zero at zero and positive
after it. -/
structure ChiSquareLike (pchisq : ℝ → Nat → Option ℝ) (F : ℝ → Nat → ℝ) : Prop where
  some : ∀ g df, 0 < df → 0 ≤ g → pchisq g df = some (F g df)
  zero : ∀ df, 0 < df → F 0 df = 0
  pos : ∀ g df, 0 < df → 0 < g → 0 < F g df

end FastPGM.Spec
