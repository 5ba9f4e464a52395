import Verif.Model.RoundedTest
import Verif.Spec.Dependence
import Mathlib.Data.Int.Log
import Mathlib.Algebra.Order.Round
import Mathlib.Analysis.SpecialFunctions.Log.Basic

/-!
Machine arithmetic for the independence tests, and what an independence test that is far enough from its threshold is.
-/

namespace FastPGM.Spec

open FastPGM

/-- The machine number `y` is the exact result `x` rounded: relative error `u`, or absolute error `u * tiny` below `tiny`. -/
def RoundedTo (u tiny x y : ℝ) : Prop := |y - x| ≤ u * max |x| tiny

/-- Counts below 2^53 and the constants are machine numbers; the operations and the logarithm round results up to `hi`. -/
structure AccurateOps (o : DoubleOps ℝ) (u tiny hi : ℝ) : Prop where
  zero : o.zero = 0
  two : o.two = 2
  ofCount : ∀ n < 2 ^ 53, o.ofCount n = n
  add : ∀ a b, |a + b| ≤ hi → RoundedTo u tiny (a + b) (o.add a b)
  mul : ∀ a b, |a * b| ≤ hi → RoundedTo u tiny (a * b) (o.mul a b)
  div : ∀ a b, b ≠ 0 → |a / b| ≤ hi → RoundedTo u tiny (a / b) (o.div a b)
  log : ∀ a, 0 < a → |Real.log a| ≤ hi → RoundedTo u tiny (Real.log a) (o.log a)

/-- The p-values, one minus what the library returns, are accurate up to `π`, where `F` is the distribution function (0 for negative
arguments). -/
def AccurateTail (o : DoubleOps ℝ) (F : ℝ → Nat → ℝ) (π : ℝ) : Prop :=
  ∀ g df, 0 < df → ∃ q, o.pchisq g df = some q ∧ |o.sub o.one q - (1 - F (max g 0) df)| ≤ π

/-- An upper bound of the number of cells of the contingency table that are not empty. -/
def cellBound (card : Nat → Nat) (m x y : Nat) (z : List Nat) : Nat := min m ((z ++ [x, y]).map card).prod

/-- The bound of the rounding error of the statistic, for `m` instances and `c` cells. -/
noncomputable def statisticError (u : ℝ) (m c : Nat) : ℝ := (1 + u) ^ c * u * m * (8 * (Real.log m + 2) + 2 * c * Real.log m)

/-- The exact p-value of the test is on one side of `alpha` even if the statistic changes by `B` and the p-value by `π`. -/
def ClearTest (F : ℝ → Nat → ℝ) (alpha π B : ℝ) (card : Nat → Nat) (rows : List Assignment) (x y : Nat) (z : List Nat) : Prop :=
  degrees card rows x y z = 0 ∨
    alpha + π < 1 - F (gSquare Real.log card rows x y z + B) (degrees card rows x y z) ∨
    1 - F (max (gSquare Real.log card rows x y z - B) 0) (degrees card rows x y z) + π ≤ alpha

/-- A number with 53 significant bits nearest to `x`; below 2^-1022 a multiple of 2^-1074.  Nothing is said about results above 2^1023 (0 here). -/
noncomputable def nearestDouble (x : ℝ) : ℝ :=
  if 2 ^ (1023 : ℤ) < |x| then 0
  else (round (x * 2 ^ (52 - max (Int.log 2 |x|) (-1022))) : ℝ) / 2 ^ (52 - max (Int.log 2 |x|) (-1022))

/-- The arithmetic of `double`s, with correctly rounded operations and logarithm. -/
noncomputable def doubleOps (pchisq : ℝ → Nat → Option ℝ) : DoubleOps ℝ where
  zero := 0
  one := 1
  two := 2
  ofCount n := n
  add a b := nearestDouble (a + b)
  sub a b := nearestDouble (a - b)
  mul a b := nearestDouble (a * b)
  div a b := nearestDouble (a / b)
  log a := nearestDouble (Real.log a)
  pchisq := pchisq

end FastPGM.Spec
