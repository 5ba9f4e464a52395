import Mathlib.Probability.Distributions.Gamma
import Mathlib.Probability.CDF

/-!
The chi-square distribution.
-/

namespace FastPGM.Spec

open ProbabilityTheory

/-- The distribution function of the chi-square distribution with `df` degrees of freedom: the gamma distribution with shape `df / 2` and
rate `1 / 2`. -/
noncomputable def chiSquare (g : ℝ) (df : Nat) : ℝ := cdf (gammaMeasure ((df : ℝ) / 2) (1 / 2)) g

end FastPGM.Spec
