import Verif.Spec.Posterior
import Verif.Spec.Random
import Mathlib.Topology.Algebra.Order.Field

/-!
Specification side of learning a graph from more and more samples.
-/

namespace FastPGM.Spec

open FastPGM

/-- Probability, under `p`, that the variables `vs` have their values in `a`. -/
def marginal {K : Type} [Field K] (card : Nat → Nat) (n : Nat) (p : Assignment → K) (vs : List Nat) (a : Assignment) : K :=
  weight card n p (Agrees (observed a vs))

/-- Under `p`, `x` and `y` are independent given `z`: P(x,y,z) P(z) = P(x,z) P(y,z) for all values. -/
def CondIndependent {K : Type} [Field K] (card : Nat → Nat) (n : Nat) (p : Assignment → K) (x y : Nat) (z : List Nat) : Prop :=
  ∀ a, InRange card (List.range n) a →
    marginal card n p (z ++ [x, y]) a * marginal card n p z a = marginal card n p (z ++ [x]) a * marginal card n p (z ++ [y]) a

/-- Significance levels `alpha m` for `m` samples that tend to 0, but slowly compared to the tails of the chi-square distributions: a
statistic that grows in proportion to `m` is significant in the end.  `F` is the chi-square distribution function for a positive number of
degrees of freedom; it is increasing and less than 1. -/
structure SlowLevels (pchisq : ℝ → Nat → Option ℝ) (F : ℝ → Nat → ℝ) (alpha : Nat → ℝ) : Prop where
  some : ∀ g df, 0 < df → 0 ≤ g → pchisq g df = some (F g df)
  mono : ∀ g h df, 0 < df → 0 ≤ g → g ≤ h → F g df ≤ F h df
  lt_one : ∀ g df, 0 < df → 0 ≤ g → F g df < 1
  zero : Filter.Tendsto alpha Filter.atTop (nhds 0)
  slow : ∀ c df, 0 < c → 0 < df → ∀ᶠ m : Nat in Filter.atTop, 1 - F (c * m) df ≤ alpha m

end FastPGM.Spec
