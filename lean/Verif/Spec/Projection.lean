import Verif.Spec.Consistency
import Mathlib.Data.Real.Basic

/-!
Specification of what a distribution makes of a graph that need not be its own.
-/

namespace FastPGM.Spec

/-- P(`v` has its value in `a` | the variables `ps` have theirs) under `p`.  If the values of `ps` have probability 0, all values of `v` count
as equally probable. -/
noncomputable def conditional (card : Nat → Nat) (n : Nat) (p : Assignment → ℝ) (v : Nat) (ps : List Nat) (a : Assignment) : ℝ :=
  if marginal card n p ps a = 0 then 1 / card v else marginal card n p (v :: ps) a / marginal card n p ps a

/-- The distribution with the given parents that has the conditional distributions of `p`. -/
noncomputable def projection (card : Nat → Nat) (n : Nat) (p : Assignment → ℝ) (parents : Nat → List Nat) (a : Assignment) : ℝ :=
  ∏ v ∈ Finset.range n, conditional card n p v (parents v) a

end FastPGM.Spec
