import Verif.Spec.Params
import Verif.Spec.Dataset
import Mathlib.Algebra.Order.Field.Basic

/-!
Specification side of sampling.
-/

namespace FastPGM.Spec

open FastPGM

variable {K ω : Type}

/-- What the standard promises about `discrete_distribution`: for weights that are not negative and not all zero, it returns the index
of a positive weight. -/
def DrawsPossible [Zero K] [LE K] [LT K] (draw : List K → ω → Except Fault Nat) : Prop :=
  ∀ w r, (∀ p ∈ w, 0 ≤ p) → (∃ p ∈ w, 0 < p) → ∃ k p, draw w r = .ok k ∧ w[k]? = some p ∧ 0 < p

/-- The values of a sample as an assignment. -/
def asg (s : List Nat) : Assignment := fun v => s.getD v 0

/-- A conditional distribution at every parent configuration: values not negative, one of them positive. -/
def Weights [Zero K] [LE K] [LT K] (card : Nat → Nat) (ps : List Nat) (d : Nat) (prob : Nat → Config → Except Fault K) : Prop :=
  ∀ u, IsParentConfig card ps u → (∀ x < d, ∃ p, prob x u = .ok p ∧ 0 ≤ p) ∧ ∃ x < d, ∃ p, prob x u = .ok p ∧ 0 < p

end FastPGM.Spec
