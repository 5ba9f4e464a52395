import Verif.Spec.Params
import Mathlib.Data.Real.Basic

/-!
Specification side of maximum likelihood: the likelihood of a data set under conditional tables, and the weight of the smoothing.
-/

namespace FastPGM.Spec

open FastPGM

/-- Product over all values of the variables. -/
def prodOver {K : Type} [CommMonoid K] (card : Nat → Nat) : List Nat → (Assignment → K) → Assignment → K
  | [], f, a => f a
  | v :: vs, f, a => ∏ x ∈ Finset.range (card v), prodOver card vs f (a.set v x)

/-- `θ` is a conditional probability table of variable `i` given `ps`. -/
structure IsConditional (card : Nat → Nat) (i : Nat) (ps : List Nat) (θ : Assignment → ℝ) : Prop where
  dep : ∀ a b, (∀ v ∈ i :: ps, a v = b v) → θ a = θ b
  nonneg : ∀ a, InRange card (i :: ps) a → 0 ≤ θ a
  sum : ∀ a, InRange card ps a → ∑ x ∈ Finset.range (card i), θ (a.set i x) = 1

/-- The probability of the instances, drawn independently from the network with the conditional tables `θ`. -/
noncomputable def likelihood (n : Nat) (rows : List Assignment) (θ : Nat → Assignment → ℝ) : ℝ :=
  (rows.map (fun r => ∏ i ∈ Finset.range n, θ i r)).prod

/-- The weight given to the tables themselves: as if every combination of a value and parent values had been seen `alpha` times more. -/
noncomputable def smoothing (card : Nat → Nat) (parents : Nat → List Nat) (alpha n : Nat) (θ : Nat → Assignment → ℝ) : ℝ :=
  ∏ i ∈ Finset.range n, prodOver card (parents i ++ [i]) (fun a => θ i a ^ alpha) (fun _ => 0)

/-- The parents of a node. -/
def parentsOf (N : Net) (i : Nat) : List Nat := ((N.nodes[i]?).map NodeS.parents).getD []

/-- The conditional probabilities stored in the tables. -/
noncomputable def tableValues (pts : List (Table ℝ)) (i : Nat) (a : Assignment) : ℝ := ((pts[i]?).map (fun T => value T a)).getD 0

end FastPGM.Spec
