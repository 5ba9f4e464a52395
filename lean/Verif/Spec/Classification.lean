import Verif.Spec.Posterior

/-!
Classification: the value of one variable is predicted from the values of all others.
-/

namespace FastPGM.Spec

variable {K : Type}

/-- The values of all variables but `q`, as evidence. -/
def allBut (n q : Nat) (a : Assignment) : List (Nat × Nat) := ((List.range n).filter (fun v => v ≠ q)).map (fun v => (v, a v))

/-- The probability, under the distribution `p`, that a classifier which answers `label E` to the values `E` of the other variables finds the
value of `q`. -/
def hitRate [Field K] (card : Nat → Nat) (n : Nat) (p : Assignment → K) (q : Nat) (label : List (Nat × Nat) → Nat) : K :=
  weight card n p (fun a => a q = label (allBut n q a))

end FastPGM.Spec
