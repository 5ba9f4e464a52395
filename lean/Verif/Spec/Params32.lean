import Verif.Model.Params

/-!
Sizes within which parameter learning stays inside 32-bit integers.
-/

namespace FastPGM.Spec

/-- Every node's table has fewer than 2³¹ entries, and the smoothing parameter times the number of values of every node is less than
2³¹. -/
def LearnFits (N : Net) (card : Nat → Nat) (alpha : Int) : Prop :=
  ∀ (i : Nat) s, N.nodes[i]? = some s → ((i :: s.parents).map card).prod < 2 ^ 31 ∧ alpha * (card i : Int) < 2 ^ 31

end FastPGM.Spec
