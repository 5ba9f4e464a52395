import Verif.Model.Dataset

/-!
Specification side of the value names in a network file.
-/

namespace FastPGM.Spec

open FastPGM

/-- `p` is the last position of `s`. -/
def LastPosition (texts : List Str) (s : Str) (p : Nat) : Prop := texts[p]? = some s ∧ ∀ q, p < q → texts[q]? ≠ some s

end FastPGM.Spec
