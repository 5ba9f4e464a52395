import Mathlib.Data.Finset.Union

/-!
Model of the combinations of sets in common.h.
-/

namespace FastPGM

variable {T : Type} [DecidableEq T]

/-- common.h 65-95 `GenAllCombinationsFromSets`.  The list holds the sets in the order of the outer `std::set`; the result is paired with what
remains in the argument. -/
def genAllCombinations : List (Finset T) → Finset (Finset T) × List (Finset T)
  | [] => (∅, [])
  | [A] => (A.image (fun p => {p}), [A])
  | A :: B :: l =>
    let (temp, rest) := genAllCombinations (B :: l)
    (A.biUnion (fun p => temp.image (insert p)), rest)

end FastPGM
