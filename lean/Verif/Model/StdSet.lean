import Mathlib.Data.List.Basic

/-!
`std::set<int>` as a strictly increasing list.
-/

namespace FastPGM

/-- `s.insert(x)`. -/
def setInsert (x : Nat) : List Nat → List Nat
  | [] => [x]
  | y :: ys => if x < y then x :: y :: ys else if x = y then y :: ys else y :: setInsert x ys

/-- `std::set<int>(l.begin(), l.end())` / repeated insertion. -/
def sortedSet (l : List Nat) : List Nat :=
  l.foldl (fun s x => setInsert x s) []

end FastPGM
