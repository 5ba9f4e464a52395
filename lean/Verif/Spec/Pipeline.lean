import Verif.Spec.Dataset
import Verif.Spec.Posterior
import Verif.Spec.Params

/-!
Specification of classification from two CSV files.
-/

namespace FastPGM.Spec

open FastPGM

variable {K : Type}

/-- Number of the text `s` in column `j` of the training table: its place in the order of first appearance. -/
def codeIn (train : List (List Str)) (j : Nat) (s : Str) : Nat := (firstSeen (column train j)).idxOf s

/-- Number of values of the variables of the training table; variable `n` is the additional ROOT with two values. -/
def valuesOf (train : List (List Str)) (n : Nat) : Nat → Nat := fun i =>
  if i < n then (firstSeen (column train i)).length else if i = n then 2 else 0

/-- A training row as an assignment. -/
def rowAssignment (train : List (List Str)) (r : List Str) : Assignment := fun j => codeIn train j (cellText r j)

/-- Cell `j` of a test row has a text that is not empty and occurs in column `j` of the training table. -/
def Known (train : List (List Str)) (r : List Str) (j : Nat) : Prop := cellText r j ≠ [] ∧ cellText r j ∈ column train j

instance (train : List (List Str)) (r : List Str) (j : Nat) : Decidable (Known train r j) :=
  inferInstanceAs (Decidable (cellText r j ≠ [] ∧ cellText r j ∈ column train j))

/-- The known cells of a test row, the class included, from left to right: column and number of the text. -/
def testCells (train : List (List Str)) (n : Nat) (r : List Str) : List (Nat × Nat) :=
  ((List.range n).filter (fun j => Known train r j)).map (fun j => (j, codeIn train j (cellText r j)))

/-- What is observed in a test row: the known cells other than the class, which is column 0. -/
def knownCells (train : List (List Str)) (n : Nat) (r : List Str) : List (Nat × Nat) :=
  ((List.range n).filter (fun j => j ≠ 0 ∧ Known train r j)).map (fun j => (j, codeIn train j (cellText r j)))

/-- `x` is the first of the most probable values of variable `q` given the evidence. -/
def IsMode [Field K] [LinearOrder K] (card : Nat → Nat) (n : Nat) (p : Assignment → K) (E : List (Nat × Nat)) (q x : Nat) : Prop :=
  x < card q ∧ (∀ y < card q, posterior card n p E q y ≤ posterior card n p E q x) ∧
    ∀ y < x, posterior card n p E q y < posterior card n p E q x

end FastPGM.Spec
