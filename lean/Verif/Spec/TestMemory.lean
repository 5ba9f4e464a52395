import Verif.Spec.CellTable
import Verif.Model.TestMemory

/-!
Specification side of the memory used by the tests of conditional independence.
-/

namespace FastPGM.Spec

open FastPGM

/-- The number of blocks of memory that are alive. -/
def live (M : IntMem) : Nat := ((List.range M.next).filter (fun a => (M.arr a).isSome)).length

/-- The number of blocks a test that has returned leaves behind: the table object and its arrays if the test is single and there is no
degree of freedom. -/
def leftBehind (card : Nat → Nat) (rows : List Assignment) (x y : Nat) (z : List Nat) (size : Nat) : Nat :=
  if z ≠ [] ∧ 1 < size then 0
  else if degrees card rows x y z ≠ 0 then 0
  else if z.length = 0 then 4
  else if z.length = 1 then 5
  else 6

end FastPGM.Spec
