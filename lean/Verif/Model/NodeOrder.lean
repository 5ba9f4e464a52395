import Verif.Model.Parameter

/-!
Model of the order of the nodes that structure learning may be given (src/fastpgm/structure_learning/StructureLearning.cpp 39-65).
-/

namespace FastPGM

/-- `std::iter_swap` of the entries `i` and `j`, both inside the vector. -/
def swapAt (l : List Nat) (i j : Nat) : List Nat := (l.set i (l.getD j 0)).set j (l.getD i 0)

/-- `std::random_shuffle(first, last)` as libstdc++ has it: for `i = 1, 2, …`, entry `i` is exchanged with entry `rand() % (i + 1)`; `rand i` is
the number drawn for entry `i`. -/
def randomShuffle (rand : Nat → Nat) (l : List Nat) : List Nat :=
  (List.range' 1 (l.length - 1)).foldl (fun l i => swapAt l i (rand i % (i + 1))) l

/-- StructureLearning.cpp 39-65 `AssignNodeOrder` -/
def assignNodeOrder (rand : Nat → Nat) (numNodes : Nat) (constraint : Str) : Except Fault (List Nat) :=
  let ord := List.range numNodes
  if constraint = lit "dataset-ord" then .ok ord
  else if constraint = lit "random" then .ok (randomShuffle rand ord)
  else if constraint = lit "best" then .ok []
  else .error .exit

end FastPGM
