import Verif.Spec.Pipeline
import Verif.Spec.NetFile

/-!
Specification of the commands that start from a network file.
-/

namespace FastPGM.Spec

open FastPGM

/-- The names of the values of variable `j`. -/
def labels (vs : List VarDecl) (j : Nat) : List Str := (vs.map VarDecl.values).getD j []

/-- Cell `j` of a row of the test file is not empty and is the name of a value of variable `j`. -/
def Named (vs : List VarDecl) (r : List Str) (j : Nat) : Prop := cellText r j ≠ [] ∧ cellText r j ∈ labels vs j

instance (vs : List VarDecl) (r : List Str) (j : Nat) : Decidable (Named vs r j) :=
  inferInstanceAs (Decidable (cellText r j ≠ [] ∧ cellText r j ∈ labels vs j))

/-- The named cells of a row, from left to right: column and number of the value. -/
def namedCells (vs : List VarDecl) (r : List Str) : List (Nat × Nat) :=
  ((List.range vs.length).filter (fun j => Named vs r j)).map (fun j => (j, (labels vs j).idxOf (cellText r j)))

/-- The named cells other than the first column. -/
def evidenceCells (vs : List VarDecl) (r : List Str) : List (Nat × Nat) :=
  ((List.range vs.length).filter (fun j => j ≠ 0 ∧ Named vs r j)).map (fun j => (j, (labels vs j).idxOf (cellText r j)))

/-- The joint distribution that the tables of a network file define. -/
noncomputable def fileJoint {K : Type} [Field K] (toCount : K → Int) (vs : List VarDecl) (ts : List (TableDecl K)) (a : Assignment) : K :=
  (ts.map (fun t => fileEntry toCount (declCard vs) t a)).prod

end FastPGM.Spec
