import Verif.Model.MixedDataset

/-!
Specification side of loading data with continuous variables.
-/

namespace FastPGM.Spec

open FastPGM

variable {F : Type}

/-- The value has the kind of its variable: `float` exactly for a continuous variable. -/
def RightKind (cont : List Int) (vv : Int × MVal F) : Prop := (∃ f, vv.2 = .flt f) ↔ vv.1 ∈ cont

/-- How a cell of the data set with continuous variables corresponds to the cell `a` of the purely discrete one, whose codes are `ids`: the same
variable; a discrete variable has the same code; a continuous one has the number that the text behind the code denotes. -/
def SameCell (stof : Str → Except Fault F) (cont : List Int) (ids : List ValueMap) (a : Int × Int) (b : Int × MVal F) : Prop :=
  b.1 = a.1 ∧ (a.1 ∉ cont → b.2 = .int a.2) ∧
    (a.1 ∈ cont → ∃ m s f, ids[a.1.toNat]? = some m ∧ m.find s = some a.2 ∧ stof s = .ok f ∧ b.2 = .flt f)

end FastPGM.Spec
