/-!
Sizes of cliques.
-/

namespace FastPGM.Spec

/-- The number of entries of a table on the variables `c`. -/
def entries (card : Nat → Nat) (c : List Nat) : Nat := (c.map card).prod

/-- `c` is the first of the cliques `cs` that contains all of `vs`. -/
def FirstCover (cs : List (List Nat)) (vs c : List Nat) : Prop :=
  ∃ before after, cs = before ++ c :: after ∧ (∀ v ∈ vs, v ∈ c) ∧ ∀ b ∈ before, ∃ v ∈ vs, v ∉ b

end FastPGM.Spec
