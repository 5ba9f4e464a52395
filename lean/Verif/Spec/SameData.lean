import Verif.Spec.LearnCommands

/-!
Specification: two tables with the same contents up to the order of the rows and the names of the values.
-/

namespace FastPGM.Spec

open FastPGM

/-- The second table is the first one with its rows in another order and the texts of column `j` replaced according to `σ j`, different
texts by different ones. -/
structure Renamed (n : Nat) (σ : Nat → Str → Str) (train train' : List (List Str)) : Prop where
  injective : ∀ j < n, ∀ s ∈ column train j, ∀ t ∈ column train j, σ j s = σ j t → s = t
  rows : (train.map (fun r => (List.range n).map (fun j => σ j (cellText r j)))).Perm
    (train'.map (fun r => (List.range n).map (fun j => cellText r j)))

/-- The second table is the first one with the texts of column `j` replaced according to `σ j`, the rows in the same order. -/
def Rewritten (n : Nat) (σ : Nat → Str → Str) (T T' : List (List Str)) : Prop :=
  T'.map (fun r => (List.range n).map (fun j => cellText r j)) = T.map (fun r => (List.range n).map (fun j => σ j (cellText r j)))

/-- Different texts of column `j` of the two tables are replaced by different ones, and only the empty text by the empty text. -/
def Faithful (n : Nat) (σ : Nat → Str → Str) (train test : List (List Str)) : Prop :=
  ∀ j < n, (∀ s ∈ column train j ++ column test j, ∀ t ∈ column train j ++ column test j, σ j s = σ j t → s = t) ∧
    ∀ s ∈ column test j, (σ j s = [] ↔ s = [])

end FastPGM.Spec
