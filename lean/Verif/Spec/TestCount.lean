import Verif.Spec.Skeleton

/-!
How many independence tests the skeleton phase performs.
-/

namespace FastPGM.Spec

/-- The subsets with `d` elements of an increasing list, in lexicographic order. -/
def subsetsOf : Nat → List Nat → List (List Nat)
  | 0, _ => [[]]
  | _ + 1, [] => []
  | d + 1, a :: l => (subsetsOf d l).map (fun S => a :: S) ++ subsetsOf (d + 1) l

/-- Tests in groups of `g`, until a group has a set for which `p` holds: set number `i` is tested if no set of the groups before its own
satisfies `p`. -/
def tested (g : Nat) (p : List Nat → Bool) (sets : List (List Nat)) : Nat :=
  ((List.range sets.length).filter (fun i => !(sets.take (i / g * g)).any p)).length

open Classical in
/-- The neighbours of `x` in `G` other than `y`. -/
noncomputable def otherNeighbours (G : Nat → Nat → Prop) (n x y : Nat) : List Nat :=
  (List.range n).filter (fun z => decide (G x z ∧ z ≠ y))

/-- The tests for the pair `x`, `y` at level `d`: first with neighbours of `x`, then, if all were dependent, with neighbours of `y`. -/
noncomputable def pairTests (ind : Nat → Nat → List Nat → Bool) (G : Nat → Nat → Prop) (n d g x y : Nat) : Nat :=
  tested g (ind x y) (subsetsOf d (otherNeighbours G n x y)) +
    if (subsetsOf d (otherNeighbours G n x y)).any (ind x y) then 0 else tested g (ind x y) (subsetsOf d (otherNeighbours G n y x))

open Classical in
/-- The adjacent pairs, smaller index first. -/
noncomputable def adjacentPairs (G : Nat → Nat → Prop) (n : Nat) : List (Nat × Nat) :=
  (List.range n).flatMap (fun x => ((List.range n).filter (fun y => decide (x < y ∧ G x y))).map (fun y => (x, y)))

/-- The tests of level `d`. -/
noncomputable def levelTests (ind : Nat → Nat → List Nat → Bool) (n d g : Nat) : Nat :=
  ((adjacentPairs (skeletonAt ind n d) n).map (fun p => pairTests ind (skeletonAt ind n d) n d g p.1 p.2)).sum

/-- All tests: one for every pair at level 0, and those of the levels `1, …, depth - 1`. -/
noncomputable def totalTests (ind : Nat → Nat → List Nat → Bool) (n depth g : Nat) : Nat :=
  n * (n - 1) / 2 + ((List.range (depth - 1)).map (fun i => levelTests ind n (i + 1) g)).sum

end FastPGM.Spec
