import Mathlib.Data.List.Basic
import Verif.Model.Skeleton
import Verif.Spec.CellTable

/-!
Specification of the skeleton search: which pairs remain adjacent after each level.
-/

namespace FastPGM.Spec

/-- Some increasing list of `d` neighbours of `x` other than `y`, or of `y` other than `x`, makes `x` and `y` independent. -/
def Separable (ind : Nat → Nat → List Nat → Bool) (G : Nat → Nat → Prop) (d x y : Nat) : Prop :=
  ∃ S : List Nat, S.Pairwise (· < ·) ∧ S.length = d ∧ ind x y S = true ∧
    ((∀ z ∈ S, G x z ∧ z ≠ y) ∨ (∀ z ∈ S, G y z ∧ z ≠ x))

/-- One level: an edge stays unless it is separable with respect to the graph at the start of the level.  The test is asked with the
smaller index first. -/
def levelGraph (ind : Nat → Nat → List Nat → Bool) (d : Nat) (G : Nat → Nat → Prop) : Nat → Nat → Prop :=
  fun x y => G x y ∧ ¬ Separable ind G d (min x y) (max x y)

/-- The graph after the levels `0, …, d-1`, starting from the complete graph on `n` nodes. -/
def skeletonAt (ind : Nat → Nat → List Nat → Bool) (n : Nat) : Nat → Nat → Nat → Prop
  | 0 => fun x y => x < n ∧ y < n ∧ x ≠ y
  | d + 1 => levelGraph ind d (skeletonAt ind n d)

/-- The learner's edge list and adjacency lists describe the undirected graph `G` on `n` nodes: every pair is listed exactly once, with
the smaller index first. -/
structure Represents (n : Nat) (G : Nat → Nat → Prop) (k : Skeleton) : Prop where
  symm : ∀ x y, G x y → G y x
  range : ∀ x y, G x y → x < n ∧ x ≠ y
  nodup : (k.edges.map (fun e => (e.x, e.y))).Nodup
  edge : ∀ x y, (x, y) ∈ k.edges.map (fun e => (e.x, e.y)) ↔ x < y ∧ G x y
  unmarked : ∀ e ∈ k.edges, e.needRemove = false
  adjLength : k.adj.length = n
  adj : ∀ (v : Nat) l, k.adj[v]? = some l → l.Pairwise (· < ·) ∧ ∀ z, z ∈ l ↔ G v z

/-- The independence test `ci` answers according to `ind`, for single questions and for groups of up to `g` conditioning sets: a group is
independent if one of its sets is, and the first one is reported. -/
structure Answers (ci : CITest) (ind : Nat → Nat → List Nat → Bool) (n g : Nat) : Prop where
  empty : ∀ x y, x < y → y < n → ∃ f, ci x y [] 1 = .ok (ind x y [], f)
  group : ∀ x y (d : Nat) (sets : List (List Nat)), x < y → y < n → 0 < d → sets ≠ [] → sets.length ≤ g →
    (∀ s ∈ sets, s.length = d ∧ s.Pairwise (· < ·) ∧ ∀ z ∈ s, z < n ∧ z ≠ x ∧ z ≠ y) →
    ∃ f, ci x y sets.flatten sets.length = .ok (sets.any (ind x y), f) ∧
      (sets.any (ind x y) = true → f = some (sets.findIdx (ind x y)))

/-- For distinct variables the test does not depend on the order of its two variables and of the conditioning variables. -/
def SymmetricOracle (ind : Nat → Nat → List Nat → Bool) : Prop :=
  ∀ x y S, (S ++ [x, y]).Nodup → ind x y S = ind y x S ∧ ∀ T, S.Perm T → ind x y S = ind x y T

/-- `x` and `y` are adjacent in the learned skeleton. -/
def AdjacentIn (k : Skeleton) (x y : Nat) : Prop := ∃ e ∈ k.edges, (e.x = x ∧ e.y = y) ∨ (e.x = y ∧ e.y = x)

open Classical in
/-- The verdicts of the G² test on a data set. -/
noncomputable def verdicts {K : Type} [Field K] [LinearOrder K] (log : K → K) (pchisq : K → Nat → Option K) (alpha : K)
    (card : Nat → Nat) (rows : List Assignment) (x y : Nat) (z : List Nat) : Bool :=
  decide (Independent log pchisq alpha card rows x y z)

end FastPGM.Spec
