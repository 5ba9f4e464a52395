import Verif.Spec.Factor
import Verif.Spec.Network
import Mathlib.Algebra.Field.Defs
import Mathlib.Algebra.BigOperators.Group.List.Basic

/-!
Specification side of exact inference: the joint distribution of a network and conditional probabilities, by enumeration of all
assignments.
-/

namespace FastPGM.Spec

open FastPGM

variable {K : Type}

/-- `pts[i]` is a well-formed table on node `i` and its parents (in any order), for every node. -/
structure NodeTables (card : Nat → Nat) (N : Net) (pts : List (Table K)) : Prop where
  length : pts.length = N.nodes.length
  wf : ∀ T ∈ pts, WellFormed card T
  vars : ∀ (i : Nat) T, pts[i]? = some T → ∀ v, v ∈ T.vars ↔ v = i ∨ ParentOf N v i

/-- The joint distribution: the product over all nodes of P(node | parents). -/
def joint [Field K] (pts : List (Table K)) (a : Assignment) : K := (pts.map (fun T => value T a)).prod

/-- The assignment has the observed values. -/
def Agrees (E : List (Nat × Nat)) (a : Assignment) : Prop := ∀ e ∈ E, a e.1 = e.2

instance (E : List (Nat × Nat)) (a : Assignment) : Decidable (Agrees E a) := inferInstanceAs (Decidable (∀ e ∈ E, a e.1 = e.2))

/-- Sum of `p` over all assignments of the variables `0, …, n-1` that satisfy `event`. -/
def weight [Field K] (card : Nat → Nat) (n : Nat) (p : Assignment → K) (event : Assignment → Prop) [DecidablePred event] : K :=
  sumOut card (List.range n) (fun a => if event a then p a else 0) (fun _ => 0)

/-- P(variable `q` has value `x` | evidence `E`). -/
def posterior [Field K] (card : Nat → Nat) (n : Nat) (p : Assignment → K) (E : List (Nat × Nat)) (q x : Nat) : K :=
  weight card n p (fun a => Agrees E a ∧ a q = x) / weight card n p (Agrees E)

/-- Every table is a conditional distribution: for all values of the other variables the numbers of the values of the node sum to 1. -/
def ConditionalTables [Field K] (card : Nat → Nat) (pts : List (Table K)) : Prop :=
  ∀ (i : Nat) T, pts[i]? = some T → ∀ a, InRange card T.vars a → ∑ x ∈ Finset.range (card i), value T (a.set i x) = 1

/-- The listed variables with their values in `a`. -/
def observed (a : Assignment) (vs : List Nat) : List (Nat × Nat) := vs.map (fun v => (v, a v))

end FastPGM.Spec
