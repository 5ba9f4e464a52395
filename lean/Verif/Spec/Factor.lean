import Verif.Model.Table
import Mathlib.Algebra.BigOperators.Group.Finset.Basic
import Mathlib.Algebra.BigOperators.Intervals

/-!
Specification side of potential tables: a table *denotes* a function on assignments.

An assignment gives every variable a value.  `card v` is the number of values of variable `v`.
-/

namespace FastPGM.Spec

open FastPGM

/-- Row-major position of a configuration among all configurations with the given dimensions (last variable fastest). -/
def rank : List Nat → List Nat → Nat
  | _ :: ds, c :: cs => c * ds.prod + rank ds cs
  | _, _ => 0

/-- Values of all variables. -/
abbrev Assignment := Nat → Nat

/-- `a` with variable `v` set to `x`. -/
def Assignment.set (a : Assignment) (v x : Nat) : Assignment := fun w => if w = v then x else a w

/-- The number a table denotes at an assignment: its entry at the row-major position of the assignment's configuration. -/
def value {K : Type} [Zero K] (T : Table K) (a : Assignment) : K :=
  T.pot.getD (rank T.dims (T.vars.map a)) 0

/-- A table whose bookkeeping fields agree with each other and with the variables' numbers of values. -/
structure WellFormed {K : Type} (card : Nat → Nat) (T : Table K) : Prop where
  nodup : T.vars.Nodup
  pos : ∀ v ∈ T.vars, 0 < card v
  dims : T.dims = T.vars.map card
  cum : ∀ i < T.vars.length, T.cum[i]? = some ((T.dims.drop (i + 1)).prod)
  cum_length : T.cum.length = T.vars.length
  size : T.size = T.dims.prod
  length : T.pot.length = T.size

/-- `a` gives every listed variable a legal value. -/
def InRange (card : Nat → Nat) (vs : List Nat) (a : Assignment) : Prop := ∀ v ∈ vs, a v < card v

/-- Sum of `f` over all values of the variables `vs`, the other variables being fixed by the assignment. -/
def sumOut {K : Type} [AddCommMonoid K] (card : Nat → Nat) : List Nat → (Assignment → K) → Assignment → K
  | [], f, a => f a
  | v :: vs, f, a => ∑ x ∈ Finset.range (card v), sumOut card vs f (a.set v x)

end FastPGM.Spec
