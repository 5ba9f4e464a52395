import Verif.Model.Table
import Mathlib.Algebra.Order.Field.Basic
import Mathlib.Algebra.Order.Field.Rat
import Mathlib.Data.Int.Log
import Mathlib.Data.Rat.Floor

/-!
Arithmetic with rounding.  The code computes with `double`s; here a machine arithmetic is three functions that return a number close to the
exact result, or nothing when the result is outside the range of the format.
-/

namespace FastPGM.Spec

variable {K : Type}

/-- The operations of a machine arithmetic.  `none`: the operation overflowed or underflowed. -/
structure Arithmetic (K : Type) where
  add : K → K → Option K
  mul : K → K → Option K
  div : K → K → Option K

/-- `o` is an acceptable machine result when the exact result is `x`: a returned number differs from `x` by a factor of at most `ρ`, and
there is a returned number if `x` is 0 or between `lo` and `hi`. -/
def RoundsTo [Field K] [LinearOrder K] (ρ lo hi : K) (o : Option K) (x : K) : Prop :=
  (∀ y, o = some y → y ≤ x * ρ ∧ x ≤ y * ρ) ∧ (x = 0 ∨ lo ≤ x ∧ x ≤ hi → o ≠ none)

/-- On numbers that are not negative, the operations are accurate up to a factor `ρ`, and do not overflow or underflow when the exact result
is 0 or between `lo` and `hi`. -/
structure Accurate [Field K] [LinearOrder K] (ar : Arithmetic K) (ρ lo hi : K) : Prop where
  add : ∀ a b, 0 ≤ a → 0 ≤ b → RoundsTo ρ lo hi (ar.add a b) (a + b)
  mul : ∀ a b, 0 ≤ a → 0 ≤ b → RoundsTo ρ lo hi (ar.mul a b) (a * b)
  div : ∀ a b, 0 ≤ a → 0 < b → RoundsTo ρ lo hi (ar.div a b) (a / b)

/-- The numbers of the machine: `none` is the result of an operation that overflowed or underflowed, or of a computation from such a result. -/
def Rounded (_ar : Arithmetic K) : Type := Option K

namespace Rounded

variable {ar : Arithmetic K}

/-- The number `v`. -/
def num (v : K) : Rounded ar := (some v : Option K)

instance [DecidableEq K] : DecidableEq (Rounded ar) := inferInstanceAs (DecidableEq (Option K))

instance [Zero K] : Zero (Rounded ar) := ⟨(some 0 : Option K)⟩

instance [One K] : One (Rounded ar) := ⟨(some 1 : Option K)⟩

instance : Add (Rounded ar) := ⟨fun (x y : Option K) => x.bind (fun a => y.bind (fun b => ar.add a b))⟩

/-- An `int` is a `double` (it has at most 31 bits, a `double` has 53). -/
instance [NatCast K] : NatCast (Rounded ar) := ⟨fun n => (some (n : K) : Option K)⟩

/-- An `int` is a `double`. -/
instance [IntCast K] : IntCast (Rounded ar) := ⟨fun n => (some (n : K) : Option K)⟩

/-- The product with 0 is 0. -/
instance [Zero K] [DecidableEq K] : Mul (Rounded ar) :=
  ⟨fun (x y : Option K) => if x = some 0 ∨ y = some 0 then some 0 else x.bind (fun a => y.bind (fun b => ar.mul a b))⟩

/-- The quotient of 0 is 0; the model never divides by 0. -/
instance [Zero K] [DecidableEq K] : Div (Rounded ar) :=
  ⟨fun (x y : Option K) => if x = some 0 then some 0 else x.bind (fun a => y.bind (fun b => ar.div a b))⟩

instance [LT K] : LT (Rounded ar) := ⟨fun (x y : Option K) => ∃ a b, x = some a ∧ y = some b ∧ a < b⟩

instance [LT K] [DecidableLT K] : DecidableLT (Rounded ar) := fun (x y : Option K) =>
  match x, y with
  | some a, some b => decidable_of_iff (a < b) ⟨fun h => ⟨a, b, rfl, rfl, h⟩, fun ⟨_, _, e, e', h⟩ => by cases e; cases e'; exact h⟩
  | none, _ => isFalse (fun ⟨_, _, e, _⟩ => by cases e)
  | some _, none => isFalse (fun ⟨_, _, _, e, _⟩ => by cases e)

end Rounded

/-- The machine number `y` stands for the number `x`: they differ by a factor of at most `ρ`. -/
def StandsFor [Field K] [LinearOrder K] (ρ : K) {ar : Arithmetic K} (x : K) (y : Rounded ar) : Prop :=
  ∃ v, y = Rounded.num v ∧ v ≤ x * ρ ∧ x ≤ v * ρ

/-- The tables `Ts'` of machine numbers stand for the tables `Ts`. -/
def StandForTables [Field K] [LinearOrder K] (ρ : K) {ar : Arithmetic K} (Ts : List (Table K)) (Ts' : List (Table (Rounded ar))) : Prop :=
  List.Forall₂ (fun T T' => T.vars = T'.vars ∧ T.dims = T'.dims ∧ T.cum = T'.cum ∧ T.size = T'.size ∧
    List.Forall₂ (StandsFor ρ) T.pot T'.pot) Ts Ts'

/-- `r` gives a nearest integer. -/
def Nearest (r : ℚ → ℤ) : Prop := ∀ x, |(r x : ℚ) - x| ≤ 1 / 2

/-- A number with 53 significant bits nearest to `x`, if it is in the range of normal `double`s. -/
def double (r : ℚ → ℤ) (x : ℚ) : Option ℚ :=
  let y := (r (x * 2 ^ (52 - Int.log 2 x)) : ℚ) / 2 ^ (52 - Int.log 2 x)
  if x = 0 then some 0 else if (2 : ℚ) ^ (-1022 : ℤ) ≤ y ∧ y < 2 ^ (1024 : ℤ) then some y else none

/-- The operations on `double`s that are not negative: the exact result is rounded to a nearest number. -/
def binary64 (r : ℚ → ℤ) : Arithmetic ℚ where
  add a b := double r (a + b)
  mul a b := double r (a * b)
  div a b := double r (a / b)

/-- The `double` for a number of the input. -/
def readDouble (r : ℚ → ℤ) (x : ℚ) : Rounded (binary64 r) := double r x

end FastPGM.Spec
