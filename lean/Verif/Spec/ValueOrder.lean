import Mathlib.Order.Monotone.Defs
import Mathlib.Data.Int.Cast.Lemmas
import Mathlib.Algebra.Order.Ring.Int

/-!
What `std::set` requires of a comparison, and the conversion of integers to `float`.
-/

namespace FastPGM.Spec

/-- `lt` is a strict weak order on `S` (the requirement `Compare` of the associative containers). -/
structure StrictWeak {α : Type} (lt : α → α → Bool) (S : α → Prop) : Prop where
  irrefl : ∀ x, S x → lt x x = false
  trans : ∀ x y z, S x → S y → S z → lt x y = true → lt y z = true → lt x z = true
  incomparable : ∀ x y z, S x → S y → S z → lt x y = false → lt y x = false → lt y z = false → lt z y = false →
    lt x z = false ∧ lt z x = false

/-- The integers that are values of type `float`: 24 significant bits. -/
def FloatInt (i : Int) : Prop := ∃ (m : Int) (e : Nat), -2 ^ 24 ≤ m ∧ m ≤ 2 ^ 24 ∧ i = m * 2 ^ e

/-- A conversion of integers to `float` in any rounding mode: the result is a `float`, the integer itself if it is one, and the conversion
respects the order. -/
structure Conversion {K : Type} [IntCast K] [Preorder K] (conv : Int → K) : Prop where
  mono : Monotone conv
  exact : ∀ i, FloatInt i → conv i = (i : K)
  float : ∀ i, ∃ j, FloatInt j ∧ conv i = (j : K)

end FastPGM.Spec
