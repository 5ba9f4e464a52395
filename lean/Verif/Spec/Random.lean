import Verif.Spec.Factor
import Mathlib.MeasureTheory.Measure.Lebesgue.Basic

/-!
Specification side of random samples: independent random numbers, uniform in (0, 1], and the outcomes of one sample.
-/

namespace FastPGM.Spec

open MeasureTheory

/-- The random numbers used for `m` samples of `n` variables: independent and uniform in (0, 1]. -/
noncomputable def uniformDraws (m n : Nat) : Measure (Fin m × Fin n → ℝ) :=
  Measure.pi (fun _ => volume.restrict (Set.Ioc 0 1))

/-- Random number `t` of sample `i`.  (A point that is not in (0, 1], which has probability 0, is replaced by 1.) -/
noncomputable def drawsOf {m n : Nat} (w : Fin m × Fin n → ℝ) (i t : Nat) : {u : ℝ // 0 < u ∧ u ≤ 1} :=
  if h : ∃ (hi : i < m) (ht : t < n), 0 < w (⟨i, hi⟩, ⟨t, ht⟩) ∧ w (⟨i, hi⟩, ⟨t, ht⟩) ≤ 1 then ⟨w (⟨i, h.1⟩, ⟨t, h.2.1⟩), h.2.2⟩
  else ⟨1, one_pos, le_refl 1⟩

/-- A legal value for each of the variables `0, …, n-1`. -/
abbrev Outcome (card : Nat → Nat) (n : Nat) := (v : Fin n) → Fin (card v)

/-- The outcome as an assignment; other variables are 0. -/
def Outcome.asg {card : Nat → Nat} {n : Nat} (o : Outcome card n) : Assignment := fun v => if h : v < n then (o ⟨v, h⟩).1 else 0

end FastPGM.Spec
