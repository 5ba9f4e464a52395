import Verif.Spec.Random
import Verif.Spec.Posterior
import Verif.Lemmas.IndependenceTest
import Mathlib.Algebra.BigOperators.Fin
import Mathlib.Algebra.Order.BigOperators.Ring.Finset
import Mathlib.Data.Fintype.BigOperators
import Mathlib.Tactic.Linarith
import Mathlib.Tactic.Ring
import Mathlib.Tactic.FieldSimp
import Mathlib.Tactic.Positivity

/-!
Finite probability: independent draws from a distribution on a finite type, and Chebyshev's inequality for sums of independent draws.
-/

namespace FastPGM

open Spec

section draws

variable {A : Type} [Fintype A] {P : A → ℝ}

/-- Expectation of a function of `m` independent draws from the distribution `P`. -/
def expect (P : A → ℝ) (m : Nat) (f : (Fin m → A) → ℝ) : ℝ := ∑ s : Fin m → A, (∏ i, P (s i)) * f s

theorem expect_prod (m : Nat) (h : Fin m → A → ℝ) : expect P m (fun s => ∏ i, h i (s i)) = ∏ i, ∑ a, P a * h i a := by
  unfold expect
  rw [Finset.prod_univ_sum, Fintype.piFinset_univ]
  exact Finset.sum_congr rfl (fun s _ => (Finset.prod_mul_distrib).symm)

theorem expect_sum {ι : Type} (m : Nat) (t : Finset ι) (f : ι → (Fin m → A) → ℝ) :
    expect P m (fun s => ∑ i ∈ t, f i s) = ∑ i ∈ t, expect P m (f i) := by
  unfold expect
  rw [Finset.sum_comm]
  exact Finset.sum_congr rfl (fun s _ => Finset.mul_sum _ _ _)

theorem expect_const_mul (m : Nat) (c : ℝ) (f : (Fin m → A) → ℝ) : expect P m (fun s => c * f s) = c * expect P m f := by
  unfold expect
  rw [Finset.mul_sum]
  exact Finset.sum_congr rfl (fun s _ => by ring)

theorem expect_mono (hP : ∀ a, 0 ≤ P a) {m : Nat} {f g : (Fin m → A) → ℝ} (h : ∀ s, f s ≤ g s) : expect P m f ≤ expect P m g :=
  Finset.sum_le_sum (fun s _ => mul_le_mul_of_nonneg_left (h s) (Finset.prod_nonneg (fun i _ => hP (s i))))

theorem expect_add (m : Nat) (f g : (Fin m → A) → ℝ) : expect P m (fun s => f s + g s) = expect P m f + expect P m g := by
  unfold expect
  rw [← Finset.sum_add_distrib]
  exact Finset.sum_congr rfl (fun s _ => by ring)

/-- The variance of a sum of independent draws of mean 0. -/
theorem expect_sq (h1 : ∑ a, P a = 1) {g : A → ℝ} (hg : ∑ a, P a * g a = 0) (m : Nat) :
    expect P m (fun s => (∑ i, g (s i)) ^ 2) = m * ∑ a, P a * g a ^ 2 := by
  have key : ∀ i j : Fin m, expect P m (fun s => g (s i) * g (s j)) = if i = j then ∑ a, P a * g a ^ 2 else 0 := by
    intro i j
    have e : (fun s : Fin m → A => g (s i) * g (s j)) =
        fun s => ∏ k, ((if k = i then g (s k) else 1) * (if k = j then g (s k) else 1)) := by
      funext s
      rw [Finset.prod_mul_distrib]
      simp
    rw [e, expect_prod m (fun k a => (if k = i then g a else 1) * (if k = j then g a else 1))]
    by_cases hij : i = j
    · subst hij
      rw [if_pos rfl, Finset.prod_eq_single i]
      · exact Finset.sum_congr rfl (fun a _ => by simp [sq])
      · intro k _ hk
        simp [hk, h1]
      · simp
    · rw [if_neg hij]
      apply Finset.prod_eq_zero (Finset.mem_univ i)
      simpa [hij] using hg
  have e2 : (fun s : Fin m → A => (∑ i, g (s i)) ^ 2) = fun s => ∑ i, ∑ j, g (s i) * g (s j) := by
    funext s
    rw [sq, Finset.sum_mul_sum]
  rw [e2, expect_sum]
  simp only [expect_sum, key]
  simp

/-- Chebyshev's inequality for a sum of independent draws of mean 0. -/
theorem chebyshev (hP : ∀ a, 0 ≤ P a) (h1 : ∑ a, P a = 1) {g : A → ℝ} (hg : ∑ a, P a * g a = 0) (m : Nat) {t : ℝ} (ht : 0 < t) {V : ℝ}
    (hV : ∑ a, P a * g a ^ 2 ≤ V) :
    expect P m (fun s => if t ≤ |∑ i, g (s i)| then 1 else 0) ≤ m * V / t ^ 2 := by
  rw [le_div_iff₀ (by positivity), mul_comm, ← expect_const_mul]
  calc expect P m (fun s => t ^ 2 * if t ≤ |∑ i, g (s i)| then 1 else 0) ≤ expect P m (fun s => (∑ i, g (s i)) ^ 2) := by
        apply expect_mono hP
        intro s
        split
        · next h =>
          rw [mul_one, ← sq_abs (∑ i, g (s i))]
          exact pow_le_pow_left₀ ht.le h 2
        · rw [mul_zero]; positivity
    _ = m * ∑ a, P a * g a ^ 2 := expect_sq h1 hg m
    _ ≤ m * V := mul_le_mul_of_nonneg_left hV (Nat.cast_nonneg m)

/-- The relative frequency, with prior counts, of an event `B` among the draws in an event `C ⊇ B`: it differs from P(B | C) by `ε` or more
only with small probability. -/
theorem frequency_deviation (hP : ∀ a, 0 ≤ P a) (h1 : ∑ a, P a = 1) {B C : A → Prop} [DecidablePred B] [DecidablePred C] (hBC : ∀ a, B a → C a)
    {q θ : ℝ} (hq0 : 0 < q) (hq : ∑ a, (if C a then P a else 0) = q) (hB : ∑ a, (if B a then P a else 0) = θ * q) (hθ0 : 0 ≤ θ) (hθ1 : θ ≤ 1)
    {α d ε : ℝ} (hα : 0 < α) (hd : 1 ≤ d) (hε : 0 < ε) (m : Nat) (hm : 4 * α * d ≤ ε * m * q) :
    expect P m (fun s => if ε ≤ |((∑ i, if B (s i) then (1 : ℝ) else 0) + α) / ((∑ i, if C (s i) then (1 : ℝ) else 0) + α * d) - θ| then 1 else 0) ≤
      (4 + 16 / ε ^ 2) / (m * q) := by
  have hm0 : 0 < (m : ℝ) := by
    rcases Nat.eq_zero_or_pos m with rfl | h
    · have : 0 < 4 * α * d := by positivity
      simp at hm
      linarith
    · exact_mod_cast h
  have hq1 : q ≤ 1 := by
    rw [← hq, ← h1]
    exact Finset.sum_le_sum (fun a _ => by split <;> [exact le_rfl; exact hP a])
  -- the two sums of mean 0
  let g1 : A → ℝ := fun a => (if B a then 1 else 0) - θ * (if C a then 1 else 0)
  let g2 : A → ℝ := fun a => (if C a then 1 else 0) - q
  have eC : ∀ a, P a * (if C a then (1 : ℝ) else 0) = if C a then P a else 0 := fun a => by split <;> simp
  have eB : ∀ a, P a * (if B a then (1 : ℝ) else 0) = if B a then P a else 0 := fun a => by split <;> simp
  have hg1 : ∑ a, P a * g1 a = 0 := by
    have : ∀ a, P a * g1 a = (if B a then P a else 0) - θ * (if C a then P a else 0) := by
      intro a; rw [← eC, ← eB]; ring
    rw [Finset.sum_congr rfl (fun a _ => this a), Finset.sum_sub_distrib, ← Finset.mul_sum, hq, hB, sub_self]
  have hg2 : ∑ a, P a * g2 a = 0 := by
    have : ∀ a, P a * g2 a = (if C a then P a else 0) - q * P a := by
      intro a; rw [← eC]; ring
    rw [Finset.sum_congr rfl (fun a _ => this a), Finset.sum_sub_distrib, ← Finset.mul_sum, hq, h1, mul_one, sub_self]
  have hv1 : ∑ a, P a * g1 a ^ 2 ≤ q := by
    rw [← hq]
    apply Finset.sum_le_sum
    intro a _
    rw [← eC]
    apply mul_le_mul_of_nonneg_left _ (hP a)
    show ((if B a then (1 : ℝ) else 0) - θ * (if C a then 1 else 0)) ^ 2 ≤ _
    by_cases hb : B a
    · have hc := hBC a hb
      simp only [hb, hc, if_true]
      have h01 : 0 ≤ 1 - θ * 1 := by linarith
      have h02 : 1 - θ * 1 ≤ 1 := by linarith
      calc (1 - θ * 1) ^ 2 ≤ 1 ^ 2 := pow_le_pow_left₀ h01 h02 2
        _ = 1 := one_pow 2
    · by_cases hc : C a
      · simp only [hb, hc, if_true, if_false]
        have : (0 - θ * 1) ^ 2 = θ ^ 2 := by ring
        rw [this]
        calc θ ^ 2 ≤ 1 ^ 2 := pow_le_pow_left₀ hθ0 hθ1 2
          _ = 1 := one_pow 2
      · simp [hb, hc]
  have hv2 : ∑ a, P a * g2 a ^ 2 ≤ q := by
    have : ∀ a, P a * g2 a ^ 2 = (1 - 2 * q) * (if C a then P a else 0) + q ^ 2 * P a := by
      intro a
      show P a * ((if C a then (1 : ℝ) else 0) - q) ^ 2 = _
      split <;> ring
    rw [Finset.sum_congr rfl (fun a _ => this a), Finset.sum_add_distrib, ← Finset.mul_sum, ← Finset.mul_sum, hq, h1]
    have : 0 ≤ q ^ 2 := by positivity
    linarith [sq q]
  -- a deviation needs one of two deviations
  have hsub : ∀ s : Fin m → A,
      (if ε ≤ |((∑ i, if B (s i) then (1 : ℝ) else 0) + α) / ((∑ i, if C (s i) then (1 : ℝ) else 0) + α * d) - θ| then (1 : ℝ) else 0) ≤
        (if m * q / 2 ≤ |∑ i, g2 (s i)| then 1 else 0) + (if ε * (m * q) / 4 ≤ |∑ i, g1 (s i)| then 1 else 0) := by
    intro s
    split
    swap
    · positivity
    next h =>
      by_cases h2 : m * q / 2 ≤ |∑ i, g2 (s i)|
      · rw [if_pos h2]; split <;> norm_num
      · rw [if_neg h2, zero_add, if_pos]
        have e1 : ∑ i, g1 (s i) = (∑ i, if B (s i) then (1 : ℝ) else 0) - θ * ∑ i, if C (s i) then (1 : ℝ) else 0 := by
          show ∑ i, ((if B (s i) then (1 : ℝ) else 0) - θ * (if C (s i) then (1 : ℝ) else 0)) = _
          rw [Finset.sum_sub_distrib, ← Finset.mul_sum]
        have e2 : ∑ i, g2 (s i) = (∑ i, if C (s i) then (1 : ℝ) else 0) - m * q := by
          show ∑ i, ((if C (s i) then (1 : ℝ) else 0) - q) = _
          rw [Finset.sum_sub_distrib]
          simp
        rw [e1]
        rw [e2] at h2
        generalize (∑ i, if C (s i) then (1 : ℝ) else 0) = NC at *
        generalize (∑ i, if B (s i) then (1 : ℝ) else 0) = NB at *
        have hNC : m * q / 2 < NC := by
          have := neg_abs_le (NC - m * q)
          linarith
        have hmq : 0 < m * q := by positivity
        have hαd : 0 < α * d := by positivity
        have hD : 0 < NC + α * d := by linarith
        have e3 : (NB + α) / (NC + α * d) - θ = ((NB - θ * NC) + α * (1 - θ * d)) / (NC + α * d) := by
          field_simp
          ring
        rw [e3, abs_div, abs_of_pos hD, le_div_iff₀ hD] at h
        have h4 : |α * (1 - θ * d)| ≤ α * d := by
          rw [abs_mul, abs_of_pos hα]
          apply mul_le_mul_of_nonneg_left _ hα.le
          rw [abs_le]
          constructor
          · have : θ * d ≤ 1 * d := mul_le_mul_of_nonneg_right hθ1 (by linarith)
            linarith
          · have : 0 ≤ θ * d := mul_nonneg hθ0 (by linarith)
            linarith
        have h5 := abs_add_le (NB - θ * NC) (α * (1 - θ * d))
        have h6 : ε * (m * q / 2) ≤ ε * (NC + α * d) := mul_le_mul_of_nonneg_left (by linarith) hε.le
        have h7 : ε * m * q = ε * (m * q) := by ring
        have h8 : ε * (m * q / 2) = ε * (m * q) / 2 := by ring
        rw [h7] at hm
        rw [h8] at h6
        linarith
  have hmq : 0 < m * q := by positivity
  calc _ ≤ expect P m (fun s => (if m * q / 2 ≤ |∑ i, g2 (s i)| then 1 else 0) + (if ε * (m * q) / 4 ≤ |∑ i, g1 (s i)| then 1 else 0)) :=
        expect_mono hP hsub
    _ = _ := expect_add m _ _
    _ ≤ m * q / (m * q / 2) ^ 2 + m * q / (ε * (m * q) / 4) ^ 2 :=
        add_le_add (chebyshev hP h1 hg2 m (by positivity) hv2) (chebyshev hP h1 hg1 m (by positivity) hv1)
    _ = (4 + 16 / ε ^ 2) / (m * q) := by
        field_simp
        ring

end draws

/-! ### Sums over all outcomes -/

theorem Outcome.asg_lt {card : Nat → Nat} {n : Nat} (o : Outcome card n) : InRange card (List.range n) o.asg := by
  intro v hv
  have hv' := List.mem_range.1 hv
  unfold Spec.Outcome.asg
  rw [dif_pos hv']
  exact (o ⟨v, hv'⟩).2

/-- The sum over all assignments of the variables `0, …, n-1` is the sum over all outcomes. -/
theorem sumOut_outcomes {card : Nat → Nat} (n : Nat) (f : Assignment → ℝ) :
    sumOut card (List.range n) f (fun _ => 0) = ∑ o : Outcome card n, f o.asg := by
  induction n generalizing f with
  | zero =>
    rw [List.range_zero]
    simp only [sumOut]
    rw [Fintype.sum_unique]
    congr 1
  | succ n ih =>
    rw [List.range_succ, sumOut_append, ih]
    simp only [sumOut]
    have e := (Fin.snocEquiv (fun v : Fin (n + 1) => Fin (card v))).sum_comp (fun o : Outcome card (n + 1) => f o.asg)
    rw [← e, Fintype.sum_prod_type, Finset.sum_comm]
    rw [Finset.sum_range]
    refine Finset.sum_congr rfl (fun x _ => ?_)
    refine Finset.sum_congr rfl (fun o _ => ?_)
    congr 1
    funext v
    show _ = (Outcome.asg (card := card) (n := n + 1) (Fin.snoc (α := fun v : Fin (n + 1) => Fin (card v)) o x)) v
    unfold Spec.Outcome.asg Assignment.set
    rcases Nat.lt_trichotomy v n with h | rfl | h
    · rw [if_neg (by omega), dif_pos (show v < n + 1 by omega)]
      beta_reduce
      rw [dif_pos h]
      have : (⟨v, by omega⟩ : Fin (n + 1)) = Fin.castSucc ⟨v, h⟩ := rfl
      rw [this, Fin.snoc_castSucc]
    · rw [if_pos rfl, dif_pos (by omega)]
      have : (⟨v, by omega⟩ : Fin (v + 1)) = Fin.last v := rfl
      rw [this, Fin.snoc_last]
    · rw [if_neg (by omega), dif_neg (show ¬ v < n + 1 by omega)]
      beta_reduce
      rw [dif_neg (by omega)]

end FastPGM
