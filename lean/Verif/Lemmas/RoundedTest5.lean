import Verif.Lemmas.RoundedTest4
import Mathlib.Analysis.Complex.ExponentialBounds

/-!
Properties of rounding to the nearest `double`, and of the bound of the error of the statistic.
-/

namespace FastPGM

open Spec

theorem nearestDouble_error {x : ℝ} (hx : |x| ≤ 2 ^ (1023 : ℤ)) : RoundedTo (2 ^ (-53 : ℤ)) (2 ^ (-1022 : ℤ)) x (nearestDouble x) := by
  unfold RoundedTo nearestDouble
  rw [if_neg (not_lt.2 hx)]
  rcases eq_or_ne x 0 with rfl | h0
  · simp only [zero_mul, round_zero, Int.cast_zero, zero_div, sub_zero, abs_zero]
    positivity
  generalize hE : max (Int.log 2 |x|) (-1022) = E
  have hp : (0 : ℝ) < 2 ^ (52 - E) := by positivity
  have h1 := abs_sub_round (x * 2 ^ (52 - E))
  have h2 : (round (x * 2 ^ (52 - E)) : ℝ) / 2 ^ (52 - E) - x = -((x * 2 ^ (52 - E) - round (x * 2 ^ (52 - E))) / 2 ^ (52 - E)) := by
    field_simp
    ring
  rw [h2, abs_neg, abs_div, abs_of_pos hp]
  have h3 : (2 : ℝ) ^ E ≤ max |x| (2 ^ (-1022 : ℤ)) := by
    rw [← hE]
    rcases le_total (Int.log 2 |x|) (-1022) with h | h
    · rw [max_eq_right h]
      exact le_max_right _ _
    · rw [max_eq_left h]
      have := Int.zpow_log_le_self (b := 2) (r := |x|) (by norm_num) (abs_pos.2 h0)
      exact le_max_of_le_left (by exact_mod_cast this)
  have h4 : (2 : ℝ) ^ (-53 : ℤ) * 2 ^ E = 1 / 2 / 2 ^ (52 - E) := by
    rw [eq_div_iff hp.ne', mul_assoc, ← zpow_add₀ (by norm_num), ← zpow_add₀ (by norm_num)]
    rw [show -53 + (E + (52 - E)) = (-1 : ℤ) by ring]
    norm_num
  calc |x * 2 ^ (52 - E) - round (x * 2 ^ (52 - E))| / 2 ^ (52 - E) ≤ 1 / 2 / 2 ^ (52 - E) := by gcongr
    _ = (2 : ℝ) ^ (-53 : ℤ) * 2 ^ E := h4.symm
    _ ≤ _ := mul_le_mul_of_nonneg_left h3 (by positivity)

theorem doubleOps_accurate (pchisq : ℝ → Nat → Option ℝ) :
    AccurateOps (doubleOps pchisq) (2 ^ (-53 : ℤ)) (2 ^ (-1022 : ℤ)) (2 ^ (1023 : ℤ)) where
  zero := rfl
  two := rfl
  ofCount _ _ := rfl
  add _ _ h := nearestDouble_error h
  mul _ _ h := nearestDouble_error h
  div _ _ _ h := nearestDouble_error h
  log _ _ h := nearestDouble_error h

theorem growth_le_two {c : Nat} (hc : c < 2 ^ 31) : (1 + (2 : ℝ) ^ (-53 : ℤ)) ^ c ≤ 2 := by
  have h1 : (1 + (2 : ℝ) ^ (-53 : ℤ)) ^ c ≤ Real.exp (1 / 2) := by
    calc (1 + (2 : ℝ) ^ (-53 : ℤ)) ^ c ≤ (Real.exp ((2 : ℝ) ^ (-53 : ℤ))) ^ c := by
          gcongr
          rw [add_comm]
          exact Real.add_one_le_exp _
      _ = Real.exp (c * (2 : ℝ) ^ (-53 : ℤ)) := by rw [← Real.exp_nat_mul]
      _ ≤ _ := by
        rw [Real.exp_le_exp]
        have h : (c : ℝ) ≤ 2 ^ 31 := by exact_mod_cast hc.le
        calc (c : ℝ) * (2 : ℝ) ^ (-53 : ℤ) ≤ 2 ^ 31 * (2 : ℝ) ^ (-53 : ℤ) := by gcongr
          _ ≤ _ := by norm_num
  have h2 : Real.exp (1 / 2) * Real.exp (1 / 2) = Real.exp 1 := by rw [← Real.exp_add]; norm_num
  have h3 := Real.exp_one_lt_d9
  have h4 := Real.exp_pos (1 / 2)
  by_contra hcon
  have h5 : 2 < Real.exp (1 / 2) := lt_of_lt_of_le (not_le.1 hcon) h1
  have h6 := mul_lt_mul'' h5 h5 (by norm_num) (by norm_num)
  rw [h2] at h6
  norm_num at h6
  linarith

/-- The bound in closed form, for fewer than 2^31 instances. -/
theorem statisticError_le {m c : Nat} (hc : c < 2 ^ 31) :
    statisticError (2 ^ (-53 : ℤ)) m c ≤ 2 ^ (-52 : ℤ) * m * (8 * (Real.log m + 2) + 2 * c * Real.log m) := by
  unfold statisticError
  have hL := Real.log_natCast_nonneg m
  have h := growth_le_two hc
  have e : (2 : ℝ) ^ (-52 : ℤ) = 2 * 2 ^ (-53 : ℤ) := by
    rw [← zpow_one_add₀ (by norm_num)]
    norm_num
  rw [e]
  gcongr

theorem log_le_cast (m : Nat) : Real.log m ≤ m := by
  rcases Nat.eq_zero_or_pos m with rfl | h
  · simp
  · have := Real.log_le_sub_one_of_pos (x := (m : ℝ)) (by exact_mod_cast h)
    linarith

/-- No result of the computation is out of range. -/
theorem statistic_fits {m c : Nat} (hm : m < 2 ^ 31) (hc : c ≤ m) :
    statisticError (2 ^ (-53 : ℤ)) m c + 2 * m * Real.log m ≤ 2 ^ (1023 : ℤ) ∧ 8 * (m : ℝ) ^ 2 ≤ 2 ^ (1023 : ℤ) ∧
      2 * (m : ℝ) * 2 ^ (-1022 : ℤ) ≤ 1 := by
  have hm' : (m : ℝ) ≤ 2 ^ 31 := by exact_mod_cast hm.le
  have hc' : (c : ℝ) ≤ 2 ^ 31 := by exact_mod_cast (hc.trans hm.le)
  have hL := Real.log_natCast_nonneg m
  have hL' : Real.log m ≤ 2 ^ 31 := (log_le_cast m).trans hm'
  refine ⟨?_, ?_, ?_⟩
  · have h1 := statisticError_le (m := m) (c := c) (by omega)
    have h2 : (2 : ℝ) ^ (-52 : ℤ) * m * (8 * (Real.log m + 2) + 2 * c * Real.log m) ≤
        1 * 2 ^ 31 * (8 * (2 ^ 31 + 2) + 2 * 2 ^ 31 * 2 ^ 31) := by
      gcongr
      norm_num
    have h3 : 2 * (m : ℝ) * Real.log m ≤ 2 * 2 ^ 31 * 2 ^ 31 := by gcongr
    have h4 : (1 * 2 ^ 31 * (8 * (2 ^ 31 + 2) + 2 * 2 ^ 31 * 2 ^ 31) + 2 * 2 ^ 31 * 2 ^ 31 : ℝ) ≤ 2 ^ (100 : ℤ) := by norm_num
    have h5 : (2 : ℝ) ^ (100 : ℤ) ≤ 2 ^ (1023 : ℤ) := zpow_le_zpow_right₀ (by norm_num) (by norm_num)
    exact (add_le_add (h1.trans h2) h3).trans (h4.trans h5)
  · calc 8 * (m : ℝ) ^ 2 ≤ 8 * (2 ^ 31) ^ 2 := by gcongr
      _ ≤ 2 ^ (100 : ℤ) := by norm_num
      _ ≤ _ := zpow_le_zpow_right₀ (by norm_num) (by norm_num)
  · have h5 : (2 : ℝ) ^ (-1022 : ℤ) ≤ 2 ^ (-100 : ℤ) := zpow_le_zpow_right₀ (by norm_num) (by norm_num)
    calc 2 * (m : ℝ) * 2 ^ (-1022 : ℤ) ≤ 2 * 2 ^ 31 * 2 ^ (-100 : ℤ) := by gcongr
      _ ≤ 1 := by norm_num

theorem firstVerdictR_eq {verdict : List Nat → Bool} {sets : List (List Nat)} :
    ∃ f, firstVerdictR verdict sets = (sets.any verdict, f) ∧ (sets.any verdict = true → f = some (sets.findIdx verdict)) := by
  unfold firstVerdictR
  cases hf : (List.range sets.length).find? (fun e => verdict (sets.getD e [])) with
  | none =>
    have hany : sets.any verdict = false := by
      rw [List.any_eq_false]
      intro s hs
      obtain ⟨e, he, rfl⟩ := List.getElem_of_mem hs
      rw [List.find?_eq_none] at hf
      have := hf e (by simpa using he)
      simpa [he] using this
    exact ⟨none, by rw [hany], by rw [hany]; simp⟩
  | some e =>
    rw [List.find?_eq_some_iff_getElem] at hf
    obtain ⟨h1, i, hi, h2, h3⟩ := hf
    have hi' : i < sets.length := by simpa using hi
    have hie : i = e := by simpa using h2
    subst hie
    have hvi : verdict sets[i] = true := by simpa [hi'] using h1
    have hany : sets.any verdict = true := List.any_eq_true.2 ⟨_, List.getElem_mem hi', hvi⟩
    refine ⟨some i, by rw [hany], fun _ => ?_⟩
    congr 1
    symm
    rw [List.findIdx_eq hi']
    refine ⟨hvi, ?_⟩
    intro j hj
    have := h3 j hj
    simp only [List.getElem_range] at this
    have hjl : j < sets.length := by omega
    simpa [hjl] using this

end FastPGM
