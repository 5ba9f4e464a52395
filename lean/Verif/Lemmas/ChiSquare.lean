import Verif.Spec.ChiSquare
import Verif.Spec.Consistency
import Mathlib.Analysis.SpecialFunctions.Exp

/-!
Facts about the chi-square distribution.
-/

namespace FastPGM

open Spec ProbabilityTheory MeasureTheory

theorem half_pos' {df : Nat} (h : 0 < df) : (0 : ℝ) < (df : ℝ) / 2 := by
  have : (0 : ℝ) < df := by exact_mod_cast h
  positivity

theorem chiSquare_mono {g h : ℝ} {df : Nat} (hgh : g ≤ h) : chiSquare g df ≤ chiSquare h df := monotone_cdf _ hgh

/-- The probability of a value above `g`. -/
theorem chiSquare_tail (g : ℝ) {df : Nat} (hdf : 0 < df) :
    1 - chiSquare g df = (gammaMeasure ((df : ℝ) / 2) (1 / 2)).real (Set.Ioi g) := by
  have := isProbabilityMeasure_gammaMeasure (half_pos' hdf) (show (0 : ℝ) < 1 / 2 by norm_num)
  unfold chiSquare
  rw [cdf_eq_real, ← probReal_compl_eq_one_sub measurableSet_Iic, Set.compl_Iic]

theorem chiSquare_lt_one {g : ℝ} {df : Nat} (hdf : 0 < df) : chiSquare g df < 1 := by
  have := isProbabilityMeasure_gammaMeasure (half_pos' hdf) (show (0 : ℝ) < 1 / 2 by norm_num)
  have h : 0 < (gammaMeasure ((df : ℝ) / 2) (1 / 2)).real (Set.Ioi g) := by
    rw [measureReal_def, ENNReal.toReal_pos_iff]
    refine ⟨?_, measure_lt_top _ _⟩
    unfold gammaMeasure
    rw [withDensity_apply _ measurableSet_Ioi, setLIntegral_pos_iff (by
      unfold gammaPDF
      exact (measurable_gammaPDFReal _ _).ennreal_ofReal)]
    refine lt_of_lt_of_le ?_ (measure_mono (s := Set.Ioi (max g 0)) ?_)
    · rw [Real.volume_Ioi]
      exact ENNReal.zero_lt_top
    · intro x hx
      have hx' : max g 0 < x := hx
      refine ⟨?_, lt_of_le_of_lt (le_max_left _ _) hx'⟩
      rw [Function.mem_support]
      unfold gammaPDF
      exact (ENNReal.ofReal_pos.2 (gammaPDFReal_pos (half_pos' hdf) (by norm_num) (lt_of_le_of_lt (le_max_right _ _) hx'))).ne'
  rw [← chiSquare_tail g hdf] at h
  linarith

theorem chiSquare_zero {df : Nat} (hdf : 0 < df) : chiSquare 0 df = 0 := by
  unfold chiSquare
  rw [cdf_gammaMeasure_eq_lintegral (half_pos' hdf) (by norm_num), ← setLIntegral_congr Iio_ae_eq_Iic,
    lintegral_gammaPDF_of_nonpos le_rfl, ENNReal.toReal_zero]

theorem chiSquare_pos {g : ℝ} {df : Nat} (hdf : 0 < df) (hg : 0 < g) : 0 < chiSquare g df := by
  have := isProbabilityMeasure_gammaMeasure (half_pos' hdf) (show (0 : ℝ) < 1 / 2 by norm_num)
  unfold chiSquare
  rw [cdf_eq_real, measureReal_def, ENNReal.toReal_pos_iff]
  refine ⟨?_, measure_lt_top _ _⟩
  unfold gammaMeasure
  rw [withDensity_apply _ measurableSet_Iic, setLIntegral_pos_iff (by
    unfold gammaPDF
    exact (measurable_gammaPDFReal _ _).ennreal_ofReal)]
  refine lt_of_lt_of_le ?_ (measure_mono (s := Set.Ioc 0 g) ?_)
  · rw [Real.volume_Ioc]
    exact ENNReal.ofReal_pos.2 (by linarith)
  · intro x hx
    refine ⟨?_, hx.2⟩
    rw [Function.mem_support]
    unfold gammaPDF
    exact (ENNReal.ofReal_pos.2 (gammaPDFReal_pos (half_pos' hdf) (by norm_num) hx.1)).ne'

/-- The tail decreases exponentially. -/
theorem chiSquare_tail_le {g : ℝ} {df : Nat} (hdf : 0 < df) (hg : 0 ≤ g) :
    1 - chiSquare g df ≤ 2 ^ ((df : ℝ) / 2) * Real.exp (-g / 4) := by
  set a : ℝ := (df : ℝ) / 2 with ha
  have ha0 : 0 < a := half_pos' hdf
  rw [chiSquare_tail g hdf, measureReal_def]
  apply ENNReal.toReal_le_of_le_ofReal (by positivity)
  unfold gammaMeasure
  rw [withDensity_apply _ measurableSet_Ioi]
  calc ∫⁻ x in Set.Ioi g, gammaPDF a (1 / 2) x
      ≤ ∫⁻ x in Set.Ioi g, ENNReal.ofReal (2 ^ a * Real.exp (-g / 4)) * gammaPDF a (1 / 4) x := by
        refine setLIntegral_mono' measurableSet_Ioi (fun x hx => ?_)
        have hx' : g < x := hx
        have hx0 : 0 ≤ x := hg.trans hx'.le
        rw [gammaPDF_of_nonneg hx0, gammaPDF_of_nonneg hx0, ← ENNReal.ofReal_mul (by positivity)]
        apply ENNReal.ofReal_le_ofReal
        have e1 : ((1 : ℝ) / 2) ^ a = 2 ^ a * (1 / 4) ^ a := by
          rw [← Real.mul_rpow (by norm_num) (by norm_num)]
          norm_num
        have e2 : Real.exp (-(1 / 2 * x)) = Real.exp (-(1 / 4 * x)) * Real.exp (-(1 / 4 * x)) := by
          rw [← Real.exp_add]
          ring_nf
        have e3 : Real.exp (-(1 / 4 * x)) ≤ Real.exp (-g / 4) := Real.exp_le_exp.2 (by linarith)
        rw [e1, e2]
        have hG := Real.Gamma_pos_of_pos ha0
        have := mul_le_mul_of_nonneg_left e3 (show 0 ≤ 2 ^ a * (1 / 4) ^ a / Real.Gamma a * x ^ (a - 1) * Real.exp (-(1 / 4 * x)) by positivity)
        calc _ = 2 ^ a * (1 / 4) ^ a / Real.Gamma a * x ^ (a - 1) * Real.exp (-(1 / 4 * x)) * Real.exp (-(1 / 4 * x)) := by ring
          _ ≤ _ := this
          _ = _ := by ring
    _ ≤ ∫⁻ x, ENNReal.ofReal (2 ^ a * Real.exp (-g / 4)) * gammaPDF a (1 / 4) x := setLIntegral_le_lintegral _ _
    _ = ENNReal.ofReal (2 ^ a * Real.exp (-g / 4)) := by
        rw [lintegral_const_mul _ (by
          unfold gammaPDF
          exact (measurable_gammaPDFReal _ _).ennreal_ofReal), lintegral_gammaPDF_eq_one ha0 (by norm_num), mul_one]

/-- Levels `1 / (m + 1)` tend to 0 slowly compared to the tails of the chi-square distributions. -/
theorem chiSquare_slow : SlowLevels (fun g df => some (chiSquare g df)) chiSquare (fun m => 1 / ((m : ℝ) + 1)) := by
  refine ⟨fun _ _ _ _ => rfl, fun _ _ _ _ _ h => chiSquare_mono h, fun _ _ h _ => chiSquare_lt_one h,
    tendsto_one_div_add_atTop_nhds_zero_nat, ?_⟩
  intro c df hc hdf
  set K : ℝ := 2 ^ ((df : ℝ) / 2) with hK
  have hK0 : 0 < K := by positivity
  filter_upwards [tendsto_natCast_atTop_atTop.eventually_ge_atTop (64 * K / c ^ 2), Filter.eventually_ge_atTop 1] with m hm hm1
  have hm1' : (1 : ℝ) ≤ m := by exact_mod_cast hm1
  have h0 : 0 ≤ c * m / 4 := by positivity
  refine le_trans (chiSquare_tail_le hdf (by positivity)) ?_
  have h1 := Real.quadratic_le_exp_of_nonneg h0
  rw [div_le_iff₀ (by positivity)] at hm
  have h2 : K * ((m : ℝ) + 1) ≤ (c * m / 4) ^ 2 / 2 := by
    have h3 := mul_le_mul_of_nonneg_right hm (show (0 : ℝ) ≤ m by positivity)
    have h4 : K * ((m : ℝ) + 1) ≤ K * (2 * m) := mul_le_mul_of_nonneg_left (by linarith) hK0.le
    have e : (m : ℝ) * c ^ 2 * m = 32 * ((c * m / 4) ^ 2 / 2) := by ring
    rw [e] at h3
    linarith
  have h5 : K * ((m : ℝ) + 1) ≤ Real.exp (c * m / 4) := by linarith
  have e : Real.exp (-(c * m) / 4) = 1 / Real.exp (c * m / 4) := by
    rw [one_div, ← Real.exp_neg]
    ring_nf
  rw [e, mul_one_div, div_le_div_iff₀ (Real.exp_pos _) (by positivity), one_mul]
  exact h5

end FastPGM
