import Verif.Lemmas.RoundedTest2

/-!
The rounding error of the terms of the G² statistic and of their sum.
-/

namespace FastPGM

open Spec

theorem roundedTo_factor {u tiny x y : ℝ} (h : RoundedTo u tiny x y) (hx : 0 < x) (ht : tiny ≤ x) : ∃ a, |a| ≤ u ∧ y = x * (1 + a) := by
  refine ⟨y / x - 1, ?_, by field_simp; ring⟩
  unfold RoundedTo at h
  rw [abs_of_pos hx, max_eq_left ht] at h
  rw [show y / x - 1 = (y - x) / x by field_simp, abs_div, abs_of_pos hx, div_le_iff₀ hx]
  exact h

theorem roundedTo_sum {u tiny x y : ℝ} (hu : 0 ≤ u) (ht : 0 ≤ tiny) (h : RoundedTo u tiny x y) : |y - x| ≤ u * (|x| + tiny) :=
  h.trans (mul_le_mul_of_nonneg_left (max_le (by linarith) (by linarith [abs_nonneg x])) hu)

theorem log_one_add {u a : ℝ} (hu : u ≤ 1 / 64) (ha : |a| ≤ u) : |Real.log (1 + a)| ≤ 2 * u := by
  obtain ⟨h1, h2⟩ := abs_le.1 ha
  have hp : 0 < 1 + a := by linarith
  have hu0 : 0 ≤ u := (abs_nonneg a).trans ha
  rw [abs_le]
  constructor
  · have h := Real.one_sub_inv_le_log_of_pos hp
    have : -(2 * u) ≤ 1 - (1 + a)⁻¹ := by
      rw [show 1 - (1 + a)⁻¹ = a / (1 + a) by field_simp; ring, le_div_iff₀ hp]
      nlinarith
    linarith
  · have h := Real.log_le_sub_one_of_pos hp
    linarith

/-- The logarithm of the ratio of a cell is at most that of the number of instances. -/
theorem ratio_bounds {m : ℝ} {n r c t : ℝ} (hn : 1 ≤ n) (hr : n ≤ r) (hc : n ≤ c) (hrt : r ≤ t) (hct : c ≤ t) (ht : t ≤ m) :
    1 / m ≤ n / (c * r / t) ∧ n / (c * r / t) ≤ m := by
  have hr0 : 0 < r := by linarith
  have hc0 : 0 < c := by linarith
  have ht0 : 0 < t := by linarith
  have hm0 : 0 < m := by linarith
  have e : n / (c * r / t) = n * t / (c * r) := by field_simp
  rw [e]
  constructor
  · rw [div_le_div_iff₀ hm0 (mul_pos hc0 hr0)]
    calc 1 * (c * r) ≤ t * m := by
          rw [one_mul]
          exact mul_le_mul hct (hrt.trans ht) hr0.le ht0.le
      _ ≤ n * t * m := by nlinarith [mul_pos ht0 hm0]
  · rw [div_le_iff₀ (mul_pos hc0 hr0)]
    calc n * t ≤ r * m := mul_le_mul hr ht ht0.le hr0.le
      _ ≤ m * (c * r) := by nlinarith [mul_pos hr0 hm0]

theorem abs_log_le {m x : ℝ} (hm : 1 ≤ m) (h1 : 1 / m ≤ x) (h2 : x ≤ m) : |Real.log x| ≤ Real.log m := by
  have hm0 : 0 < m := by linarith
  have hx : 0 < x := lt_of_lt_of_le (by positivity) h1
  rw [abs_le]
  constructor
  · have := Real.log_le_log (by positivity) h1
    rwa [one_div, Real.log_inv] at this
  · exact Real.log_le_log hx h2

section

variable {o : DoubleOps ℝ} {u tiny hi : ℝ}

/-- The computed ratio. -/
theorem ratio_error (ho : AccurateOps o u tiny hi) (hu0 : 0 ≤ u) (hu : u ≤ 1 / 64) {m n r c t : ℝ} (htm : 2 * m * tiny ≤ 1)
    (hhi : 8 * m ^ 2 ≤ hi) (hn' : 1 ≤ n) (hr' : n ≤ r) (hc' : n ≤ c) (hrt' : r ≤ t) (hct' : c ≤ t) (htm' : t ≤ m) :
    ∃ a b d, |a| ≤ u ∧ |b| ≤ u ∧ |d| ≤ u ∧
      o.div n (o.div (o.mul c r) t) = n / (c * r / t) / ((1 + a) * (1 + b)) * (1 + d) := by
  have hr0 : 0 < r := by linarith
  have hc0 : 0 < c := by linarith
  have ht0' : 0 < t := by linarith
  have hm1 : 1 ≤ m := by linarith
  have hm0 : 0 < m := by linarith
  have hmm : m ≤ m ^ 2 := by nlinarith
  have htiny : tiny ≤ 1 / (2 * m) := by rw [le_div_iff₀ (by positivity)]; linarith
  have htiny1 : tiny ≤ 1 / 2 := htiny.trans (by rw [div_le_div_iff₀ (by positivity) (by norm_num)]; linarith)
  -- the expected number
  have hcr : c * r ≤ m ^ 2 := by rw [sq]; exact mul_le_mul (by linarith) (by linarith) hr0.le hm0.le
  have hcr1 : 1 ≤ c * r := by nlinarith
  obtain ⟨a, ha, e1⟩ := roundedTo_factor (ho.mul c r (by rw [abs_of_pos (by linarith)]; linarith)) (by linarith) (by linarith)
  rw [e1]
  obtain ⟨a1, a2⟩ := abs_le.1 ha
  have hxb := ratio_bounds hn' hr' hc' hrt' hct' htm'
  have hx0 : 0 < n / (c * r / t) := by positivity
  have hexp : 1 / m ≤ c * r / t ∧ c * r / t ≤ m := by
    constructor
    · rw [div_le_div_iff₀ hm0 ht0']; nlinarith
    · rw [div_le_iff₀ ht0']; nlinarith
  have hE0 : 0 < c * r / t := by positivity
  have eE : c * r * (1 + a) / t = c * r / t * (1 + a) := by ring
  have hlow1 : 1 / (2 * m) ≤ c * r / t * (1 + a) := by
    have : 1 / (2 * m) = 1 / m * (1 / 2) := by field_simp
    rw [this]
    exact mul_le_mul hexp.1 (by linarith) (by norm_num) hE0.le
  have hup1 : c * r / t * (1 + a) ≤ m * 2 := mul_le_mul hexp.2 (by linarith) (by linarith) hm0.le
  obtain ⟨b, hb, e2⟩ := roundedTo_factor (ho.div (c * r * (1 + a)) t ht0'.ne' (by rw [eE, abs_of_pos (lt_of_lt_of_le (by positivity) hlow1)]; linarith))
    (by rw [eE]; exact lt_of_lt_of_le (by positivity) hlow1) (by rw [eE]; linarith)
  rw [e2, eE]
  obtain ⟨b1, b2⟩ := abs_le.1 hb
  -- the ratio
  have hab : 1 / 2 ≤ (1 + a) * (1 + b) ∧ (1 + a) * (1 + b) ≤ 2 := by constructor <;> nlinarith
  have hab0 : 0 < (1 + a) * (1 + b) := by linarith
  have eX : n / (c * r / t * (1 + a) * (1 + b)) = n / (c * r / t) / ((1 + a) * (1 + b)) := by rw [mul_assoc, div_mul_eq_div_div]
  have hXlow : 1 / (2 * m) ≤ n / (c * r / t) / ((1 + a) * (1 + b)) := by
    rw [le_div_iff₀ hab0]
    calc 1 / (2 * m) * ((1 + a) * (1 + b)) ≤ 1 / (2 * m) * 2 := mul_le_mul_of_nonneg_left hab.2 (by positivity)
      _ = 1 / m := by field_simp
      _ ≤ _ := hxb.1
  have hXup : n / (c * r / t) / ((1 + a) * (1 + b)) ≤ 2 * m := by
    rw [div_le_iff₀ hab0]
    nlinarith
  have hX0 : 0 < n / (c * r / t) / ((1 + a) * (1 + b)) := by positivity
  obtain ⟨d, hd, e3⟩ := roundedTo_factor (ho.div n (c * r / t * (1 + a) * (1 + b)) (by
      rw [mul_assoc]; exact (mul_pos hE0 hab0).ne') (by rw [eX, abs_of_pos hX0]; linarith))
    (by rw [eX]; exact hX0) (by rw [eX]; linarith)
  exact ⟨a, b, d, ha, hb, hd, by rw [e3, eX]⟩

/-- The rounding error of the logarithm of the ratio. -/
theorem log_error (ho : AccurateOps o u tiny hi) (hu0 : 0 ≤ u) (hu : u ≤ 1 / 64) (ht0 : 0 ≤ tiny) {m n r c t : ℝ} (htm : 2 * m * tiny ≤ 1)
    (hhi : 8 * m ^ 2 ≤ hi) (hn' : 1 ≤ n) (hr' : n ≤ r) (hc' : n ≤ c) (hrt' : r ≤ t) (hct' : c ≤ t) (htm' : t ≤ m) :
    |o.log (o.div n (o.div (o.mul c r) t)) - Real.log (n / (c * r / t))| ≤ u * (Real.log m + 7) := by
  have hm1 : 1 ≤ m := by linarith
  have hm0 : 0 < m := by linarith
  have hmm : m ≤ m ^ 2 := by nlinarith
  have htiny1 : tiny ≤ 1 / 2 := by nlinarith
  have hxb := ratio_bounds hn' hr' hc' hrt' hct' htm'
  have hx0 : 0 < n / (c * r / t) := lt_of_lt_of_le (by positivity) hxb.1
  obtain ⟨a, b, d, ha, hb, hd, e⟩ := ratio_error ho hu0 hu htm hhi hn' hr' hc' hrt' hct' htm'
  rw [e]
  obtain ⟨a1, a2⟩ := abs_le.1 ha
  obtain ⟨b1, b2⟩ := abs_le.1 hb
  have hab0 : 0 < (1 + a) * (1 + b) := mul_pos (by linarith) (by linarith)
  clear e hr' hc' hrt' hct' htm'
  obtain ⟨d1, d2⟩ := abs_le.1 hd
  generalize n / (c * r / t) = x at hxb hx0 ⊢
  have hX0 : 0 < x / ((1 + a) * (1 + b)) := div_pos hx0 hab0
  have hL := abs_log_le hm1 hxb.1 hxb.2
  set L := Real.log m with hLdef
  have hL0 : 0 ≤ L := Real.log_nonneg hm1
  have hLm : L ≤ m := by have := Real.log_le_sub_one_of_pos hm0; linarith
  have hlogX : Real.log (x / ((1 + a) * (1 + b)) * (1 + d)) = Real.log x - (Real.log (1 + a) + Real.log (1 + b)) + Real.log (1 + d) := by
    rw [Real.log_mul hX0.ne' (by linarith), Real.log_div hx0.ne' hab0.ne', Real.log_mul (by linarith) (by linarith)]
  have hdiff : |Real.log (x / ((1 + a) * (1 + b)) * (1 + d)) - Real.log x| ≤ 6 * u := by
    rw [hlogX]
    have h1 := abs_le.1 (log_one_add hu ha)
    have h2 := abs_le.1 (log_one_add hu hb)
    have h3 := abs_le.1 (log_one_add hu hd)
    rw [abs_le]
    constructor <;> linarith [h1.1, h1.2, h2.1, h2.2, h3.1, h3.2]
  have hX2 : 0 < x / ((1 + a) * (1 + b)) * (1 + d) := mul_pos hX0 (by linarith)
  generalize x / ((1 + a) * (1 + b)) * (1 + d) = X at hdiff hX2 ⊢
  have hlogX' : |Real.log X| ≤ L + 6 * u := by
    have := abs_le.1 hdiff
    have h' := abs_le.1 hL
    rw [abs_le]
    constructor <;> linarith [this.1, this.2, h'.1, h'.2]
  have hlg := roundedTo_sum hu0 ht0 (ho.log X hX2 (by nlinarith))
  have hD : |o.log X - Real.log x| ≤ u * (L + 7) := by
    have h1 : |o.log X - Real.log X| ≤ u * (L + 6 * u + tiny) := hlg.trans (mul_le_mul_of_nonneg_left (by linarith) hu0)
    have h2 : u * (L + 6 * u + tiny) ≤ u * (L + 1) := mul_le_mul_of_nonneg_left (by linarith) hu0
    have h3 := abs_le.1 (h1.trans h2)
    have h4 := abs_le.1 hdiff
    rw [abs_le]
    constructor <;> linarith [h3.1, h3.2, h4.1, h4.2]
  exact hD

/-- The rounding error of a product with a logarithm. -/
theorem mul_error (ho : AccurateOps o u tiny hi) (hu0 : 0 ≤ u) (hu : u ≤ 1 / 64) (ht0 : 0 ≤ tiny) (htiny1 : tiny ≤ 1 / 2) {m n l x L : ℝ}
    (hhi : 8 * m ^ 2 ≤ hi) (hn' : 1 ≤ n) (hnm : n ≤ m) (hL0 : 0 ≤ L) (hLm : L ≤ m) (hL : |x| ≤ L) (hD : |l - x| ≤ u * (L + 7)) :
    |o.mul (o.mul 2 n) l - 2 * n * x| + u * tiny ≤ 8 * n * u * (L + 2) := by
  have hm0 : 0 < m := by linarith
  have hmm : m ≤ m ^ 2 := by nlinarith
  have hl : |l| ≤ L + u * (L + 7) := by
    have h3 := abs_le.1 hD
    have h4 := abs_le.1 hL
    rw [abs_le]
    constructor <;> linarith [h3.1, h3.2, h4.1, h4.2]
  -- the factor
  obtain ⟨f, hf, e4⟩ := roundedTo_factor (ho.mul 2 n (by rw [abs_of_pos (by linarith)]; nlinarith)) (by linarith) (by linarith)
  rw [e4]
  obtain ⟨f1, f2⟩ := abs_le.1 hf
  have huL : u * (L + 7) ≤ 1 / 64 * (L + 7) := mul_le_mul_of_nonneg_right hu (by linarith)
  have hw : |2 * n * (1 + f)| ≤ 2 * n * (65 / 64) := by
    rw [abs_of_pos (mul_pos (by linarith) (by linarith))]
    exact mul_le_mul_of_nonneg_left (by linarith) (by linarith)
  have hwl : |2 * n * (1 + f) * l| ≤ 2 * n * (65 / 64) * (L + 1 / 64 * (L + 7)) := by
    rw [abs_mul]
    exact mul_le_mul hw (by linarith) (abs_nonneg _) (by linarith)
  have hnL : n * L ≤ m ^ 2 := by rw [sq]; exact mul_le_mul (by linarith) hLm hL0 hm0.le
  have hn2 : n ≤ m ^ 2 := by linarith
  have hm' := roundedTo_sum hu0 ht0 (ho.mul (2 * n * (1 + f)) l (by nlinarith))
  · have hu1 : u * (|2 * n * (1 + f) * l| + tiny) ≤ u * (2 * n * (65 / 64) * (L + 1 / 64 * (L + 7)) + tiny) :=
      mul_le_mul_of_nonneg_left (by linarith) hu0
    have hfL : |2 * n * f * x| ≤ 2 * n * u * L := by
      rw [abs_mul, abs_mul, abs_of_pos (by linarith : 0 < 2 * n)]
      exact mul_le_mul (mul_le_mul_of_nonneg_left hf (by linarith)) hL (abs_nonneg _) (by positivity)
    have hwD : |2 * n * (1 + f) * (l - x)| ≤ 2 * n * (65 / 64) * (u * (L + 7)) := by
      rw [abs_mul]
      exact mul_le_mul hw hD (abs_nonneg _) (by linarith)
    have hut : u * tiny ≤ u * (1 / 2) := mul_le_mul_of_nonneg_left htiny1 hu0
    have hun : u ≤ n * u := by nlinarith
    have hnuL : 0 ≤ n * u * L := by positivity
    have key : |o.mul (2 * n * (1 + f)) l - 2 * n * x| ≤
        u * (2 * n * (65 / 64) * (L + 1 / 64 * (L + 7)) + tiny) + 2 * n * (65 / 64) * (u * (L + 7)) + 2 * n * u * L := by
      have e : o.mul (2 * n * (1 + f)) l - 2 * n * x =
          (o.mul (2 * n * (1 + f)) l - 2 * n * (1 + f) * l) + 2 * n * (1 + f) * (l - x) + 2 * n * f * x := by ring
      rw [e]
      refine (abs_add_le _ _).trans (add_le_add ((abs_add_le _ _).trans (add_le_add (hm'.trans hu1) hwD)) hfL)
    refine (add_le_add_left key _).trans ?_
    nlinarith

/-- The rounding error of one term. -/
theorem term_error (ho : AccurateOps o u tiny hi) (hu0 : 0 ≤ u) (hu : u ≤ 1 / 64) (ht0 : 0 ≤ tiny) {m : Nat} (htm : 2 * m * tiny ≤ 1)
    (hm : m < 2 ^ 53) (hhi : 8 * (m : ℝ) ^ 2 ≤ hi) {q : TableCell} (hq : GoodCell m q) (hpos : q.1 ≠ 0) :
    |o.term q.1 q.2.1 q.2.2.1 q.2.2.2 - gTerm Real.log q.1 q.2.1 q.2.2.1 q.2.2.2| + u * tiny ≤ 8 * q.1 * u * (Real.log m + 2) ∧
      |gTerm Real.log q.1 q.2.1 q.2.2.1 q.2.2.2| ≤ 2 * q.1 * Real.log m := by
  obtain ⟨n, r, c, t⟩ := q
  obtain ⟨q1, q2, q3, q4, q5⟩ := hq
  dsimp only at *
  have hn' : (1 : ℝ) ≤ n := by exact_mod_cast (show 1 ≤ n by omega)
  have hr' : (n : ℝ) ≤ r := by exact_mod_cast q1
  have hc' : (n : ℝ) ≤ c := by exact_mod_cast q2
  have hrt' : (r : ℝ) ≤ t := by exact_mod_cast q3
  have hct' : (c : ℝ) ≤ t := by exact_mod_cast q4
  have htm' : (t : ℝ) ≤ m := by exact_mod_cast q5
  have hm1 : (1 : ℝ) ≤ m := by linarith
  have hxb := ratio_bounds hn' hr' hc' hrt' hct' htm'
  have hL := abs_log_le hm1 hxb.1 hxb.2
  unfold DoubleOps.term
  rw [gTerm, if_neg hpos, ho.two, ho.ofCount n (by omega), ho.ofCount r (by omega), ho.ofCount c (by omega), ho.ofCount t (by omega)]
  refine ⟨mul_error ho hu0 hu ht0 (by nlinarith) hhi hn' (by linarith) (Real.log_nonneg hm1)
    (by have := Real.log_le_sub_one_of_pos (show (0 : ℝ) < m by linarith); linarith) hL
    (log_error ho hu0 hu ht0 htm hhi hn' hr' hc' hrt' hct' htm'), ?_⟩
  rw [abs_mul, abs_of_pos (by linarith : (0 : ℝ) < 2 * n)]
  exact mul_le_mul_of_nonneg_left hL (by linarith)

end

end FastPGM
