import Verif.Lemmas.RoundedTest3

/-!
The rounding error of the sum of the terms, and the verdicts of tests that are far enough from the threshold.
-/

namespace FastPGM

open Spec

variable {o : DoubleOps ℝ} {u tiny hi : ℝ}

/-- The number of cells that are not empty. -/
def filled (l : List TableCell) : Nat := l.countP (fun q => decide (0 < q.1))

/-- The sum of the counts. -/
def weight (l : List TableCell) : Nat := (l.map (fun q => q.1)).sum

/-- The exact statistic. -/
noncomputable def exactSum (l : List TableCell) : ℝ := (l.map (fun q => gTerm Real.log q.1 q.2.1 q.2.2.1 q.2.2.2)).sum

theorem fold_algebra1 (u e ε A t : ℝ) : u * (A + e + ε - u * t + t) + (e + (ε - u * t)) = (1 + u) * (e + ε) + u * A - u * (u * t) := by ring

theorem fold_algebra2 (u e G n L W c : ℝ) :
    (1 + u) * (e + 8 * u * (L + 2) * (n + W) + (c + 1) * u * (G + 2 * (n + W) * L)) =
      (1 + u) * (e + 8 * n * u * (L + 2)) + u * (G + 2 * n * L) + 8 * u * (L + 2) * W + c * u * (G + 2 * (n + W) * L) +
        (u * (8 * (u * (L + 2) * W)) + u * (c * u * (G + 2 * (n + W) * L)) + u * (u * (G + 2 * (n + W) * L)) + 2 * (u * (W * L))) := by ring

theorem fold_error (ho : AccurateOps o u tiny hi) (hu0 : 0 ≤ u) (hu : u ≤ 1 / 64) (ht0 : 0 ≤ tiny) {m : Nat} (htm : 2 * m * tiny ≤ 1)
    (hm : m < 2 ^ 53) (hhi : 8 * (m : ℝ) ^ 2 ≤ hi) (l : List TableCell) (hl : ∀ q ∈ l, GoodCell m q) (g' g e G : ℝ) (he : |g' - g| ≤ e) (hG : |g| ≤ G)
    (hfit : (1 + u) ^ filled l * (e + 8 * u * (Real.log m + 2) * weight l + filled l * u * (G + 2 * weight l * Real.log m)) +
      (G + 2 * weight l * Real.log m) ≤ hi) :
    |l.foldl o.step g' - (g + exactSum l)| ≤
      (1 + u) ^ filled l * (e + 8 * u * (Real.log m + 2) * weight l + filled l * u * (G + 2 * weight l * Real.log m)) := by
  have hL0 : 0 ≤ Real.log m := Real.log_natCast_nonneg m
  set L := Real.log (m : ℝ) with hLdef
  induction l generalizing g' g e G with
  | nil =>
    simp only [filled, weight, exactSum, List.countP_nil, List.map_nil, List.sum_nil, List.foldl_nil, pow_zero, Nat.cast_zero]
    simpa using he
  | cons q l ih =>
    have ih := ih (fun q hq => hl q (by simp [hq]))
    have hw : weight (q :: l) = q.1 + weight l := by simp [weight]
    have hs : exactSum (q :: l) = gTerm Real.log q.1 q.2.1 q.2.2.1 q.2.2.2 + exactSum l := by simp [exactSum]
    rw [List.foldl_cons, DoubleOps.step]
    by_cases h0 : q.1 = 0
    · have hfl : filled (q :: l) = filled l := by simp [filled, h0]
      have hw' : weight (q :: l) = weight l := by rw [hw, h0, zero_add]
      rw [if_pos h0, hs, gTerm, if_pos h0, zero_add, hfl, hw']
      rw [hfl, hw'] at hfit
      exact ih g' g e G he hG hfit
    · have hfl : filled (q :: l) = filled l + 1 := by simp [filled, Nat.pos_of_ne_zero h0]
      rw [if_neg h0, hs, ← add_assoc]
      obtain ⟨t1, t2⟩ := term_error ho hu0 hu ht0 htm hm hhi (hl q (by simp)) h0
      rw [← hLdef] at t1 t2
      rw [hfl, hw] at hfit ⊢
      push_cast at hfit ⊢
      generalize o.term q.1 q.2.1 q.2.2.1 q.2.2.2 = t at *
      generalize gTerm Real.log q.1 q.2.1 q.2.2.1 q.2.2.2 = T at *
      generalize hn : (q.1 : ℝ) = n at *
      have hn0 : 0 ≤ n := by rw [← hn]; exact Nat.cast_nonneg _
      generalize hW : (weight l : ℝ) = W at *
      have hW0 : 0 ≤ W := by rw [← hW]; exact Nat.cast_nonneg _
      generalize hc : filled l = c at *
      have hc0 : (0 : ℝ) ≤ c := Nat.cast_nonneg _
      have he0 : 0 ≤ e := (abs_nonneg _).trans he
      have hG0 : 0 ≤ G := (abs_nonneg _).trans hG
      have hP : 1 ≤ (1 + u) ^ c := one_le_pow₀ (by linarith)
      have hut : 0 ≤ u * tiny := mul_nonneg hu0 ht0
      -- the next values
      have hs1 : |g' + t - (g + T)| ≤ e + (8 * n * u * (L + 2) - u * tiny) := by
        have e1 : g' + t - (g + T) = (g' - g) + (t - T) := by ring
        rw [e1]
        exact (abs_add_le _ _).trans (by linarith)
      have hg1 : |g + T| ≤ G + 2 * n * L := (abs_add_le _ _).trans (by linarith)
      have hs2 : |g' + t| ≤ G + 2 * n * L + e + 8 * n * u * (L + 2) - u * tiny := by
        have e1 : g' + t = (g + T) + (g' + t - (g + T)) := by ring
        rw [e1]
        exact (abs_add_le _ _).trans (by linarith)
      have hH : G + 2 * n * L + 2 * W * L = G + 2 * (n + W) * L := by ring
      have hWL : 0 ≤ W * L := mul_nonneg hW0 hL0
      have hnL : 0 ≤ n * L := mul_nonneg hn0 hL0
      have hnu : 0 ≤ n * u * (L + 2) := mul_nonneg (mul_nonneg hn0 hu0) (by linarith)
      have hWu : 0 ≤ u * (L + 2) * W := mul_nonneg (mul_nonneg hu0 (by linarith)) hW0
      have hcu : 0 ≤ c * u * (G + 2 * (n + W) * L) := mul_nonneg (mul_nonneg hc0 hu0) (by linarith)
      have huH : 0 ≤ u * (G + 2 * (n + W) * L) := mul_nonneg hu0 (by linarith)
      have hB : 0 ≤ e + 8 * u * (L + 2) * (n + W) + (c + 1) * u * (G + 2 * (n + W) * L) := by linarith
      have hP' : 1 ≤ (1 + u) ^ (c + 1) := one_le_pow₀ (by linarith)
      have hBle : e + 8 * u * (L + 2) * (n + W) + (c + 1) * u * (G + 2 * (n + W) * L) ≤
          (1 + u) ^ (c + 1) * (e + 8 * u * (L + 2) * (n + W) + (c + 1) * u * (G + 2 * (n + W) * L)) := le_mul_of_one_le_left hB hP'
      have hadd := roundedTo_sum hu0 ht0 (ho.add g' t (by linarith))
      have he' : |o.add g' t - (g + T)| ≤ (1 + u) * (e + 8 * n * u * (L + 2)) + u * (G + 2 * n * L) := by
        have e1 : o.add g' t - (g + T) = (o.add g' t - (g' + t)) + (g' + t - (g + T)) := by ring
        rw [e1]
        refine (abs_add_le _ _).trans ?_
        have h1 : u * (|g' + t| + tiny) ≤ u * (G + 2 * n * L + e + 8 * n * u * (L + 2) - u * tiny + tiny) :=
          mul_le_mul_of_nonneg_left (by linarith) hu0
        have h2 : 0 ≤ u * (u * tiny) := mul_nonneg hu0 hut
        have h3 := fold_algebra1 u e (8 * n * u * (L + 2)) (G + 2 * n * L) tiny
        linarith
      have hstep : (1 + u) * (e + 8 * n * u * (L + 2)) + u * (G + 2 * n * L) + 8 * u * (L + 2) * W + c * u * (G + 2 * n * L + 2 * W * L) ≤
          (1 + u) * (e + 8 * u * (L + 2) * (n + W) + (c + 1) * u * (G + 2 * (n + W) * L)) := by
        rw [hH]
        rw [fold_algebra2]
        have h1 : 0 ≤ u * (8 * (u * (L + 2) * W)) := mul_nonneg hu0 (by linarith)
        have h2 : 0 ≤ u * (c * u * (G + 2 * (n + W) * L)) := mul_nonneg hu0 hcu
        have h3 : 0 ≤ u * (u * (G + 2 * (n + W) * L)) := mul_nonneg hu0 huH
        have h4 : 0 ≤ u * (W * L) := mul_nonneg hu0 hWL
        linarith
      have htot : (1 + u) ^ c * ((1 + u) * (e + 8 * n * u * (L + 2)) + u * (G + 2 * n * L) + 8 * u * (L + 2) * W +
          c * u * (G + 2 * n * L + 2 * W * L)) ≤
          (1 + u) ^ (c + 1) * (e + 8 * u * (L + 2) * (n + W) + (c + 1) * u * (G + 2 * (n + W) * L)) := by
        rw [pow_succ, mul_assoc ((1 + u) ^ c)]
        exact mul_le_mul_of_nonneg_left hstep (zero_le_one.trans hP)
      refine (ih (o.add g' t) (g + T) _ _ he' hg1 ?_).trans htot
      rw [hH] at htot ⊢
      linarith

/-- The result of a test has the right form and its rounding error is bounded. -/
theorem gSquareR_error (ho : AccurateOps o u tiny hi) (hu0 : 0 ≤ u) (hu : u ≤ 1 / 64) (ht0 : 0 ≤ tiny) {card : Nat → Nat} {rows : List Assignment}
    {x y : Nat} {z : List Nat} (hn : (z ++ [x, y]).Nodup) (hr : ∀ r ∈ rows, InRange card (z ++ [x, y]) r)
    (htm : 2 * rows.length * tiny ≤ 1) (hm : rows.length < 2 ^ 53) (hhi : 8 * (rows.length : ℝ) ^ 2 ≤ hi)
    (hfit : statisticError u rows.length (cellBound card rows.length x y z) + 2 * rows.length * Real.log rows.length ≤ hi) :
    |gSquareR o card rows x y z - gSquare Real.log card rows x y z| ≤ statisticError u rows.length (cellBound card rows.length x y z) := by
  have hw : weight (tableCells card rows x y z) = rows.length := tableCells_total hr
  have hf : filled (tableCells card rows x y z) ≤ cellBound card rows.length x y z := tableCells_count hr
  have hs : exactSum (tableCells card rows x y z) = gSquare Real.log card rows x y z := tableCells_gSquare Real.log hn hr
  have hL0 : 0 ≤ Real.log rows.length := Real.log_natCast_nonneg _
  have hmono : (1 + u) ^ filled (tableCells card rows x y z) * (0 + 8 * u * (Real.log rows.length + 2) * (rows.length : ℝ) +
      filled (tableCells card rows x y z) * u * (0 + 2 * (rows.length : ℝ) * Real.log rows.length)) ≤
      statisticError u rows.length (cellBound card rows.length x y z) := by
    have e : ∀ c : Nat, (1 + u) ^ c * (0 + 8 * u * (Real.log rows.length + 2) * (rows.length : ℝ) +
        c * u * (0 + 2 * (rows.length : ℝ) * Real.log rows.length)) = statisticError u rows.length c := by
      intro c
      rw [statisticError]
      ring
    rw [e]
    unfold statisticError
    have hc : (filled (tableCells card rows x y z) : ℝ) ≤ cellBound card rows.length x y z := by exact_mod_cast hf
    have hp : (1 + u) ^ filled (tableCells card rows x y z) ≤ (1 + u) ^ cellBound card rows.length x y z := pow_le_pow_right₀ (by linarith) hf
    have h1 : 2 * (filled (tableCells card rows x y z) : ℝ) * Real.log rows.length ≤ 2 * (cellBound card rows.length x y z : ℝ) * Real.log rows.length :=
      mul_le_mul_of_nonneg_right (by linarith) hL0
    have h2 : (0 : ℝ) ≤ filled (tableCells card rows x y z) := Nat.cast_nonneg _
    have h3 : 0 ≤ 2 * (filled (tableCells card rows x y z) : ℝ) * Real.log rows.length := by positivity
    refine mul_le_mul ?_ (by linarith) (by linarith) (by positivity)
    exact mul_le_mul_of_nonneg_right (mul_le_mul_of_nonneg_right hp hu0) (Nat.cast_nonneg _)
  have key := fold_error ho hu0 hu ht0 htm hm hhi (tableCells card rows x y z) tableCells_good o.zero 0 0 0 (by rw [ho.zero]; simp) (by simp)
    (by rw [hw]; linarith)
  rw [hw, hs, zero_add] at key
  exact key.trans hmono

/-- A test that is clear has the exact verdict. -/
theorem clear_exceeds {F : ℝ → Nat → ℝ} {π B alpha g' : ℝ} (hF : ∀ df g h, 0 < df → 0 ≤ g → g ≤ h → F g df ≤ F h df) (htail : AccurateTail o F π)
    {card : Nat → Nat} {rows : List Assignment} {x y : Nat} {z : List Nat} (hdf : degrees card rows x y z ≠ 0)
    (hclear : ClearTest F alpha π B card rows x y z) (hB : |g' - gSquare Real.log card rows x y z| ≤ B)
    (hnn : 0 ≤ gSquare Real.log card rows x y z) :
    (exceeds (pValueR o g' (degrees card rows x y z)) alpha = true ↔
      alpha < 1 - F (gSquare Real.log card rows x y z) (degrees card rows x y z)) := by
  obtain ⟨p, hp, hpe⟩ := htail g' (degrees card rows x y z) (Nat.pos_of_ne_zero hdf)
  obtain ⟨p1, p2⟩ := abs_le.1 hpe
  obtain ⟨b1, b2⟩ := abs_le.1 hB
  have hB0 : 0 ≤ B := (abs_nonneg _).trans hB
  have hπ : 0 ≤ π := (abs_nonneg _).trans hpe
  have hpos := Nat.pos_of_ne_zero hdf
  have hv : pValueR o g' (degrees card rows x y z) = some (o.sub o.one p) := by unfold pValueR; rw [hp]; rfl
  rw [hv]
  simp only [exceeds, decide_eq_true_eq]
  rcases hclear with h | h | h
  · exact absurd h hdf
  · have m1 := hF _ (max g' 0) (gSquare Real.log card rows x y z + B) hpos (le_max_right _ _) (max_le (by linarith) (by linarith))
    have m2 := hF _ (gSquare Real.log card rows x y z) (gSquare Real.log card rows x y z + B) hpos hnn (by linarith)
    constructor <;> intro <;> linarith
  · have m1 := hF _ (max (gSquare Real.log card rows x y z - B) 0) (max g' 0) hpos (le_max_right _ _) (max_le_max (by linarith) le_rfl)
    have m2 := hF _ (max (gSquare Real.log card rows x y z - B) 0) (gSquare Real.log card rows x y z) hpos (le_max_right _ _)
      (max_le (by linarith) hnn)
    constructor <;> intro <;> linarith

end FastPGM
