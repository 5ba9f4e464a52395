import Verif.Lemmas.Dependence
import Verif.Props.CellTable

/-!
Property C88: the statistic of the independence test measures the dependence in the data.  `double` is the field of real numbers and `log` the
natural logarithm.
-/

namespace FastPGM

open Spec

section tests

variable {pchisq : ℝ → Nat → Option ℝ} {alpha : ℝ} {card : Nat → Nat} {numVars : Nat} {dims : List Nat} {cols : List (List Nat)}
  {rows : List Assignment} {x y : Nat} {z : List Nat}

/-- C88.  The statistic is never negative, it is zero exactly if the data show no dependence, it cannot exceed twice the number of instances
times the logarithm of the number of values of either variable, and without a degree of freedom the data show no dependence. -/
theorem C88_statistic (hc : Columns card numVars cols rows) (hv : ∀ v ∈ z ++ [x, y], v < numVars) (hn : (z ++ [x, y]).Nodup)
    (hpos : 0 < card x ∧ 0 < card y) :
    0 ≤ gSquare Real.log card rows x y z ∧
      (gSquare Real.log card rows x y z = 0 ↔ IndependentInData card rows x y z) ∧
      gSquare Real.log card rows x y z ≤ 2 * Real.log (card x) * rows.length ∧
      gSquare Real.log card rows x y z ≤ 2 * Real.log (card y) * rows.length ∧
      (degrees card rows x y z = 0 → IndependentInData card rows x y z) := by
  have hr : ∀ v ∈ z ++ [x, y], ∀ r ∈ rows, r v < card v := fun v hm r h => hc.lt r h v (hv v hm)
  obtain ⟨hz, h2, h3⟩ := List.nodup_append.1 hn
  have hx : x ∉ z := fun h => h3 x h x (by simp) rfl
  have hy : y ∉ z := fun h => h3 y h y (by simp) rfl
  have hxy : x ≠ y := by simpa using h2
  have hsum : sumOut card z (fun a => (countSame rows z a : ℝ)) (fun _ => 0) = rows.length := by
    rw [← sumOut_cast, sumOut_countSame_all hz (fun r h v hm => hr v (by simp [hm]) r h)]
  have hle := gSquare_le hx hy hxy (hr x (by simp)) (hr y (by simp)) hpos.1
  have hle' := gSquare_le hy hx (Ne.symm hxy) (hr y (by simp)) (hr x (by simp)) hpos.2
  rw [hsum] at hle hle'
  rw [← (C27_same_statistic (log := Real.log) (card := card) (rows := rows) (List.Perm.refl z) hn).1] at hle'
  exact ⟨gSquare_nonneg hx hy hxy (hr x (by simp)) (hr y (by simp)), gSquare_zero_iff hx hy hxy (hr x (by simp)) (hr y (by simp)),
    hle, hle', degrees_zero hx hy hxy (hr x (by simp)) (hr y (by simp))⟩

/-- C88.  The p-value is 1 exactly if the data show no dependence; such data are declared independent at every level below 1. -/
theorem C88_pvalue {F : ℝ → Nat → ℝ} (hF : ChiSquareLike pchisq F) (hc : Columns card numVars cols rows)
    (hdim : ∀ v < numVars, dims[v]? = some (card v)) (hv : ∀ v ∈ z ++ [x, y], v < numVars) (hn : (z ++ [x, y]).Nodup)
    (hpos : 0 < card x ∧ 0 < card y) :
    ∃ res p, independenceResult Real.log pchisq alpha dims cols rows.length x y z 1 = .ok res ∧ res.p = some p ∧ p ≤ 1 ∧
      (p = 1 ↔ IndependentInData card rows x y z) ∧
      (alpha < 1 → IndependentInData card rows x y z → res.indep = true) := by
  obtain ⟨res, h1, h2, h3⟩ := C27_statistic (log := Real.log) (pchisq := pchisq) (alpha := alpha) hc hdim hv hn
  obtain ⟨g1, g2, -, -, g5⟩ := C88_statistic hc hv hn hpos
  by_cases h0 : degrees card rows x y z = 0
  · rw [if_pos h0] at h3
    exact ⟨res, 1, h1, h3, le_refl _, ⟨fun _ => g5 h0, fun _ => rfl⟩, fun _ _ => h2.2 (Or.inl h0)⟩
  · have hd := Nat.pos_of_ne_zero h0
    rw [if_neg h0, hF.some _ _ hd g1] at h3
    have hF0 : 0 ≤ F (gSquare Real.log card rows x y z) (degrees card rows x y z) := by
      rcases eq_or_lt_of_le g1 with h | h
      · rw [← h, hF.zero _ hd]
      · exact (hF.pos _ _ hd h).le
    refine ⟨res, _, h1, h3, by linarith, ?_, ?_⟩
    · rw [← g2]
      constructor
      · intro h
        by_contra hne
        have := hF.pos _ _ hd (lt_of_le_of_ne g1 (Ne.symm hne))
        linarith
      · intro h
        rw [h, hF.zero _ hd]
        exact sub_zero _
    · intro ha hi
      refine h2.2 (Or.inr ⟨_, hF.some _ _ hd g1, ?_⟩)
      rw [g2.2 hi, hF.zero _ hd]
      linarith

/-- C88.  Too few instances cannot show dependence: if even the largest possible statistic is not significant, the verdict is independence
whatever the data are. -/
theorem C88_few_instances {F : ℝ → Nat → ℝ} (hF : ChiSquareLike pchisq F) (hmono : ∀ g h df, 0 < df → 0 ≤ g → g ≤ h → F g df ≤ F h df)
    (hc : Columns card numVars cols rows)
    (hdim : ∀ v < numVars, dims[v]? = some (card v)) (hv : ∀ v ∈ z ++ [x, y], v < numVars) (hn : (z ++ [x, y]).Nodup)
    (hpos : 0 < card x ∧ 0 < card y) (hfew : ∀ df, 0 < df → alpha < 1 - F (2 * Real.log (card x) * rows.length) df) :
    ∃ res, independenceResult Real.log pchisq alpha dims cols rows.length x y z 1 = .ok res ∧ res.indep = true := by
  obtain ⟨res, h1, h2, -⟩ := C27_statistic (log := Real.log) (pchisq := pchisq) (alpha := alpha) hc hdim hv hn
  obtain ⟨g1, -, g3, -, -⟩ := C88_statistic hc hv hn hpos
  refine ⟨res, h1, h2.2 ?_⟩
  by_cases h0 : degrees card rows x y z = 0
  · exact Or.inl h0
  · have hd := Nat.pos_of_ne_zero h0
    have := hmono _ _ _ hd g1 g3
    have := hfew _ hd
    exact Or.inr ⟨_, hF.some _ _ hd g1, by linarith⟩

end tests

/-! ### The hypotheses can be met -/

/-- A function with the assumed properties. -/
example : ChiSquareLike (fun g _ => some (1 - 1 / (1 + g))) (fun g _ => 1 - 1 / (1 + g)) := by
  refine ⟨fun _ _ _ _ => rfl, fun _ _ => by norm_num, fun g _ _ h => ?_⟩
  rw [sub_pos, div_lt_one (by linarith)]
  linarith

-- four instances of two binary variables: all combinations, and the second variable equal to the first
example : Columns (fun _ => 2) 2 [[0, 0, 1, 1], [0, 1, 0, 1]]
    [fun v => if v = 0 then 0 else 0, fun v => if v = 0 then 0 else 1, fun v => if v = 0 then 1 else 0, fun v => if v = 0 then 1 else 1] := by
  constructor
  · intro v hv
    obtain rfl | rfl : v = 0 ∨ v = 1 := by omega
    · exact ⟨_, rfl, by rintro (_ | _ | _ | _ | j) r hr <;> simp at hr <;> subst hr <;> rfl⟩
    · exact ⟨_, rfl, by rintro (_ | _ | _ | _ | j) r hr <;> simp at hr <;> subst hr <;> rfl⟩
  · intro r hr v hv
    simp only [List.mem_cons, List.not_mem_nil, or_false] at hr
    rcases hr with rfl | rfl | rfl | rfl <;> dsimp only <;> split <;> omega

example : IndependentInData (fun _ => 2)
    [fun v => if v = 0 then 0 else 0, fun v => if v = 0 then 0 else 1, fun v => if v = 0 then 1 else 0, fun v => if v = 0 then 1 else 1] 0 1 [] := by
  intro a ha
  have h0 : a 0 < 2 := ha 0 (by simp)
  have h1 : a 1 < 2 := ha 1 (by simp)
  obtain e0 | e0 : a 0 = 0 ∨ a 0 = 1 := by omega
  all_goals
    obtain e1 | e1 : a 1 = 0 ∨ a 1 = 1 := by omega
    all_goals simp [countSame, e0, e1]

example : ¬ IndependentInData (fun _ => 2) [fun _ => 0, fun _ => 0, fun _ => 1, fun _ => 1] 0 1 [] := by
  intro h
  have := h (fun _ => 0) (fun v _ => by norm_num)
  simp [countSame] at this

end FastPGM
