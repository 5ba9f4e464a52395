import Verif.Lemmas.Dependence
import Verif.Lemmas.Random
import Mathlib.Analysis.SpecialFunctions.Pow.NNReal

/-!
A lower bound of the G² statistic, and the deviation of relative frequencies.
-/

namespace FastPGM

open Spec

/-- A sum of nonnegative terms is at least each of them. -/
theorem le_sumOut {card : Nat → Nat} {us : List Nat} {f : Assignment → ℝ} (h : ∀ a, 0 ≤ f a) {a b : Assignment}
    (hb : InRange card us b) (hab : ∀ v, v ∉ us → b v = a v) : f b ≤ sumOut card us f a := by
  induction us generalizing a with
  | nil =>
    have : b = a := funext fun v => hab v (by simp)
    rw [this]; exact le_refl _
  | cons u us ih =>
    simp only [sumOut]
    refine le_trans (ih (a := a.set u (b u)) (fun v hv => hb v (by simp [hv])) ?_)
      (Finset.single_le_sum (f := fun w => sumOut card us f (a.set u w)) (fun w _ => sumOut_nonneg h _) (Finset.mem_range.2 (hb u (by simp))))
    intro v hv
    unfold Assignment.set
    split
    · next e => rw [e]
    · next e => exact hab v (by simp [hv, e])

/-- One cell: the part of the statistic that does not cancel is at least `(O - E)² / (2 m)`. -/
theorem gTerm_excess {o r c n m : Nat} (ho : o ≠ 0 → r ≠ 0 ∧ c ≠ 0 ∧ n ≠ 0) (hom : o ≤ m) (hcn : c ≤ n) (hrm : r ≤ m) :
    ((o : ℝ) - (r : ℝ) * (c : ℝ) / (n : ℝ)) ^ 2 ≤
      2 * m * (gTerm Real.log o r c n - 2 * ((o : ℝ) - (r : ℝ) * (c : ℝ) / (n : ℝ))) := by
  set e : ℝ := (r : ℝ) * (c : ℝ) / (n : ℝ) with he
  have e0 : 0 ≤ e := by positivity
  have o0 : (0 : ℝ) ≤ o := by positivity
  have om : (o : ℝ) ≤ m := by exact_mod_cast hom
  have em : e ≤ m := by
    have h1 : e ≤ r := by
      rw [he, mul_div_assoc]
      apply mul_le_of_le_one_right (by positivity)
      apply div_le_one_of_le₀ (by exact_mod_cast hcn) (by positivity)
    have : (r : ℝ) ≤ m := by exact_mod_cast hrm
    linarith
  have hso := Real.sq_sqrt o0
  have hse := Real.sq_sqrt e0
  -- the term
  have key : 2 * (Real.sqrt o - Real.sqrt e) ^ 2 ≤ gTerm Real.log o r c n - 2 * ((o : ℝ) - e) := by
    unfold gTerm
    by_cases h : o = 0
    · subst h
      rw [if_pos rfl]
      simp
      linarith
    · rw [if_neg h]
      obtain ⟨hr, hc, hn⟩ := ho h
      have o1 : (0 : ℝ) < o := by exact_mod_cast Nat.pos_of_ne_zero h
      have r0 : (0 : ℝ) < r := by exact_mod_cast Nat.pos_of_ne_zero hr
      have c0 : (0 : ℝ) < c := by exact_mod_cast Nat.pos_of_ne_zero hc
      have n0 : (0 : ℝ) < n := by exact_mod_cast Nat.pos_of_ne_zero hn
      have e1 : 0 < e := by positivity
      have so : 0 < Real.sqrt o := Real.sqrt_pos.2 o1
      have se : 0 < Real.sqrt e := Real.sqrt_pos.2 e1
      have h1 := Real.one_sub_inv_le_log_of_pos (x := Real.sqrt o / Real.sqrt e) (by positivity)
      have h2 : Real.log ((o : ℝ) / ((c : ℝ) * (r : ℝ) / (n : ℝ))) = 2 * Real.log (Real.sqrt o / Real.sqrt e) := by
        have : (o : ℝ) / ((c : ℝ) * (r : ℝ) / (n : ℝ)) = (Real.sqrt o / Real.sqrt e) ^ 2 := by
          rw [div_pow, hso, hse, he, mul_comm (c : ℝ)]
        rw [this, Real.log_pow]
        norm_num
      rw [h2]
      have h3 : (o : ℝ) * (1 - (Real.sqrt o / Real.sqrt e)⁻¹) = o - Real.sqrt o * Real.sqrt e := by
        rw [inv_div, mul_sub, mul_one]
        congr 1
        rw [mul_div_assoc', div_eq_iff so.ne', mul_right_comm, ← pow_two, hso]
      have h4 := mul_le_mul_of_nonneg_left h1 o0
      rw [h3] at h4
      have h5 : (Real.sqrt o - Real.sqrt e) ^ 2 = o - 2 * (Real.sqrt o * Real.sqrt e) + e := by
        rw [sub_sq, hso, hse]; ring
      rw [h5]
      linarith
  have h6 : ((o : ℝ) - e) ^ 2 = (Real.sqrt o - Real.sqrt e) ^ 2 * (Real.sqrt o + Real.sqrt e) ^ 2 := by
    rw [← mul_pow]
    congr 1
    have : (Real.sqrt o - Real.sqrt e) * (Real.sqrt o + Real.sqrt e) = Real.sqrt o ^ 2 - Real.sqrt e ^ 2 := by ring
    rw [this, hso, hse]
  have h7 : (Real.sqrt o + Real.sqrt e) ^ 2 ≤ 4 * m := by
    have : (Real.sqrt o + Real.sqrt e) ^ 2 = 2 * (Real.sqrt o ^ 2 + Real.sqrt e ^ 2) - (Real.sqrt o - Real.sqrt e) ^ 2 := by ring
    rw [this, hso, hse]
    have := sq_nonneg (Real.sqrt o - Real.sqrt e)
    linarith
  rw [h6]
  calc _ ≤ (Real.sqrt o - Real.sqrt e) ^ 2 * (4 * m) := mul_le_mul_of_nonneg_left h7 (sq_nonneg _)
    _ = 2 * m * (2 * (Real.sqrt o - Real.sqrt e) ^ 2) := by ring
    _ ≤ _ := mul_le_mul_of_nonneg_left key (by positivity)

/-- The statistic is at least what any single cell shows. -/
theorem gSquare_ge {card : Nat → Nat} {rows : List Assignment} {x y : Nat} {z : List Nat} (hx : x ∉ z) (hy : y ∉ z) (hxy : x ≠ y)
    (hrx : ∀ r ∈ rows, r x < card x) (hry : ∀ r ∈ rows, r y < card y) {a : Assignment} (ha : InRange card (z ++ [x, y]) a) :
    ((countSame rows (z ++ [x, y]) a : ℝ) * (countSame rows z a : ℝ) -
        (countSame rows (z ++ [x]) a : ℝ) * (countSame rows (z ++ [y]) a : ℝ)) ^ 2 ≤
      2 * (rows.length : ℝ) ^ 3 * gSquare Real.log card rows x y z := by
  have hle : ∀ vs, countSame rows vs a ≤ rows.length := fun vs => List.countP_le_length
  rw [gSquare_excess hx hy hxy hrx hry]
  have hb := le_sumOut (card := card) (us := z ++ [x, y]) (a := fun _ => 0) (cellExcess_nonneg (rows := rows) (x := x) (y := y) (z := z))
    (b := fun v => if v ∈ z ++ [x, y] then a v else 0)
    (fun v hv => by simp only [hv, if_true]; exact ha v hv) (fun v hv => by simp only [hv, if_false])
  have hab : ∀ v ∈ z ++ [x, y], (fun v => if v ∈ z ++ [x, y] then a v else 0) v = a v := fun v hv => by simp only [hv, if_true]
  have e1 := countSame_depends (rows := rows) (z ++ [x, y]) _ _ hab
  have e2 := countSame_depends (rows := rows) (z ++ [x]) _ _ (fun v hv => hab v (by
    rcases List.mem_append.1 hv with h | h
    · exact List.mem_append_left _ h
    · exact List.mem_append_right _ (by simp_all)))
  have e3 := countSame_depends (rows := rows) (z ++ [y]) _ _ (fun v hv => hab v (by
    rcases List.mem_append.1 hv with h | h
    · exact List.mem_append_left _ h
    · exact List.mem_append_right _ (by simp_all)))
  have e4 := countSame_depends (rows := rows) z _ _ (fun v hv => hab v (List.mem_append_left _ hv))
  have hcell : cellExcess rows x y z a = cellExcess rows x y z (fun v => if v ∈ z ++ [x, y] then a v else 0) := by
    unfold cellExcess
    rw [e1, e2, e3, e4]
  rw [← hcell] at hb
  have hex := gTerm_excess (m := rows.length) (cell_nonzero (rows := rows) (x := x) (y := y) (z := z) a) (hle _)
    (countSame_mono (vs := z) (ws := z ++ [y]) (by simp +contextual) a) (hle _)
  change _ ≤ 2 * (rows.length : ℝ) * cellExcess rows x y z a at hex
  have hn := hle z
  set m : ℝ := (rows.length : ℝ)
  set o : ℝ := (countSame rows (z ++ [x, y]) a : ℝ)
  set r : ℝ := (countSame rows (z ++ [x]) a : ℝ)
  set c : ℝ := (countSame rows (z ++ [y]) a : ℝ)
  have hrow := row_nonzero (rows := rows) (x := x) (z := z) a
  have hcol := row_nonzero (rows := rows) (x := y) (z := z) a
  have hcn := cell_nonzero (rows := rows) (x := x) (y := y) (z := z) a
  by_cases h0 : countSame rows z a = 0
  · have hr0 : r = 0 := by
      have : countSame rows (z ++ [x]) a = 0 := by by_contra h; exact hrow h h0
      simp only [r, this, Nat.cast_zero]
    rw [h0, hr0]
    simp only [Nat.cast_zero, mul_zero, zero_mul, sub_zero]
    have := sumOut_nonneg (card := card) (us := z ++ [x, y]) (cellExcess_nonneg (rows := rows) (x := x) (y := y) (z := z)) (fun _ => 0)
    have hm0 : 0 ≤ m := Nat.cast_nonneg _
    rw [zero_pow (by norm_num)]
    positivity
  · have n0 : (0 : ℝ) < countSame rows z a := by exact_mod_cast Nat.pos_of_ne_zero h0
    have nm : (countSame rows z a : ℝ) ≤ m := Nat.cast_le.2 hn
    set n : ℝ := (countSame rows z a : ℝ)
    have hfac : o * n - r * c = n * (o - r * c / n) := by field_simp
    rw [hfac, mul_pow]
    have hm0 : 0 ≤ m := le_trans n0.le nm
    calc n ^ 2 * (o - r * c / n) ^ 2 ≤ m ^ 2 * (o - r * c / n) ^ 2 :=
          mul_le_mul_of_nonneg_right (pow_le_pow_left₀ n0.le nm 2) (sq_nonneg _)
      _ ≤ m ^ 2 * (2 * m * cellExcess rows x y z a) := mul_le_mul_of_nonneg_left hex (sq_nonneg _)
      _ = 2 * m ^ 3 * cellExcess rows x y z a := by ring
      _ ≤ _ := mul_le_mul_of_nonneg_left hb (by positivity)

/-- The relative frequency of an event deviates by `δ` or more with probability at most `1 / (4 m δ²)`. -/
theorem frequency_event {A : Type} [Fintype A] {P : A → ℝ} (hP : ∀ a, 0 ≤ P a) (h1 : ∑ a, P a = 1) {B : A → Prop} [DecidablePred B] {p : ℝ}
    (hp : ∑ a, (if B a then P a else 0) = p) {δ : ℝ} (hδ : 0 < δ) {m : Nat} (hm : 0 < m) :
    expect P m (fun s => if δ ≤ |(∑ i, if B (s i) then (1 : ℝ) else 0) / m - p| then 1 else 0) ≤ 1 / (4 * m * δ ^ 2) := by
  have m0 : (0 : ℝ) < m := by exact_mod_cast hm
  let g : A → ℝ := fun a => (if B a then 1 else 0) - p
  have hB : ∑ a, P a * (if B a then (1 : ℝ) else 0) = p := by
    rw [← hp]
    exact Finset.sum_congr rfl (fun a _ => by split <;> simp)
  have hg : ∑ a, P a * g a = 0 := by
    simp only [g, mul_sub, Finset.sum_sub_distrib, ← Finset.sum_mul]
    rw [hB, h1, one_mul, sub_self]
  have hV : ∑ a, P a * g a ^ 2 ≤ 1 / 4 := by
    have : ∀ a, P a * g a ^ 2 = P a * (if B a then (1 : ℝ) else 0) * (1 - 2 * p) + P a * p ^ 2 := by
      intro a
      simp only [g]
      split <;> ring
    simp only [this]
    rw [Finset.sum_add_distrib, ← Finset.sum_mul, ← Finset.sum_mul, hB, h1]
    have := sq_nonneg (1 - 2 * p)
    have e : p * (1 - 2 * p) + 1 * p ^ 2 = 1 / 4 - (1 - 2 * p) ^ 2 / 4 := by ring
    rw [e]
    linarith
  have hc := chebyshev hP h1 hg m (t := m * δ) (by positivity) hV
  have e : ∀ s : Fin m → A, (δ ≤ |(∑ i, if B (s i) then (1 : ℝ) else 0) / m - p|) ↔ (m * δ ≤ |∑ i, g (s i)|) := by
    intro s
    have : ∑ i, g (s i) = m * ((∑ i, if B (s i) then (1 : ℝ) else 0) / m - p) := by
      simp only [g]
      rw [Finset.sum_sub_distrib, Finset.sum_const, Finset.card_univ, Fintype.card_fin, nsmul_eq_mul, mul_sub, mul_div_cancel₀ _ m0.ne']
    rw [this, abs_mul, abs_of_pos m0]
    exact (mul_le_mul_iff_of_pos_left m0).symm
  simp only [e]
  refine le_trans hc (le_of_eq ?_)
  field_simp
  

end FastPGM
