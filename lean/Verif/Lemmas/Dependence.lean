import Verif.Spec.Dependence
import Verif.Lemmas.Marg
import Verif.Lemmas.IndependenceTest2
import Verif.Props.Learn
import Mathlib.Analysis.SpecialFunctions.Log.Basic

/-!
The G² statistic over the real numbers: sign, zeros and an upper bound.
-/

namespace FastPGM

open Spec

variable {card : Nat → Nat} {rows : List Assignment}

theorem countSame_sum_last {v : Nat} {z : List Nat} (hv : v ∉ z) (hr : ∀ r ∈ rows, r v < card v) (a : Assignment) :
    ∑ w ∈ Finset.range (card v), countSame rows (z ++ [v]) (a.set v w) = countSame rows z a := by
  rw [← countSame_sum hv hr a]
  refine Finset.sum_congr rfl fun w _ => countSame_perm ?_ _
  exact List.perm_append_comm (l₁ := z) (l₂ := [v])

/-- Counting more variables counts fewer instances. -/
theorem countSame_mono {vs ws : List Nat} (h : ∀ v ∈ vs, v ∈ ws) (a : Assignment) : countSame rows ws a ≤ countSame rows vs a := by
  unfold countSame
  apply List.countP_mono_left
  intro r _ hall
  rw [List.all_eq_true] at hall ⊢
  exact fun v hv => hall v (h v hv)

theorem sumOut_sub {K : Type} [AddCommGroup K] {us : List Nat} {f g : Assignment → K} (a : Assignment) :
    sumOut card us (fun b => f b - g b) a = sumOut card us f a - sumOut card us g a := by
  induction us generalizing a with
  | nil => rfl
  | cons u us ih =>
    simp only [sumOut]
    rw [← Finset.sum_sub_distrib]
    exact Finset.sum_congr rfl fun x _ => ih _

theorem sumOut_cast {us : List Nat} {f : Assignment → Nat} (a : Assignment) :
    ((sumOut card us f a : Nat) : ℝ) = sumOut card us (fun b => ((f b : Nat) : ℝ)) a := by
  induction us generalizing a with
  | nil => rfl
  | cons u us ih =>
    simp only [sumOut]
    push_cast
    exact Finset.sum_congr rfl fun x _ => ih _

theorem sumOut_mono {us : List Nat} {f g : Assignment → ℝ} (h : ∀ a, f a ≤ g a) (a : Assignment) :
    sumOut card us f a ≤ sumOut card us g a := by
  have := sumOut_nonneg (card := card) (us := us) (f := fun b => g b - f b) (fun b => sub_nonneg.2 (h b)) a
  rw [sumOut_sub] at this
  linarith

/-- The counts over `z` and one more variable sum to the counts over `z`. -/
theorem sumOut_countSame_one {v : Nat} {z : List Nat} (hv : v ∉ z) (hr : ∀ r ∈ rows, r v < card v) (a : Assignment) :
    sumOut card [v] (fun b => ((countSame rows (z ++ [v]) b : Nat) : ℝ)) a = countSame rows z a := by
  simp only [sumOut]
  rw [← countSame_sum_last hv hr a]
  push_cast
  rfl

/-- The counts over the values of all variables sum to the counts without them. -/
theorem sumOut_countSame {vs : List Nat} (hn : vs.Nodup) {ws : List Nat} (hd : ∀ v ∈ vs, v ∉ ws) (hr : ∀ r ∈ rows, InRange card vs r)
    (a : Assignment) : sumOut card vs (countSame rows (vs ++ ws)) a = countSame rows ws a := by
  induction vs generalizing a ws with
  | nil => rfl
  | cons v vs ih =>
    rw [List.nodup_cons] at hn
    simp only [sumOut]
    rw [← countSame_sum (hd v (by simp)) (fun r h => hr r h v (by simp)) a]
    refine Finset.sum_congr rfl fun w _ => ?_
    rw [← ih hn.2 (ws := v :: ws) (fun u hu => by
      rw [List.mem_cons, not_or]
      exact ⟨fun e => hn.1 (e ▸ hu), hd u (by simp [hu])⟩) (fun r h u hu => hr r h u (by simp [hu])) (a.set v w)]
    refine sumOut_congr fun b _ _ => countSame_perm ?_ b
    exact List.perm_middle.symm

theorem sumOut_countSame_all {vs : List Nat} (hn : vs.Nodup) (hr : ∀ r ∈ rows, InRange card vs r) (a : Assignment) :
    sumOut card vs (countSame rows vs) a = rows.length := by
  have := sumOut_countSame hn (ws := []) (by simp) hr a
  rw [List.append_nil] at this
  rw [this]
  simp [countSame]

section strata

variable {x y : Nat} {z : List Nat}

/-- One cell: `2 O log (O / E) ≥ 2 (O - E)`. -/
theorem gTerm_ge {o r c n : Nat} (ho : o ≠ 0 → r ≠ 0 ∧ c ≠ 0 ∧ n ≠ 0) :
    2 * ((o : ℝ) - (r : ℝ) * (c : ℝ) / (n : ℝ)) ≤ gTerm Real.log o r c n := by
  unfold gTerm
  by_cases h : o = 0
  · subst h
    rw [if_pos rfl]
    have : (0 : ℝ) ≤ (r : ℝ) * (c : ℝ) / (n : ℝ) := by positivity
    push_cast
    linarith
  · rw [if_neg h]
    obtain ⟨hr, hc, hn⟩ := ho h
    have o0 : (0 : ℝ) < o := by exact_mod_cast Nat.pos_of_ne_zero h
    have r0 : (0 : ℝ) < r := by exact_mod_cast Nat.pos_of_ne_zero hr
    have c0 : (0 : ℝ) < c := by exact_mod_cast Nat.pos_of_ne_zero hc
    have n0 : (0 : ℝ) < n := by exact_mod_cast Nat.pos_of_ne_zero hn
    have h1 := Real.one_sub_inv_le_log_of_pos (x := (o : ℝ) / ((c : ℝ) * (r : ℝ) / (n : ℝ))) (by positivity)
    have h2 : (o : ℝ) * (1 - ((o : ℝ) / ((c : ℝ) * (r : ℝ) / (n : ℝ)))⁻¹) = (o : ℝ) - (r : ℝ) * (c : ℝ) / (n : ℝ) := by
      field_simp
    rw [← h2]
    have := mul_le_mul_of_nonneg_left h1 (le_of_lt o0)
    linarith

/-- One cell: equality only if observed and expected number agree. -/
theorem gTerm_eq {o r c n : Nat} (ho : o ≠ 0 → r ≠ 0 ∧ c ≠ 0 ∧ n ≠ 0) (hn : r ≠ 0 → n ≠ 0)
    (h : gTerm Real.log o r c n = 2 * ((o : ℝ) - (r : ℝ) * (c : ℝ) / (n : ℝ))) : o * n = r * c := by
  unfold gTerm at h
  by_cases h0 : o = 0
  · subst h0
    rw [if_pos rfl] at h
    push_cast at h
    have h1 : (r : ℝ) * (c : ℝ) / (n : ℝ) = 0 := by linarith
    rcases div_eq_zero_iff.1 h1 with h2 | h2
    · have : ((r * c : Nat) : ℝ) = 0 := by push_cast; exact h2
      have : r * c = 0 := by exact_mod_cast this
      omega
    · have : n = 0 := by exact_mod_cast h2
      have hr : r = 0 := by
        by_contra hr
        exact hn hr this
      simp [hr]
  · rw [if_neg h0] at h
    obtain ⟨hr, hc, hn'⟩ := ho h0
    have o0 : (0 : ℝ) < o := by exact_mod_cast Nat.pos_of_ne_zero h0
    have r0 : (0 : ℝ) < r := by exact_mod_cast Nat.pos_of_ne_zero hr
    have c0 : (0 : ℝ) < c := by exact_mod_cast Nat.pos_of_ne_zero hc
    have n0 : (0 : ℝ) < n := by exact_mod_cast Nat.pos_of_ne_zero hn'
    set t : ℝ := (o : ℝ) / ((c : ℝ) * (r : ℝ) / (n : ℝ)) with ht
    have t0 : 0 < t := by positivity
    have h2 : (o : ℝ) * (1 - t⁻¹) = (o : ℝ) - (r : ℝ) * (c : ℝ) / (n : ℝ) := by
      rw [ht]; field_simp
    rw [← h2] at h
    have h3 : Real.log t = 1 - t⁻¹ := by
      have : 2 * (o : ℝ) * (Real.log t - (1 - t⁻¹)) = 0 := by linarith
      rcases mul_eq_zero.1 this with h4 | h4
      · linarith
      · linarith
    have h4 : t⁻¹ = 1 := by
      by_contra hne
      have := Real.log_lt_sub_one_of_pos (x := t⁻¹) (by positivity) hne
      rw [Real.log_inv] at this
      linarith
    have h5 : t = 1 := by
      have := inv_inv t
      rw [h4] at this
      simpa using this.symm
    have h6 : (o : ℝ) * n = r * c := by
      rw [ht] at h5
      field_simp at h5
      linarith
    exact_mod_cast h6

variable (hx : x ∉ z) (hy : y ∉ z) (hxy : x ≠ y) (hrx : ∀ r ∈ rows, r x < card x) (hry : ∀ r ∈ rows, r y < card y)

include hx hy hxy hrx hry in
/-- In each stratum the observed and the expected numbers sum to the same. -/
theorem stratum_zero (a : Assignment) :
    sumOut card [x, y] (fun b => (countSame rows (z ++ [x, y]) b : ℝ) -
      (countSame rows (z ++ [x]) b : ℝ) * (countSame rows (z ++ [y]) b : ℝ) / (countSame rows z b : ℝ)) a = 0 := by
  have e1 : sumOut card [x, y] (fun b => (countSame rows (z ++ [x, y]) b : ℝ)) a = countSame rows z a := by
    rw [show [x, y] = [x] ++ [y] from rfl, sumOut_append]
    have : ∀ b, sumOut card [y] (fun b => (countSame rows (z ++ ([x] ++ [y])) b : ℝ)) b = countSame rows (z ++ [x]) b := by
      intro b
      rw [← List.append_assoc]
      exact sumOut_countSame_one (by simp [hy, Ne.symm hxy]) hry b
    simp only [this]
    exact sumOut_countSame_one hx hrx a
  have e2 : sumOut card [x, y] (fun b => (countSame rows (z ++ [x]) b : ℝ) * (countSame rows (z ++ [y]) b : ℝ) / (countSame rows z b : ℝ)) a =
      countSame rows z a := by
    rw [show [x, y] = [x] ++ [y] from rfl, sumOut_append]
    have : ∀ b, sumOut card [y] (fun b => (countSame rows (z ++ [x]) b : ℝ) * (countSame rows (z ++ [y]) b : ℝ) / (countSame rows z b : ℝ)) b =
        countSame rows (z ++ [x]) b := by
      intro b
      have h1 : sumOut card [y] (fun b => (countSame rows (z ++ [x]) b : ℝ) * (countSame rows (z ++ [y]) b : ℝ) / (countSame rows z b : ℝ)) b =
          ∑ w ∈ Finset.range (card y), ((countSame rows (z ++ [x]) b : ℝ) / (countSame rows z b : ℝ)) * (countSame rows (z ++ [y]) (b.set y w) : ℝ) := by
        simp only [sumOut]
        refine Finset.sum_congr rfl fun w _ => ?_
        rw [countSame_set (by simp [hy, Ne.symm hxy]), countSame_set hy]
        ring
      rw [h1, ← Finset.mul_sum]
      have h2 := sumOut_countSame_one hy hry b
      simp only [sumOut] at h2
      rw [h2]
      by_cases h0 : countSame rows z b = 0
      · have : countSame rows (z ++ [x]) b = 0 := by
          have := countSame_mono (rows := rows) (vs := z) (ws := z ++ [x]) (by simp +contextual) b
          omega
        simp [this]
      · have : (countSame rows z b : ℝ) ≠ 0 := by exact_mod_cast h0
        field_simp
    simp only [this]
    exact sumOut_countSame_one hx hrx a
  rw [sumOut_sub, e1, e2, sub_self]

/-- The counts of a cell and its marginals. -/
theorem cell_nonzero (a : Assignment) : countSame rows (z ++ [x, y]) a ≠ 0 →
    countSame rows (z ++ [x]) a ≠ 0 ∧ countSame rows (z ++ [y]) a ≠ 0 ∧ countSame rows z a ≠ 0 := by
  intro h
  have h1 := countSame_mono (rows := rows) (vs := z ++ [x]) (ws := z ++ [x, y]) (by simp; tauto) a
  have h2 := countSame_mono (rows := rows) (vs := z ++ [y]) (ws := z ++ [x, y]) (by simp; tauto) a
  have h3 := countSame_mono (rows := rows) (vs := z) (ws := z ++ [x, y]) (by simp +contextual) a
  omega

theorem row_nonzero (a : Assignment) : countSame rows (z ++ [x]) a ≠ 0 → countSame rows z a ≠ 0 := by
  intro h
  have h3 := countSame_mono (rows := rows) (vs := z) (ws := z ++ [x]) (by simp +contextual) a
  omega

/-- A cell of the statistic without the part that cancels in each stratum. -/
noncomputable def cellExcess (rows : List Assignment) (x y : Nat) (z : List Nat) (a : Assignment) : ℝ :=
  gTerm Real.log (countSame rows (z ++ [x, y]) a) (countSame rows (z ++ [x]) a) (countSame rows (z ++ [y]) a) (countSame rows z a) -
    2 * ((countSame rows (z ++ [x, y]) a : ℝ) -
      (countSame rows (z ++ [x]) a : ℝ) * (countSame rows (z ++ [y]) a : ℝ) / (countSame rows z a : ℝ))

theorem cellExcess_nonneg (a : Assignment) : 0 ≤ cellExcess rows x y z a :=
  sub_nonneg.2 (gTerm_ge (cell_nonzero a))

include hx hy hxy hrx hry in
theorem gSquare_excess : gSquare Real.log card rows x y z = sumOut card (z ++ [x, y]) (cellExcess rows x y z) (fun _ => 0) := by
  unfold gSquare cellExcess
  rw [sumOut_sub, sumOut_const_mul, sumOut_append z [x, y] (fun b => (countSame rows (z ++ [x, y]) b : ℝ) - _)]
  have : (fun b => sumOut card [x, y] (fun b => (countSame rows (z ++ [x, y]) b : ℝ) -
      (countSame rows (z ++ [x]) b : ℝ) * (countSame rows (z ++ [y]) b : ℝ) / (countSame rows z b : ℝ)) b) = fun _ => 0 :=
    funext fun b => stratum_zero hx hy hxy hrx hry b
  rw [this, sumOut_zero]
  ring

include hx hy hxy hrx hry in
theorem gSquare_nonneg : 0 ≤ gSquare Real.log card rows x y z := by
  rw [gSquare_excess hx hy hxy hrx hry]
  exact sumOut_nonneg cellExcess_nonneg _

include hx hy hxy hrx hry in
theorem gSquare_zero_iff : gSquare Real.log card rows x y z = 0 ↔ IndependentInData card rows x y z := by
  constructor
  · intro h a ha
    rw [gSquare_excess hx hy hxy hrx hry] at h
    have hb := sumOut_eq_zero cellExcess_nonneg h (b := fun v => if v ∈ z ++ [x, y] then a v else 0)
      (fun v hv => by simp only [hv, if_true]; exact ha v hv) (fun v hv => by simp only [hv, if_false])
    have hab : ∀ v ∈ z ++ [x, y], (fun v => if v ∈ z ++ [x, y] then a v else 0) v = a v := fun v hv => by simp only [hv, if_true]
    have e1 := countSame_depends (rows := rows) (z ++ [x, y]) _ _ hab
    have e2 := countSame_depends (rows := rows) (z ++ [x]) _ _ (fun v hv => hab v (by
      rcases List.mem_append.1 hv with h | h
      · exact List.mem_append_left _ h
      · exact List.mem_append_right _ (by simp_all)))
    have e3 := countSame_depends (rows := rows) (z ++ [y]) _ _ (fun v hv => hab v (by
      rcases List.mem_append.1 hv with h | h
      · exact List.mem_append_left _ h
      · exact List.mem_append_right _ (by simp_all)))
    have e4 := countSame_depends (rows := rows) z _ _ (fun v hv => hab v (List.mem_append_left _ hv))
    unfold cellExcess at hb
    rw [e1, e2, e3, e4] at hb
    exact gTerm_eq (cell_nonzero a) (row_nonzero a) (sub_eq_zero.1 hb)
  · intro h
    unfold gSquare
    rw [sumOut_congr (g := fun _ => (0 : ℝ)) (fun b hb _ => ?_), sumOut_zero]
    have hc := h b hb
    unfold gTerm
    split
    · rfl
    · rename_i h0
      obtain ⟨hr, hc', hn⟩ := cell_nonzero b h0
      have r0 : (countSame rows (z ++ [x]) b : ℝ) ≠ 0 := by exact_mod_cast hr
      have c0 : (countSame rows (z ++ [y]) b : ℝ) ≠ 0 := by exact_mod_cast hc'
      have n0 : (countSame rows z b : ℝ) ≠ 0 := by exact_mod_cast hn
      have e : (countSame rows (z ++ [x, y]) b : ℝ) * (countSame rows z b : ℝ) =
          (countSame rows (z ++ [x]) b : ℝ) * (countSame rows (z ++ [y]) b : ℝ) := by exact_mod_cast hc
      have : (countSame rows (z ++ [x, y]) b : ℝ) /
          ((countSame rows (z ++ [y]) b : ℝ) * (countSame rows (z ++ [x]) b : ℝ) / (countSame rows z b : ℝ)) = 1 := by
        field_simp
        linarith
      rw [this, Real.log_one, mul_zero]

include hx hy hxy hrx hry in
/-- Without degrees of freedom there is no dependence in the data. -/
theorem degrees_zero (h : degrees card rows x y z = 0) : IndependentInData card rows x y z := by
  intro a ha
  have hd : (observedValues card rows x z a - 1) * (observedValues card rows y z a - 1) = 0 := by
    unfold degrees at h
    have h' : (sumOut card z (fun a => (((observedValues card rows x z a - 1) * (observedValues card rows y z a - 1) : Nat) : ℝ)) fun _ => 0) = 0 := by
      rw [← sumOut_cast, h]; simp
    have hb := sumOut_eq_zero (fun a => Nat.cast_nonneg _) h' (b := fun v => if v ∈ z then a v else 0)
      (fun v hv => by simp only [hv, if_true]; exact ha v (List.mem_append_left _ hv)) (fun v hv => by simp only [hv, if_false])
    have ho : ∀ v, observedValues card rows v z (fun v => if v ∈ z then a v else 0) = observedValues card rows v z a := by
      intro v
      unfold observedValues
      congr 1
      apply Finset.filter_congr
      intro w _
      rw [countSame_depends (rows := rows) (z ++ [v]) _ _ (set_agree (a := fun v => if v ∈ z then a v else 0) (b := a)
        (fun w hw => by simp only [hw, if_true]) w)]
    rw [ho, ho] at hb
    exact_mod_cast hb
  -- a variable with one observed value
  have one : ∀ v, v ∉ z → a v < card v → (∀ r ∈ rows, r v < card v) → observedValues card rows v z a - 1 = 0 →
      countSame rows (z ++ [v]) a ≠ 0 → ∀ w < card v, w ≠ a v → countSame rows (z ++ [v]) (a.set v w) = 0 := by
    intro v hv hav hrv ho hne w hw hwa
    by_contra hc
    have hcard : 2 ≤ observedValues card rows v z a := by
      unfold observedValues
      have hsub : ({a v, w} : Finset Nat) ⊆ (Finset.range (card v)).filter (fun w => 0 < countSame rows (z ++ [v]) (a.set v w)) := by
        intro u hu
        rw [Finset.mem_insert, Finset.mem_singleton] at hu
        rw [Finset.mem_filter, Finset.mem_range]
        rcases hu with rfl | rfl
        · rw [set_self]
          exact ⟨hav, Nat.pos_of_ne_zero hne⟩
        · exact ⟨hw, Nat.pos_of_ne_zero hc⟩
      have := Finset.card_le_card hsub
      rwa [Finset.card_pair (Ne.symm hwa)] at this
    omega
  have hax := ha x (by simp)
  have hay := ha y (by simp)
  -- the only observed value has all instances of the stratum
  have all : ∀ v u, v ∉ z → v ≠ u → u ∉ z → a v < card v → (∀ r ∈ rows, r v < card v) → observedValues card rows v z a - 1 = 0 →
      countSame rows (z ++ [v]) a ≠ 0 → countSame rows (z ++ [v]) a = countSame rows z a ∧
        countSame rows (z ++ [u] ++ [v]) a = countSame rows (z ++ [u]) a := by
    intro v u hv hvu hu hav hrv ho hne
    have h1 := one v hv hav hrv ho hne
    constructor
    · rw [← countSame_sum_last hv hrv a, Finset.sum_eq_single (a v), set_self]
      · intro w hw hwa
        exact h1 w (Finset.mem_range.1 hw) hwa
      · intro hn
        exact absurd (Finset.mem_range.2 hav) hn
    · rw [← countSame_sum_last (card := card) (v := v) (z := z ++ [u]) (by simp [hv, hvu]) hrv a, Finset.sum_eq_single (a v), set_self]
      · intro w hw hwa
        have := h1 w (Finset.mem_range.1 hw) hwa
        have h2 := countSame_mono (rows := rows) (vs := z ++ [v]) (ws := z ++ [u] ++ [v]) (by simp; tauto) (a.set v w)
        omega
      · intro hn
        exact absurd (Finset.mem_range.2 hav) hn
  have eperm : countSame rows (z ++ [y] ++ [x]) a = countSame rows (z ++ [x, y]) a := countSame_perm (by
    rw [List.append_assoc]; exact List.Perm.append_left z (List.Perm.swap x y [])) a
  have eass : countSame rows (z ++ [x] ++ [y]) a = countSame rows (z ++ [x, y]) a := by rw [List.append_assoc]; rfl
  by_cases hr : countSame rows (z ++ [x]) a = 0
  · have : countSame rows (z ++ [x, y]) a = 0 := by
      by_contra h0; exact (cell_nonzero a h0).1 hr
    simp [hr, this]
  by_cases hc : countSame rows (z ++ [y]) a = 0
  · have : countSame rows (z ++ [x, y]) a = 0 := by
      by_contra h0; exact (cell_nonzero a h0).2.1 hc
    simp [hc, this]
  rcases Nat.mul_eq_zero.1 hd with h0 | h0
  · obtain ⟨e1, e2⟩ := all x y hx hxy hy hax hrx h0 hr
    rw [eperm] at e2
    rw [e1, e2, Nat.mul_comm]
  · obtain ⟨e1, e2⟩ := all y x hy (Ne.symm hxy) hx hay hry h0 hc
    rw [eass] at e2
    rw [e1, e2]

/-- One cell: the statistic is at most that of a deterministic relation. -/
theorem gTerm_le {o r c n : Nat} (ho : o ≠ 0 → r ≠ 0 ∧ c ≠ 0 ∧ n ≠ 0) (hoc : o ≤ c) (k : Nat) (hk : 0 < k) :
    gTerm Real.log o r c n ≤ 2 * ((o : ℝ) * Real.log k + ((o : ℝ) * ((n : ℝ) / ((r : ℝ) * k)) - o)) := by
  unfold gTerm
  by_cases h : o = 0
  · simp [h]
  · rw [if_neg h]
    obtain ⟨hr, hc, hn⟩ := ho h
    have o0 : (0 : ℝ) < o := by exact_mod_cast Nat.pos_of_ne_zero h
    have r0 : (0 : ℝ) < r := by exact_mod_cast Nat.pos_of_ne_zero hr
    have c0 : (0 : ℝ) < c := by exact_mod_cast Nat.pos_of_ne_zero hc
    have n0 : (0 : ℝ) < n := by exact_mod_cast Nat.pos_of_ne_zero hn
    have k0 : (0 : ℝ) < k := by exact_mod_cast hk
    have hoc' : (o : ℝ) ≤ c := by exact_mod_cast hoc
    have h1 : Real.log ((o : ℝ) / ((c : ℝ) * (r : ℝ) / (n : ℝ))) ≤ Real.log ((n : ℝ) / r) := by
      apply Real.log_le_log (by positivity)
      rw [div_div_eq_mul_div, div_le_div_iff₀ (by positivity) r0]
      have := mul_le_mul_of_nonneg_right hoc' (mul_nonneg n0.le r0.le)
      linarith
    have h2 : Real.log ((n : ℝ) / r) = Real.log k + Real.log ((n : ℝ) / (r * k)) := by
      rw [← Real.log_mul (by positivity) (by positivity)]
      congr 1
      field_simp
    have h3 := Real.log_le_sub_one_of_pos (x := (n : ℝ) / (r * k)) (by positivity)
    have h4 : Real.log ((o : ℝ) / ((c : ℝ) * (r : ℝ) / (n : ℝ))) ≤ Real.log k + ((n : ℝ) / (r * k) - 1) := by linarith
    have := mul_le_mul_of_nonneg_left h4 o0.le
    linarith

include hx hy hxy hrx hry in
/-- The statistic is bounded by the number of instances and of values. -/
theorem gSquare_le (hk : 0 < card x) : gSquare Real.log card rows x y z ≤
    2 * Real.log (card x) * sumOut card z (fun a => (countSame rows z a : ℝ)) (fun _ => 0) := by
  unfold gSquare
  refine le_trans (sumOut_mono (fun a => gTerm_le (cell_nonzero a)
    (countSame_mono (vs := z ++ [y]) (ws := z ++ [x, y]) (by simp; tauto) a) (card x) hk) _) ?_
  rw [sumOut_const_mul, sumOut_append, mul_assoc, ← sumOut_const_mul (Real.log (card x))]
  refine mul_le_mul_of_nonneg_left (a := (2 : ℝ)) (sumOut_mono (fun a => ?_) _) (by norm_num)
  have k0 : (0 : ℝ) < card x := by exact_mod_cast hk
  -- the sum over `y`
  have hy' : ∀ b, sumOut card [y] (fun b => (countSame rows (z ++ [x, y]) b : ℝ) * Real.log (card x) +
      ((countSame rows (z ++ [x, y]) b : ℝ) * ((countSame rows z b : ℝ) / ((countSame rows (z ++ [x]) b : ℝ) * card x)) -
        countSame rows (z ++ [x, y]) b)) b =
      (countSame rows (z ++ [x]) b : ℝ) * (Real.log (card x) + ((countSame rows z b : ℝ) / ((countSame rows (z ++ [x]) b : ℝ) * card x) - 1)) := by
    intro b
    have h2 := sumOut_countSame_one (rows := rows) (card := card) (v := y) (z := z ++ [x]) (by simp [hy, Ne.symm hxy]) hry b
    generalize hL : Real.log (card x) + ((countSame rows z b : ℝ) / ((countSame rows (z ++ [x]) b : ℝ) * card x) - 1) = L
    rw [← h2]
    simp only [sumOut]
    rw [Finset.sum_mul]
    refine Finset.sum_congr rfl fun w _ => ?_
    rw [countSame_set hy, countSame_set (vs := z ++ [x]) (by simp [hy, Ne.symm hxy]), List.append_assoc, ← hL]
    simp only [List.cons_append, List.nil_append]
    ring
  rw [show [x, y] = [x] ++ [y] from rfl, sumOut_append]
  simp only [List.cons_append, List.nil_append, hy']
  simp only [sumOut]
  have h3 := sumOut_countSame_one hx hrx a
  simp only [sumOut] at h3
  have h4 : ∀ w ∈ Finset.range (card x), (countSame rows (z ++ [x]) (a.set x w) : ℝ) *
      (Real.log (card x) + ((countSame rows z (a.set x w) : ℝ) / ((countSame rows (z ++ [x]) (a.set x w) : ℝ) * card x) - 1)) ≤
      (countSame rows (z ++ [x]) (a.set x w) : ℝ) * (Real.log (card x) - 1) + (countSame rows z a : ℝ) / card x := by
    intro w _
    rw [countSame_set hx]
    by_cases h0 : countSame rows (z ++ [x]) (a.set x w) = 0
    · simp only [h0, Nat.cast_zero, zero_mul, zero_add]
      positivity
    · have : (countSame rows (z ++ [x]) (a.set x w) : ℝ) ≠ 0 := by exact_mod_cast h0
      apply le_of_eq
      field_simp
      ring
  refine le_trans (Finset.sum_le_sum h4) ?_
  rw [Finset.sum_add_distrib, ← Finset.sum_mul, h3, Finset.sum_const, Finset.card_range, nsmul_eq_mul]
  apply le_of_eq
  field_simp
  ring

end strata

end FastPGM
