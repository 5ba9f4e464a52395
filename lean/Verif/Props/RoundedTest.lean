import Verif.Lemmas.RoundedTest5
import Verif.Lemmas.Skeleton6
import Verif.Lemmas.ChiSquare
import Verif.Lemmas.Dependence
import Verif.Props.Skeleton
import Mathlib.Probability.Distributions.Exponential

/-!
The independence tests in machine arithmetic (C119): the computed G² statistic differs from the exact one by at most an explicit bound; a test
whose exact p-value is far enough from the significance level has the exact verdict; and if all tests are, the skeleton is the exact one.
-/

namespace FastPGM

open Spec

section

variable {o : DoubleOps ℝ} {u tiny hi : ℝ} {alpha π : ℝ} {F : ℝ → Nat → ℝ} {card : Nat → Nat} {n : Nat} {dims : List Nat}
  {cols : List (List Nat)} {rows : List Assignment} {x y : Nat} {z : List Nat}

/-- The distinct variables of a test, and values within their domains. -/
theorem test_nonneg (hc : Columns card n cols rows) (hv : ∀ v ∈ z ++ [x, y], v < n) (hn : (z ++ [x, y]).Nodup) :
    0 ≤ gSquare Real.log card rows x y z := by
  obtain ⟨hz, h2, h3⟩ := List.nodup_append.1 hn
  exact gSquare_nonneg (fun h => h3 x h x (by simp) rfl) (fun h => h3 y h y (by simp) rfl) (by simpa using h2)
    (fun r h => hc.lt r h x (hv x (by simp))) (fun r h => hc.lt r h y (hv y (by simp)))

/-- C119.  In an arithmetic whose operations have relative error `u`, the single test compares with `alpha` the p-value of a statistic that differs
from the exact G² by at most `statisticError`; the degrees of freedom are exact. -/
theorem C119_statistic (ho : AccurateOps o u tiny hi) (hu0 : 0 ≤ u) (hu : u ≤ 1 / 64) (ht0 : 0 ≤ tiny)
    (hc : Columns card n cols rows) (hdim : ∀ v < n, dims[v]? = some (card v)) (hv : ∀ v ∈ z ++ [x, y], v < n) (hn : (z ++ [x, y]).Nodup)
    (htm : 2 * rows.length * tiny ≤ 1) (hm : rows.length < 2 ^ 53) (hhi : 8 * (rows.length : ℝ) ^ 2 ≤ hi)
    (hfit : statisticError u rows.length (cellBound card rows.length x y z) + 2 * rows.length * Real.log rows.length ≤ hi) :
    ∃ g first, |g - gSquare Real.log card rows x y z| ≤ statisticError u rows.length (cellBound card rows.length x y z) ∧
      ciTestR o alpha dims cols rows.length x y z 1 =
        .ok (if degrees card rows x y z = 0 then true else exceeds ((o.pchisq g (degrees card rows x y z)).map (o.sub o.one)) alpha, first) := by
  have herr := gSquareR_error ho hu0 hu ht0 hn (fun r hr v hv' => hc.lt r hr v (hv v hv')) htm hm hhi hfit
  refine ⟨gSquareR o card rows x y z, if z = [] then none else some 0, herr, ?_⟩
  unfold ciTestR
  by_cases hz : z = []
  · subst hz
    rw [if_pos rfl, if_pos rfl, gSquareXYR_eq o alpha hn (Columns.for hc hv) (fun v h => hdim v (hv v h))]
    unfold singleResultR
    split <;> rfl
  · rw [if_neg hz, if_neg hz, if_neg (by omega), gSquareXYZR_eq o alpha hz hn (Columns.for hc hv) (fun v h => hdim v (hv v h))]
    unfold singleResultR
    split <;> rfl

/-- The exact verdict of a test with the distribution function `F`. -/
noncomputable def exactVerdict (F : ℝ → Nat → ℝ) (alpha : ℝ) (card : Nat → Nat) (rows : List Assignment) : Nat → Nat → List Nat → Bool :=
  verdicts Real.log (fun g df => some (F g df)) alpha card rows

theorem exactVerdict_iff : exactVerdict F alpha card rows x y z = true ↔
    degrees card rows x y z = 0 ∨ alpha < 1 - F (gSquare Real.log card rows x y z) (degrees card rows x y z) := by
  unfold exactVerdict
  rw [verdicts_iff]
  unfold Independent
  simp

/-- C119.  A test that is clear has the exact verdict: the variables are judged independent if and only if the table has no degrees of freedom
or the exact p-value of the exact statistic exceeds `alpha`. -/
theorem C119_verdict (ho : AccurateOps o u tiny hi) (hu0 : 0 ≤ u) (hu : u ≤ 1 / 64) (ht0 : 0 ≤ tiny)
    (hF : ∀ df g h, 0 < df → 0 ≤ g → g ≤ h → F g df ≤ F h df) (htail : AccurateTail o F π)
    (hc : Columns card n cols rows) (hdim : ∀ v < n, dims[v]? = some (card v)) (hv : ∀ v ∈ z ++ [x, y], v < n) (hn : (z ++ [x, y]).Nodup)
    (htm : 2 * rows.length * tiny ≤ 1) (hm : rows.length < 2 ^ 53) (hhi : 8 * (rows.length : ℝ) ^ 2 ≤ hi)
    (hfit : statisticError u rows.length (cellBound card rows.length x y z) + 2 * rows.length * Real.log rows.length ≤ hi)
    (hclear : ClearTest F alpha π (statisticError u rows.length (cellBound card rows.length x y z)) card rows x y z) :
    ∃ indep first, ciTestR o alpha dims cols rows.length x y z 1 = .ok (indep, first) ∧
      (indep = true ↔ degrees card rows x y z = 0 ∨
        alpha < 1 - F (gSquare Real.log card rows x y z) (degrees card rows x y z)) := by
  obtain ⟨g, first, h1, h2⟩ := C119_statistic (alpha := alpha) ho hu0 hu ht0 hc hdim hv hn htm hm hhi hfit
  refine ⟨_, first, h2, ?_⟩
  by_cases h0 : degrees card rows x y z = 0
  · simp [h0]
  · rw [if_neg h0]
    refine (clear_exceeds hF htail h0 hclear h1 (test_nonneg hc hv hn)).trans ?_
    simp [h0]

/-- C119.  If all tests between variables of the data set are clear, the test used by the learner answers all single questions, and all groups of
up to 8 conditioning sets if there are no tables without degrees of freedom, according to the exact verdicts. -/
theorem C119_answers (ho : AccurateOps o u tiny hi) (hu0 : 0 ≤ u) (hu : u ≤ 1 / 64) (ht0 : 0 ≤ tiny)
    (hF : ∀ df g h, 0 < df → 0 ≤ g → g ≤ h → F g df ≤ F h df) (htail : AccurateTail o F π)
    (hc : Columns card n cols rows) (hdim : ∀ v < n, dims[v]? = some (card v))
    (htm : 2 * rows.length * tiny ≤ 1) (hm : rows.length < 2 ^ 53) (hhi : 8 * (rows.length : ℝ) ^ 2 ≤ hi)
    (hfit : ∀ x y z, (∀ v ∈ z ++ [x, y], v < n) → (z ++ [x, y]).Nodup →
      statisticError u rows.length (cellBound card rows.length x y z) + 2 * rows.length * Real.log rows.length ≤ hi)
    (hclear : ∀ x y z, (∀ v ∈ z ++ [x, y], v < n) → (z ++ [x, y]).Nodup →
      ClearTest F alpha π (statisticError u rows.length (cellBound card rows.length x y z)) card rows x y z) {g : Nat}
    (hg : g ≤ 1 ∨ g ≤ 8 ∧ ∀ x y z, (∀ v ∈ z ++ [x, y], v < n) → (z ++ [x, y]).Nodup → z ≠ [] → degrees card rows x y z ≠ 0) :
    Answers (ciTestR o alpha dims cols rows.length) (exactVerdict F alpha card rows) n g := by
  have hone : ∀ x y z, (∀ v ∈ z ++ [x, y], v < n) → (z ++ [x, y]).Nodup →
      ∃ first, ciTestR o alpha dims cols rows.length x y z 1 = .ok (exactVerdict F alpha card rows x y z, first) := by
    intro x y z hv hn
    obtain ⟨i, first, h1, h2⟩ := C119_verdict ho hu0 hu ht0 hF htail hc hdim hv hn htm hm hhi (hfit x y z hv hn) (hclear x y z hv hn)
    refine ⟨first, ?_⟩
    rw [h1]
    congr 2
    rw [Bool.eq_iff_iff, h2, exactVerdict_iff]
  refine ⟨?_, ?_⟩
  · intro x y hxy hy
    refine hone x y [] ?_ (by simp; omega)
    intro v hv
    simp at hv
    omega
  · intro x y d sets hxy hy hd hne hlen hsets
    have hvs : ∀ s ∈ sets, ∀ v ∈ s ++ [x, y], v < n := by
      intro s hs v hv
      simp only [List.mem_append, List.mem_cons, List.not_mem_nil, or_false] at hv
      rcases hv with h | rfl | rfl
      · exact ((hsets s hs).2.2 v h).1
      · omega
      · omega
    have hns : ∀ s ∈ sets, (s ++ [x, y]).Nodup := by
      intro s hs
      obtain ⟨_, h2, h3⟩ := hsets s hs
      exact nodup_two (nodup_of_sorted h2) (fun h => (h3 x h).2.1 rfl) (fun h => (h3 y h).2.2 rfl) (by omega)
    have hnn : ∀ s ∈ sets, s ≠ [] := by
      rintro s hs rfl
      have := (hsets [] hs).1
      simp at this
      omega
    by_cases h1 : sets.length > 1
    · have hg' := hg.resolve_left (by omega)
      have hvf : ∀ v ∈ sets.flatten ++ [x, y], v < n := by
        intro v hv
        simp only [List.mem_append] at hv
        rcases hv with hv | hv
        · obtain ⟨s, hs, hvs'⟩ := List.mem_flatten.1 hv
          exact hvs s hs v (by simp [hvs'])
        · obtain ⟨s, hs⟩ := List.exists_mem_of_ne_nil _ hne
          exact hvs s hs v (by simp only [List.mem_append]; exact Or.inr hv)
      have hverd : ∀ s ∈ sets, groupVerdictR o alpha card rows x y s = exactVerdict F alpha card rows x y s := by
        intro s hs
        have h0 := hg'.2 x y s (hvs s hs) (hns s hs) (hnn s hs)
        have herr := gSquareR_error ho hu0 hu ht0 (hns s hs) (fun r hr v hv' => hc.lt r hr v (hvs s hs v hv')) htm hm hhi
          (hfit x y s (hvs s hs) (hns s hs))
        rw [Bool.eq_iff_iff, exactVerdict_iff]
        unfold groupVerdictR
        rw [clear_exceeds hF htail h0 (hclear x y s (hvs s hs) (hns s hs)) herr (test_nonneg hc (hvs s hs) (hns s hs))]
        simp [h0]
      unfold ciTestR
      rw [if_neg (by
        intro h
        rw [List.flatten_eq_nil_iff] at h
        obtain ⟨s, hs⟩ := List.exists_mem_of_ne_nil _ hne
        exact hnn s hs (h s hs)), if_pos h1, gSquareXYZGroupR_eq o alpha hne hd (fun s hs => (hsets s hs).1) hns (Columns.for hc hvf)
          (fun v h => hdim v (hvf v h)), if_pos (by omega)]
      obtain ⟨f, h2, h3⟩ := firstVerdictR_eq (verdict := groupVerdictR o alpha card rows x y) (sets := sets)
      have ha : sets.any (groupVerdictR o alpha card rows x y) = sets.any (exactVerdict F alpha card rows x y) := by
        rw [Bool.eq_iff_iff, List.any_eq_true, List.any_eq_true]
        exact ⟨fun ⟨s, hs, h⟩ => ⟨s, hs, by rw [← hverd s hs]; exact h⟩, fun ⟨s, hs, h⟩ => ⟨s, hs, by rw [hverd s hs]; exact h⟩⟩
      have hi' : sets.findIdx (groupVerdictR o alpha card rows x y) = sets.findIdx (exactVerdict F alpha card rows x y) := by
        clear h1 h2 h3 ha hvf hne hlen hsets hvs hns hnn
        induction sets with
        | nil => rfl
        | cons s t ih => rw [List.findIdx_cons, List.findIdx_cons, hverd s (by simp), ih (fun s' hs' => hverd s' (by simp [hs']))]
      refine ⟨f, by rw [h2, ha], fun h => ?_⟩
      rw [← hi']
      exact h3 (by rw [ha]; exact h)
    · have hl1 : sets.length = 1 := by
        have := List.length_pos_of_ne_nil hne
        omega
      obtain ⟨s, rfl⟩ := List.length_eq_one_iff.1 hl1
      have hs0 := hnn s (by simp)
      obtain ⟨first, h⟩ := hone x y s (hvs s (by simp)) (hns s (by simp))
      have hfirst : first = some 0 := by
        have h' := h
        unfold ciTestR at h'
        rw [if_neg hs0, if_neg (by omega), gSquareXYZR_eq o alpha hs0 (hns s (by simp)) (Columns.for hc (hvs s (by simp)))
          (fun v h => hdim v (hvs s (by simp) v h))] at h'
        unfold singleResultR at h'
        split at h' <;> simpa using (congrArg Prod.snd (Except.ok.inj h')).symm
      refine ⟨first, ?_, ?_⟩
      · simpa using h
      · intro hv
        have hv' : exactVerdict F alpha card rows x y s = true := by simpa using hv
        rw [hfirst, List.findIdx_cons, hv']
        rfl

end

section skeleton

variable {o : DoubleOps ℝ} {u tiny hi : ℝ} {alpha π : ℝ} {F : ℝ → Nat → ℝ} {card : Nat → Nat} {n : Nat} {dims : List Nat}
  {cols : List (List Nat)} {rows : List Assignment}

/-- C119.  If all tests are clear, the skeleton learned in machine arithmetic is that of exact arithmetic: the same edges, neighbours and
separating sets, for all numbers of threads and orders of the work. -/
theorem C119_skeleton (ho : AccurateOps o u tiny hi) (hu0 : 0 ≤ u) (hu : u ≤ 1 / 64) (ht0 : 0 ≤ tiny)
    (hF : ∀ df g h, 0 < df → 0 ≤ g → g ≤ h → F g df ≤ F h df) (htail : AccurateTail o F π)
    (hc : Columns card n cols rows) (hdim : ∀ v < n, dims[v]? = some (card v))
    (htm : 2 * rows.length * tiny ≤ 1) (hm : rows.length < 2 ^ 53) (hhi : 8 * (rows.length : ℝ) ^ 2 ≤ hi)
    (hfit : ∀ x y z, (∀ v ∈ z ++ [x, y], v < n) → (z ++ [x, y]).Nodup →
      statisticError u rows.length (cellBound card rows.length x y z) + 2 * rows.length * Real.log rows.length ≤ hi)
    (hclear : ∀ x y z, (∀ v ∈ z ++ [x, y], v < n) → (z ++ [x, y]).Nodup →
      ClearTest F alpha π (statisticError u rows.length (cellBound card rows.length x y z)) card rows x y z) {g : Nat} (hg0 : 0 < g)
    (hg : g ≤ 1 ∨ g ≤ 8 ∧ ∀ x y z, (∀ v ∈ z ++ [x, y], v < n) → (z ++ [x, y]).Nodup → z ≠ [] → degrees card rows x y z ≠ 0) (depth : Nat) :
    ∃ N, ∀ (cap cap' : Nat) (order order' : List Nat) (sched sched' : Nat → Schedule) (fuel fuel' : Nat), 0 < cap → 0 < cap' →
      order.Perm (List.range (n * (n - 1) / 2)) → order'.Perm (List.range (n * (n - 1) / 2)) →
      (∀ d r l, (sched d r l).Perm l) → (∀ d r l, (sched' d r l).Perm l) → N ≤ fuel → N ≤ fuel' →
      ∃ k k', learnSkeleton (ciTestR o alpha dims cols rows.length) n depth g cap order sched fuel = .ok k ∧
        learnSkeleton (ciTest Real.log (fun g df => some (F g df)) alpha dims cols rows.length) n depth 1 cap' order' sched' fuel' = .ok k' ∧
        k.edges.map (fun e => (e.x, e.y)) = k'.edges.map (fun e => (e.x, e.y)) ∧ k.adj = k'.adj ∧ k.sep = k'.sep := by
  have h1 := C119_answers ho hu0 hu ht0 hF htail hc hdim htm hm hhi hfit hclear hg
  have h2 : Answers (ciTest Real.log (fun g df => some (F g df)) alpha dims cols rows.length) (exactVerdict F alpha card rows) n 1 :=
    answers_gsquare Real.log _ alpha hc hdim (Or.inl le_rfl)
  obtain ⟨N, h⟩ := C29_schedule (exactVerdict F alpha card rows) n depth
  refine ⟨N, ?_⟩
  intro cap cap' order order' sched sched' fuel fuel' hcap hcap' hord hord' hs hs' hf hf'
  exact h _ _ g 1 cap cap' order order' sched sched' fuel fuel' h1 h2 hg0 (by omega) hcap hcap' hord hord' hs hs' hf hf'

end skeleton

section doubles

variable {alpha π : ℝ} {pchisq : ℝ → Nat → Option ℝ} {card : Nat → Nat} {n : Nat} {dims : List Nat}
  {cols : List (List Nat)} {rows : List Assignment} {x y : Nat} {z : List Nat}

/-- C119.  Rounding to the nearest `double` has relative error 2^-53 (absolute error 2^-1075 below 2^-1022), up to 2^1023. -/
theorem C119_rounding {v : ℝ} (hv : |v| ≤ 2 ^ (1023 : ℤ)) :
    |nearestDouble v - v| ≤ 2 ^ (-53 : ℤ) * max |v| (2 ^ (-1022 : ℤ)) := nearestDouble_error hv

/-- C119.  The statistic computed with correctly rounded `double`s, for fewer than 2^31 instances and `c` cells that are not empty, differs from
the exact one by at most 2^-52 m (8 (log m + 2) + 2 c log m). -/
theorem C119_doubles (hc : Columns card n cols rows) (hdim : ∀ v < n, dims[v]? = some (card v)) (hv : ∀ v ∈ z ++ [x, y], v < n)
    (hn : (z ++ [x, y]).Nodup) (hm : rows.length < 2 ^ 31) :
    ∃ g first, |g - gSquare Real.log card rows x y z| ≤ 2 ^ (-52 : ℤ) * rows.length *
        (8 * (Real.log rows.length + 2) + 2 * cellBound card rows.length x y z * Real.log rows.length) ∧
      ciTestR (doubleOps pchisq) alpha dims cols rows.length x y z 1 =
        .ok (if degrees card rows x y z = 0 then true
          else exceeds ((pchisq g (degrees card rows x y z)).map (fun q => nearestDouble (1 - q))) alpha, first) := by
  have hcell : cellBound card rows.length x y z ≤ rows.length := min_le_left _ _
  obtain ⟨f1, f2, f3⟩ := statistic_fits hm hcell
  obtain ⟨g, first, h1, h2⟩ := C119_statistic (alpha := alpha) (doubleOps_accurate pchisq) (by positivity) (by norm_num) (by positivity) hc hdim hv hn
    f3 (by omega) f2 f1
  exact ⟨g, first, h1.trans (statisticError_le (by omega)), h2⟩

/-- C119.  With correctly rounded `double`s and fewer than 2^31 instances, a clear test has the exact verdict. -/
theorem C119_verdict_doubles {F : ℝ → Nat → ℝ} (hF : ∀ df g h, 0 < df → 0 ≤ g → g ≤ h → F g df ≤ F h df)
    (htail : AccurateTail (doubleOps pchisq) F π) (hc : Columns card n cols rows) (hdim : ∀ v < n, dims[v]? = some (card v))
    (hv : ∀ v ∈ z ++ [x, y], v < n) (hn : (z ++ [x, y]).Nodup) (hm : rows.length < 2 ^ 31)
    (hclear : ClearTest F alpha π (statisticError (2 ^ (-53 : ℤ)) rows.length (cellBound card rows.length x y z)) card rows x y z) :
    ∃ indep first, ciTestR (doubleOps pchisq) alpha dims cols rows.length x y z 1 = .ok (indep, first) ∧
      (indep = true ↔ degrees card rows x y z = 0 ∨
        alpha < 1 - F (gSquare Real.log card rows x y z) (degrees card rows x y z)) := by
  obtain ⟨f1, f2, f3⟩ := statistic_fits hm (min_le_left rows.length ((z ++ [x, y]).map card).prod)
  exact C119_verdict (doubleOps_accurate pchisq) (by positivity) (by norm_num) (by positivity) hF htail hc hdim hv hn f3 (by omega) f2 f1 hclear

/-- C119.  With correctly rounded `double`s, the chi-square distribution, fewer than 2^31 instances and clear tests, the skeleton is the exact one. -/
theorem C119_skeleton_doubles (htail : AccurateTail (doubleOps pchisq) chiSquare π)
    (hc : Columns card n cols rows) (hdim : ∀ v < n, dims[v]? = some (card v)) (hm : rows.length < 2 ^ 31)
    (hclear : ∀ x y z, (∀ v ∈ z ++ [x, y], v < n) → (z ++ [x, y]).Nodup →
      ClearTest chiSquare alpha π (statisticError (2 ^ (-53 : ℤ)) rows.length (cellBound card rows.length x y z)) card rows x y z)
    {g : Nat} (hg0 : 0 < g)
    (hg : g ≤ 1 ∨ g ≤ 8 ∧ ∀ x y z, (∀ v ∈ z ++ [x, y], v < n) → (z ++ [x, y]).Nodup → z ≠ [] → degrees card rows x y z ≠ 0) (depth : Nat) :
    ∃ N, ∀ (cap cap' : Nat) (order order' : List Nat) (sched sched' : Nat → Schedule) (fuel fuel' : Nat), 0 < cap → 0 < cap' →
      order.Perm (List.range (n * (n - 1) / 2)) → order'.Perm (List.range (n * (n - 1) / 2)) →
      (∀ d r l, (sched d r l).Perm l) → (∀ d r l, (sched' d r l).Perm l) → N ≤ fuel → N ≤ fuel' →
      ∃ k k', learnSkeleton (ciTestR (doubleOps pchisq) alpha dims cols rows.length) n depth g cap order sched fuel = .ok k ∧
        learnSkeleton (ciTest Real.log (fun g df => some (chiSquare g df)) alpha dims cols rows.length) n depth 1 cap' order' sched' fuel' = .ok k' ∧
        k.edges.map (fun e => (e.x, e.y)) = k'.edges.map (fun e => (e.x, e.y)) ∧ k.adj = k'.adj ∧ k.sep = k'.sep := by
  have hfit : ∀ x y z, (∀ v ∈ z ++ [x, y], v < n) → (z ++ [x, y]).Nodup →
      statisticError (2 ^ (-53 : ℤ)) rows.length (cellBound card rows.length x y z) + 2 * rows.length * Real.log rows.length ≤ 2 ^ (1023 : ℤ) :=
    fun _ _ _ _ _ => (statistic_fits hm (min_le_left _ _)).1
  obtain ⟨-, f2, f3⟩ := statistic_fits hm (Nat.zero_le rows.length)
  have hacc := doubleOps_accurate pchisq
  have hu0 : (0 : ℝ) ≤ 2 ^ (-53 : ℤ) := by positivity
  have hu : (2 : ℝ) ^ (-53 : ℤ) ≤ 1 / 64 := by norm_num
  have ht : (0 : ℝ) ≤ 2 ^ (-1022 : ℤ) := by positivity
  have hm' : rows.length < 2 ^ 53 := by omega
  generalize (2 : ℝ) ^ (-53 : ℤ) = u at hacc hu0 hu hfit hclear
  generalize (2 : ℝ) ^ (-1022 : ℤ) = tiny at hacc ht f3
  generalize (2 : ℝ) ^ (1023 : ℤ) = hi at hacc f2 hfit
  have hF : ∀ (df : Nat) (g h : ℝ), 0 < df → 0 ≤ g → g ≤ h → chiSquare g df ≤ chiSquare h df := fun _ _ _ _ _ h => chiSquare_mono h
  clear hm
  generalize chiSquare = F at hF hclear htail ⊢
  exact C119_skeleton hacc hu0 hu ht hF htail hc hdim f3 hm' f2 hfit hclear hg0 hg depth

end doubles

namespace RoundedExample

/-- Six instances of a variable with three values and a variable with two values, one for each combination. -/
def rows : List Assignment := [fun _ => 0, fun v => v, fun v => 1 - v, fun _ => 1, fun v => 2 - 2 * v, fun v => 2 - v]

def card : Nat → Nat := fun v => if v = 0 then 3 else 2

def cols : List (List Nat) := [[0, 0, 1, 1, 2, 2], [0, 1, 0, 1, 0, 1]]

theorem columns : Columns card 2 cols rows := by
  constructor
  · intro v hv
    match v, hv with
    | 0, _ =>
      refine ⟨[0, 0, 1, 1, 2, 2], rfl, ?_⟩
      intro j r hr
      match j, hr with
      | 0, hr | 1, hr | 2, hr | 3, hr | 4, hr | 5, hr => cases hr; rfl
    | 1, _ =>
      refine ⟨[0, 1, 0, 1, 0, 1], rfl, ?_⟩
      intro j r hr
      match j, hr with
      | 0, hr | 1, hr | 2, hr | 3, hr | 4, hr | 5, hr => cases hr; rfl
  · intro r hr v hv
    simp only [rows, List.mem_cons, List.not_mem_nil, or_false] at hr
    match v, hv with
    | 0, _ | 1, _ => rcases hr with rfl | rfl | rfl | rfl | rfl | rfl <;> decide

/-- The chi-square distribution function, 0 for negative numbers. -/
noncomputable def pchisq : ℝ → Nat → Option ℝ := fun g df => some (chiSquare (max g 0) df)

theorem tail : AccurateTail (doubleOps pchisq) chiSquare (2 ^ (-53 : ℤ)) := by
  intro g df _
  refine ⟨chiSquare (max g 0) df, rfl, ?_⟩
  show |nearestDouble (1 - chiSquare (max g 0) df) - (1 - chiSquare (max g 0) df)| ≤ _
  have h0 : 0 ≤ chiSquare (max g 0) df := ProbabilityTheory.cdf_nonneg _ _
  have h1 : chiSquare (max g 0) df ≤ 1 := ProbabilityTheory.cdf_le_one _ _
  have habs : |1 - chiSquare (max g 0) df| ≤ 1 := by
    rw [abs_le]
    constructor <;> linarith
  have hb : (1 : ℝ) ≤ 2 ^ (1023 : ℤ) := one_le_zpow₀ (by norm_num) (by norm_num)
  refine (nearestDouble_error (habs.trans hb)).trans ?_
  have ht : (2 : ℝ) ^ (-1022 : ℤ) ≤ 1 := zpow_le_one_of_nonpos₀ (by norm_num) (by norm_num)
  calc (2 : ℝ) ^ (-53 : ℤ) * max |1 - chiSquare (max g 0) df| (2 ^ (-1022 : ℤ)) ≤ 2 ^ (-53 : ℤ) * 1 := by
        gcongr
        exact max_le habs ht
    _ = _ := mul_one _

theorem chiSquare_two {g : ℝ} (hg : 0 ≤ g) : chiSquare g 2 ≤ g := by
  have h : chiSquare g 2 = ProbabilityTheory.cdf (ProbabilityTheory.expMeasure (1 / 2)) g := by
    unfold chiSquare ProbabilityTheory.expMeasure
    norm_num
  rw [h, ProbabilityTheory.cdf_expMeasure_eq (by norm_num), if_pos hg]
  have := Real.add_one_le_exp (-(1 / 2 * g))
  linarith

theorem pairs {x y : Nat} {z : List Nat} (hv : ∀ v ∈ z ++ [x, y], v < 2) (hn : (z ++ [x, y]).Nodup) :
    z = [] ∧ (x = 0 ∧ y = 1 ∨ x = 1 ∧ y = 0) := by
  have hl : (z ++ [x, y]).length ≤ 2 := by
    have := (hn.subperm (l₂ := List.range 2) (fun v h => by simpa using hv v h)).length_le
    simpa using this
  have hz : z = [] := by
    rw [← List.length_eq_zero_iff]
    simpa using hl
  subst hz
  have hx := hv x (by simp)
  have hy := hv y (by simp)
  have hne : x ≠ y := by simpa using hn
  exact ⟨rfl, by omega⟩

theorem statistic {x y : Nat} (h : x = 0 ∧ y = 1 ∨ x = 1 ∧ y = 0) :
    gSquare Real.log card rows x y [] = 0 ∧ degrees card rows x y [] = 2 := by
  rcases h with ⟨rfl, rfl⟩ | ⟨rfl, rfl⟩
  · exact ⟨by norm_num [gSquare, sumOut, countSame, rows, card, gTerm, Assignment.set, Finset.sum_range_succ], by decide⟩
  · exact ⟨by norm_num [gSquare, sumOut, countSame, rows, card, gTerm, Assignment.set, Finset.sum_range_succ], by decide⟩

/-- All tests at the level 0.05 are clear. -/
theorem clear {x y : Nat} {z : List Nat} (hv : ∀ v ∈ z ++ [x, y], v < 2) (hn : (z ++ [x, y]).Nodup) :
    ClearTest chiSquare (1 / 20) (2 ^ (-53 : ℤ)) (statisticError (2 ^ (-53 : ℤ)) rows.length (cellBound card rows.length x y z)) card rows
      x y z := by
  obtain ⟨rfl, h⟩ := pairs hv hn
  right
  left
  have h1 : cellBound card rows.length x y [] = 6 := by
    rcases h with ⟨rfl, rfl⟩ | ⟨rfl, rfl⟩ <;> decide
  have hlen : rows.length = 6 := rfl
  rw [(statistic h).1, (statistic h).2, h1, hlen]
  have h2 := statisticError_le (m := 6) (c := 6) (by norm_num)
  have h3 := log_le_cast 6
  have h4 : statisticError (2 ^ (-53 : ℤ)) 6 6 ≤ 1 / 20 := by
    refine h2.trans ?_
    push_cast at h3 ⊢
    have h5 : (2 : ℝ) ^ (-52 : ℤ) * 6 * (8 * (Real.log 6 + 2) + 2 * 6 * Real.log 6) ≤ 2 ^ (-52 : ℤ) * 6 * (8 * (6 + 2) + 2 * 6 * 6) := by gcongr
    refine h5.trans ?_
    norm_num
  have h6 : 0 ≤ statisticError (2 ^ (-53 : ℤ)) 6 6 := by
    have := Real.log_natCast_nonneg 6
    unfold statisticError
    positivity
  have h7 := chiSquare_two (g := 0 + statisticError (2 ^ (-53 : ℤ)) 6 6) (by linarith)
  have h8 : (2 : ℝ) ^ (-53 : ℤ) ≤ 1 / 20 := by norm_num
  rw [zero_add] at h7 ⊢
  generalize chiSquare (statisticError (2 ^ (-53 : ℤ)) 6 6) 2 = q at h7 ⊢
  generalize statisticError (2 ^ (-53 : ℤ)) 6 6 = B at h4 h7
  generalize (2 : ℝ) ^ (-53 : ℤ) = u at h8 ⊢
  linarith

theorem sizes : ∀ v < 2, [3, 2][v]? = some (card v) := by
  intro v hv
  match v, hv with
  | 0, _ | 1, _ => rfl

/-- The two variables are judged independent at the level 0.05 by the computation with `double`s. -/
example : ∃ first, ciTestR (doubleOps pchisq) (1 / 20) [3, 2] cols rows.length 0 1 [] 1 = .ok (true, first) := by
  have hm : rows.length < 2 ^ 31 := by decide
  have hv : ∀ v ∈ [] ++ [0, 1], v < 2 := by decide
  have hn : ([] ++ [0, 1]).Nodup := by decide
  have hF : ∀ (df : Nat) (g h : ℝ), 0 < df → 0 ≤ g → g ≤ h → chiSquare g df ≤ chiSquare h df := fun _ _ _ _ _ h => chiSquare_mono h
  obtain ⟨i, first, h1, h2⟩ := C119_verdict_doubles hF tail columns sizes hv hn hm (clear hv hn)
  refine ⟨first, ?_⟩
  have hi : i = true := by
    rw [h2, (statistic (Or.inl ⟨rfl, rfl⟩)).1, (statistic (Or.inl ⟨rfl, rfl⟩)).2]
    right
    have := chiSquare_two (g := 0) le_rfl
    linarith
  rw [h1, hi]

/-- The statement about skeletons applies to the data set. -/
example : ∃ N, ∀ fuel, N ≤ fuel → ∃ k k',
    learnSkeleton (ciTestR (doubleOps pchisq) (1 / 20) [3, 2] cols rows.length) 2 1 1 1 [0] (fun _ _ l => l) fuel = .ok k ∧
      learnSkeleton (ciTest Real.log (fun g df => some (chiSquare g df)) (1 / 20) [3, 2] cols rows.length) 2 1 1 1 [0] (fun _ _ l => l) fuel = .ok k' ∧
      k.edges.map (fun e => (e.x, e.y)) = k'.edges.map (fun e => (e.x, e.y)) ∧ k.adj = k'.adj ∧ k.sep = k'.sep := by
  have hm : rows.length < 2 ^ 31 := by decide
  obtain ⟨N, h⟩ := C119_skeleton_doubles tail columns sizes hm (fun _ _ _ hv hn => clear hv hn) (g := 1) (by omega) (Or.inl le_rfl) 1
  exact ⟨N, fun fuel hf => h 1 1 [0] [0] _ _ fuel fuel (by omega) (by omega) (List.Perm.refl _) (List.Perm.refl _)
    (fun _ _ _ => List.Perm.refl _) (fun _ _ _ => List.Perm.refl _) hf hf⟩

end RoundedExample

end FastPGM
