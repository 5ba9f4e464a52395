import Verif.Lemmas.ChiSquare
import Verif.Props.Consistency
import Verif.Props.Dependence
import Mathlib.Probability.Distributions.Exponential

/-!
C104: the independence test with the chi-square distribution itself, as `stats::pchisq` computes it up to rounding (IndependenceTest.cpp 146,
268, 355).
-/

namespace FastPGM

open Spec MeasureTheory ProbabilityTheory

/-- The distribution function the test calls. -/
noncomputable def chi : ℝ → Nat → Option ℝ := fun g df => some (chiSquare g df)

/-- C104.  The chi-square distribution has the properties assumed of `pchisq` by C88. -/
theorem C104_like : ChiSquareLike chi chiSquare :=
  ⟨fun _ _ _ _ => rfl, fun _ h => chiSquare_zero h, fun _ _ h hg => chiSquare_pos h hg⟩

section tests

variable {alpha : ℝ} {card : Nat → Nat} {numVars : Nat} {dims : List Nat} {cols : List (List Nat)} {rows : List Assignment} {x y : Nat}
  {z : List Nat}

/-- C104.  The p-value is the probability that a chi-square variable exceeds the statistic.  It is positive and at most 1, and it is 1 exactly if
the data show no dependence.  The verdict is independence exactly if it is above the level or there is no degree of freedom. -/
theorem C104_pvalue (hc : Columns card numVars cols rows)
    (hdim : ∀ v < numVars, dims[v]? = some (card v)) (hv : ∀ v ∈ z ++ [x, y], v < numVars) (hn : (z ++ [x, y]).Nodup)
    (hpos : 0 < card x ∧ 0 < card y) :
    ∃ res p, independenceResult Real.log chi alpha dims cols rows.length x y z 1 = .ok res ∧ res.p = some p ∧
      (degrees card rows x y z ≠ 0 →
        p = (gammaMeasure ((degrees card rows x y z : ℝ) / 2) (1 / 2)).real (Set.Ioi (gSquare Real.log card rows x y z))) ∧
      0 < p ∧ p ≤ 1 ∧ (p = 1 ↔ IndependentInData card rows x y z) ∧
      (res.indep = true ↔ degrees card rows x y z = 0 ∨ alpha < p) := by
  obtain ⟨res, p, h1, h2, h3, h4, -⟩ := C88_pvalue (alpha := alpha) C104_like hc hdim hv hn hpos
  obtain ⟨res', h1', h5, h6⟩ := C27_statistic (log := Real.log) (pchisq := chi) (alpha := alpha) hc hdim hv hn
  rw [h1] at h1'
  cases h1'
  refine ⟨res, p, h1, h2, ?_, ?_, h3, h4, ?_⟩
  · intro h0
    rw [if_neg h0, h2] at h6
    cases h6
    exact chiSquare_tail _ (Nat.pos_of_ne_zero h0)
  · by_cases h0 : degrees card rows x y z = 0
    · rw [if_pos h0, h2] at h6
      cases h6
      exact one_pos
    · rw [if_neg h0, h2] at h6
      cases h6
      exact sub_pos.2 (chiSquare_lt_one (Nat.pos_of_ne_zero h0))
  · rw [h5]
    by_cases h0 : degrees card rows x y z = 0
    · simp [h0, Independent]
    · rw [if_neg h0, h2] at h6
      cases h6
      simp [h0, chi, Independent]

/-- C104.  At level 0 the verdict is always independence. -/
theorem C104_level_zero (hc : Columns card numVars cols rows)
    (hdim : ∀ v < numVars, dims[v]? = some (card v)) (hv : ∀ v ∈ z ++ [x, y], v < numVars) (hn : (z ++ [x, y]).Nodup)
    (hpos : 0 < card x ∧ 0 < card y) :
    ∃ res, independenceResult Real.log chi 0 dims cols rows.length x y z 1 = .ok res ∧ res.indep = true := by
  obtain ⟨res, p, h1, -, -, h2, -, -, h3⟩ := C104_pvalue (alpha := 0) hc hdim hv hn hpos
  exact ⟨res, h1, h3.2 (Or.inr h2)⟩

/-- C104.  At level 1 the verdict is dependence unless there is no degree of freedom. -/
theorem C104_level_one (hc : Columns card numVars cols rows)
    (hdim : ∀ v < numVars, dims[v]? = some (card v)) (hv : ∀ v ∈ z ++ [x, y], v < numVars) (hn : (z ++ [x, y]).Nodup)
    (hpos : 0 < card x ∧ 0 < card y) :
    ∃ res, independenceResult Real.log chi 1 dims cols rows.length x y z 1 = .ok res ∧
      (res.indep = true ↔ degrees card rows x y z = 0) := by
  obtain ⟨res, p, h1, -, -, -, h2, -, h3⟩ := C104_pvalue (alpha := 1) hc hdim hv hn hpos
  refine ⟨res, h1, h3.trans ⟨fun h => h.resolve_right (by linarith), Or.inl⟩⟩

end tests

section samples

variable {dims : List Nat} {ops : List EdgeOp} {N : Net} {prob : Nat → Nat → Config → Except Fault ℝ}

/-- C104.  Dependence is detected at the fixed level `alpha` as soon as the number of samples is large enough for the dependence `D`: then the
error probability is at most 64 / (m D²). -/
theorem C104_detected (hpos : ∀ d ∈ dims, 0 < d) (hne : dims ≠ []) (hops : ∀ op ∈ ops, OpInRange dims.length op)
    (hN : (Net.empty dims).run ops = .ok N) (cond : Nat → Assignment → ℝ)
    (hcond : ∀ (v : Nat) node, N.nodes[v]? = some node → ∀ a, InRange (fun j => dims.getD j 0) (v :: node.parents) a →
      prob v (a v) (configOf a node.parents) = .ok (cond v a) ∧ 0 ≤ cond v a ∧
        ∑ y ∈ Finset.range (dims.getD v 0), cond v (a.set v y) = 1)
    {x y : Nat} {z : List Nat} (hv : ∀ v ∈ z ++ [x, y], v < dims.length) (hn : (z ++ [x, y]).Nodup) {p : List Nat → Assignment → ℝ}
    (hp : p = marginal (fun j => dims.getD j 0) dims.length (fun a => ∏ u ∈ Finset.range dims.length, cond u a))
    {a : Assignment} (ha : InRange (fun j => dims.getD j 0) (z ++ [x, y]) a) {D : ℝ} (hD0 : 0 < D)
    (hD : D ≤ |p (z ++ [x, y]) a * p z a - p (z ++ [x]) a * p (z ++ [y]) a|) {alpha : ℝ} {m : Nat} (hm : 0 < m)
    (hlarge : (2 : ℝ) ^ (((((z ++ [x, y]).map (fun j => dims.getD j 0)).prod : Nat) : ℝ) / 2) * Real.exp (-(m * D ^ 2 / 32)) ≤ alpha) :
    uniformDraws m dims.length {w | ¬ Detected N prob chi alpha dims m (drawsOf w) x y z} ≤ ENNReal.ofReal (64 / (m * D ^ 2)) := by
  refine C102_detected hpos hne hops hN cond hcond hv hn hp ha hD0 hD hm ?_
  intro g df hdf hle hg q hq
  cases hq
  have hm0 : (0 : ℝ) < m := by exact_mod_cast hm
  refine le_trans (chiSquare_tail_le hdf (le_trans (by positivity) hg)) (le_trans ?_ hlarge)
  refine mul_le_mul (Real.rpow_le_rpow_of_exponent_le (by norm_num) ?_) (Real.exp_le_exp.2 (by linarith)) (Real.exp_pos _).le (by positivity)
  have : (df : ℝ) ≤ (((z ++ [x, y]).map (fun j => dims.getD j 0)).prod : Nat) := Nat.cast_le.2 hle
  linarith

/-- C104.  Edges are kept in the end at every fixed positive level. -/
theorem C104_edges_kept (hpos : ∀ d ∈ dims, 0 < d) (hne : dims ≠ []) (hops : ∀ op ∈ ops, OpInRange dims.length op)
    (hN : (Net.empty dims).run ops = .ok N) (cond : Nat → Assignment → ℝ)
    (hcond : ∀ (v : Nat) node, N.nodes[v]? = some node → ∀ a, InRange (fun j => dims.getD j 0) (v :: node.parents) a →
      prob v (a v) (configOf a node.parents) = .ok (cond v a) ∧ 0 ≤ cond v a ∧
        ∑ y ∈ Finset.range (dims.getD v 0), cond v (a.set v y) = 1)
    {alpha : ℝ} (halpha : 0 < alpha)
    (hdep : ∀ x y z, x < y → y < dims.length → z.Pairwise (· < ·) → (∀ v ∈ z, v < dims.length ∧ v ≠ x ∧ v ≠ y) → Spec.Joined (ParentOf N) x y →
      ¬ CondIndependent (fun j => dims.getD j 0) dims.length (fun a => ∏ u ∈ Finset.range dims.length, cond u a) x y z)
    (depth : Nat) :
    Filter.Tendsto (fun m : Nat => uniformDraws m dims.length {w | ¬ KeepsEdges N prob chi alpha dims depth m (drawsOf w)})
      Filter.atTop (nhds 0) := by
  refine C102_edges_kept hpos hne hops hN cond hcond ?_ hdep depth
  intro df hdf
  have h : Filter.Tendsto (fun g : ℝ => 1 - chiSquare g df) Filter.atTop (nhds 0) := by
    have := (tendsto_cdf_atTop (gammaMeasure ((df : ℝ) / 2) (1 / 2))).const_sub 1
    rwa [sub_self] at this
  obtain ⟨g0, hg0⟩ := Filter.eventually_atTop.1 (h.eventually (ge_mem_nhds halpha))
  refine ⟨g0, fun g hg q hq => ?_⟩
  cases hq
  exact hg0 g hg

/-- C104.  The structure is learned in the end if the test on `m` samples is made at level 1 / (m + 1). -/
theorem C104_consistent (hpos : ∀ d ∈ dims, 0 < d) (hne : dims ≠ []) (hops : ∀ op ∈ ops, OpInRange dims.length op)
    (hN : (Net.empty dims).run ops = .ok N) (cond : Nat → Assignment → ℝ)
    (hcond : ∀ (v : Nat) node, N.nodes[v]? = some node → ∀ a, InRange (fun j => dims.getD j 0) (v :: node.parents) a →
      prob v (a v) (configOf a node.parents) = .ok (cond v a) ∧ 0 ≤ cond v a ∧
        ∑ y ∈ Finset.range (dims.getD v 0), cond v (a.set v y) = 1)
    (hfaith : Faithful N (fun j => dims.getD j 0) dims.length (fun a => ∏ u ∈ Finset.range dims.length, cond u a))
    {depth : Nat} (hdepth : FewParents (ParentOf N) depth) :
    ∃ fuel, Filter.Tendsto (fun m : Nat => uniformDraws m dims.length {w | ¬ Recovers N prob chi (1 / ((m : ℝ) + 1)) dims depth fuel m (drawsOf w)})
      Filter.atTop (nhds 0) :=
  C103_consistent hpos hne hops hN cond hcond chiSquare_slow hfaith hdepth

end samples

/-! ### The hypotheses can be met -/

/-- With two degrees of freedom the distribution function is `1 - exp (-g / 2)`. -/
example {g : ℝ} (hg : 0 ≤ g) : chiSquare g 2 = 1 - Real.exp (-g / 2) := by
  have e : gammaMeasure (((2 : Nat) : ℝ) / 2) (1 / 2) = expMeasure (1 / 2) := by
    rw [expMeasure]
    norm_num
  unfold chiSquare
  rw [e, cdf_expMeasure_eq (by norm_num), if_pos hg]
  ring_nf

/-- The noisy conjunction of two coins is recovered. -/
example : ∃ N, (Net.empty [2, 2, 2]).run [.addDirected 0 2, .addDirected 1 2] = .ok N ∧ Compelled (ParentOf N) 0 2 ∧ Compelled (ParentOf N) 1 2 ∧
    ∃ fuel, Filter.Tendsto (fun m : Nat => uniformDraws m 3
      {w | ¬ Recovers N andProb chi (1 / ((m : ℝ) + 1)) [2, 2, 2] 3 fuel m (drawsOf w)}) Filter.atTop (nhds 0) := by
  obtain ⟨N, h1, h2, h3⟩ := and_ok
  refine ⟨N, h1, ?_, ?_, C104_consistent (dims := [2, 2, 2]) (by simp) (by simp) (by simp [OpInRange]) h1 andCond h3 (and_faithful h2) ?_⟩
  · exact fun D' h => ((h.colliders 0 2 1).2 ⟨by decide, (h2 0 2).2 (by simp), (h2 1 2).2 (by simp), by simp [Spec.Joined, h2]⟩).2.1
  · exact fun D' h => ((h.colliders 0 2 1).2 ⟨by decide, (h2 0 2).2 (by simp), (h2 1 2).2 (by simp), by simp [Spec.Joined, h2]⟩).2.2.1
  · intro x S hn hS
    have : S.length ≤ [0, 1].length := by
      apply List.Subperm.length_le
      apply hn.subperm
      intro v hv
      have := ((h2 v x).1 (hS v hv)).1
      simpa using this
    simpa using Nat.lt_succ_of_le this

/-- At level 1/20 no edge of it is lost in the end. -/
example : ∃ N, (Net.empty [2, 2, 2]).run [.addDirected 0 2, .addDirected 1 2] = .ok N ∧ Spec.Joined (ParentOf N) 0 2 ∧
    Filter.Tendsto (fun m : Nat => uniformDraws m 3 {w | ¬ KeepsEdges N andProb chi (1 / 20) [2, 2, 2] 3 m (drawsOf w)}) Filter.atTop (nhds 0) := by
  obtain ⟨N, h1, h2, h3⟩ := and_ok
  refine ⟨N, h1, Or.inl ((h2 0 2).2 (by simp)), C104_edges_kept (dims := [2, 2, 2]) (by simp) (by simp) (by simp [OpInRange]) h1 andCond h3
    (by norm_num) ?_ 3⟩
  intro x y z hxy hy hz hlt hj
  refine and_dependent hxy hy hz hlt ?_
  rintro ⟨rfl, rfl, rfl⟩
  simp [Spec.Joined, h2] at hj

/-- That node 1 copies node 0 with probability 3/4 is detected from a million samples, at the level 1/20, except with probability at most
1/200. -/
example : ∃ N, (Net.empty [2, 2]).run [.addDirected 0 1] = .ok N ∧
    uniformDraws 1000000 2 {w | ¬ Detected N coinProb chi (1 / 20) [2, 2] 1000000 (drawsOf w) 0 1 []} ≤ ENNReal.ofReal (1 / 200) := by
  obtain ⟨N, h1, _, _, h2⟩ := coin_ok
  refine ⟨N, h1, ?_⟩
  have := C104_detected (dims := [2, 2]) (by simp) (by simp) (by simp [OpInRange]) h1 coinCond h2 (x := 0) (y := 1) (z := []) (by simp) (by simp)
    rfl (a := fun _ => 0) (by
      intro v hv
      have : v = 0 ∨ v = 1 := by simpa using hv
      rcases this with rfl | rfl <;> decide) (D := 1 / 8) (by norm_num) (by
      simp [marginal, weight, sumOut, List.range_succ, Agrees, observed, coinCond, Finset.sum_range_succ, Finset.prod_range_succ,
        Assignment.set]
      norm_num [abs_of_pos])
    (alpha := 1 / 20) (m := 1000000) (by norm_num) (by
      have h4 : (80 : ℝ) ≤ Real.exp (((1000000 : ℕ) : ℝ) * (1 / 8) ^ 2 / 32) :=
        le_trans (by norm_num) (Real.add_one_le_exp (((1000000 : ℕ) : ℝ) * (1 / 8) ^ 2 / 32))
      have e : (2 : ℝ) ^ ((((([] ++ [0, 1] : List Nat).map (fun j => [2, 2].getD j 0)).prod : Nat) : ℝ) / 2) = 4 := by
        norm_num
      rw [e, Real.exp_neg]
      have := inv_anti₀ (by norm_num) h4
      linarith)
  refine le_trans this (ENNReal.ofReal_le_ofReal ?_)
  norm_num

/-- Four instances with two equal columns: at level 0 they are declared independent, at level 1 dependent. -/
example : (∃ res, independenceResult Real.log chi 0 [2, 2] [[0, 0, 1, 1], [0, 0, 1, 1]] 4 0 1 [] 1 = .ok res ∧ res.indep = true) ∧
    ∃ res, independenceResult Real.log chi 1 [2, 2] [[0, 0, 1, 1], [0, 0, 1, 1]] 4 0 1 [] 1 = .ok res ∧ res.indep = false := by
  have hc : Columns (fun _ => 2) 2 [[0, 0, 1, 1], [0, 0, 1, 1]] [fun _ => 0, fun _ => 0, fun _ => 1, fun _ => 1] := by
    constructor
    · intro v hv
      obtain rfl | rfl : v = 0 ∨ v = 1 := by omega
      · exact ⟨_, rfl, by rintro (_ | _ | _ | _ | j) r hr <;> simp at hr <;> subst hr <;> rfl⟩
      · exact ⟨_, rfl, by rintro (_ | _ | _ | _ | j) r hr <;> simp at hr <;> subst hr <;> rfl⟩
    · intro r hr v hv
      simp only [List.mem_cons, List.not_mem_nil, or_false] at hr
      rcases hr with rfl | rfl | rfl | rfl <;> dsimp only <;> omega
  have hdim : ∀ v < 2, [2, 2][v]? = some 2 := by
    intro v hv
    obtain rfl | rfl : v = 0 ∨ v = 1 := by omega
    all_goals rfl
  refine ⟨C104_level_zero (z := []) hc hdim (by simp) (by simp) (by simp), ?_⟩
  obtain ⟨res, h1, h2⟩ := C104_level_one (x := 0) (y := 1) (z := []) hc hdim (by simp) (by simp) (by simp)
  refine ⟨res, h1, ?_⟩
  rw [← Bool.not_eq_true, h2]
  intro h
  have h3 := (C88_statistic (x := 0) (y := 1) (z := []) hc (by simp) (by simp) (by simp)).2.2.2.2 h (fun _ => 0) (fun v _ => by norm_num)
  simp [countSame] at h3

end FastPGM
