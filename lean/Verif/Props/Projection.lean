import Verif.Spec.Projection
import Verif.Props.RandomAnswers
import Verif.Props.Consistency
import Verif.Props.MarkovEquiv
import Verif.Props.Coherence
import Verif.Lemmas.LearnCommands

/-!
C108, C109: parameters learned, from samples of a network, for another graph.
-/

namespace FastPGM

open Spec MeasureTheory

/-- Distributions close to each other have close conditional probabilities. -/
theorem posterior_close {card : Nat → Nat} {n : Nat} {g : Assignment → ℝ} (hg : ∀ o : Outcome card n, 0 ≤ g o.asg) {E : List (Nat × Nat)}
    (hE : 0 < weight card n g (Agrees E)) {η : ℝ} (hη : 0 < η) :
    ∃ δ : ℝ, 0 < δ ∧ ∀ f : Assignment → ℝ, (∀ o : Outcome card n, |f o.asg - g o.asg| ≤ δ) → ∀ q x,
      |posterior card n f E q x - posterior card n g E q x| < η := by
  generalize hp : weight card n g (Agrees E) = p at hE
  let M : ℝ := (Fintype.card (Outcome card n) : ℝ) + 1
  have hM : 0 < M := by positivity
  let δ : ℝ := min (p / 2) (η * p / 8)
  have hδ : 0 < δ := lt_min (by linarith) (by positivity)
  refine ⟨δ / M, by positivity, ?_⟩
  intro f hf q x
  have hwt : ∀ (ev : Assignment → Prop) [DecidablePred ev], |weight card n f ev - weight card n g ev| ≤ δ := by
    intro ev _
    unfold weight
    rw [sumOut_outcomes, sumOut_outcomes, ← Finset.sum_sub_distrib]
    refine le_trans (Finset.abs_sum_le_sum_abs _ _) ?_
    refine le_trans (Finset.sum_le_sum (g := fun _ => δ / M) (fun o _ => ?_)) ?_
    · split
      · exact hf o
      · rw [sub_zero, abs_zero]
        positivity
    · rw [Finset.sum_const, Finset.card_univ, nsmul_eq_mul]
      calc (Fintype.card (Outcome card n) : ℝ) * (δ / M) ≤ M * (δ / M) :=
            mul_le_mul_of_nonneg_right (by simp only [M]; linarith) (by positivity)
        _ = δ := by field_simp
  unfold posterior
  rw [hp]
  refine div_close (δ := δ) hE ?_ ?_ (hwt _) (by rw [← hp]; exact hwt _) (min_le_left _ _) ?_
  · unfold weight
    rw [sumOut_outcomes]
    exact Finset.sum_nonneg (fun o _ => by split; exacts [hg o, le_rfl])
  · rw [← hp]
    unfold weight
    rw [sumOut_outcomes, sumOut_outcomes]
    apply Finset.sum_le_sum
    intro o _
    by_cases h : Agrees E o.asg
    · rw [if_pos h]
      split
      · exact le_rfl
      · exact hg o
    · rw [if_neg h, if_neg (fun h' => h h'.1)]
  · have : δ ≤ η * p / 8 := min_le_right _ _
    have hηp : 0 < η * p := by positivity
    linarith

section conditional

variable {card : Nat → Nat} {n : Nat} {p : Assignment → ℝ}

theorem marginal_nonneg (hp : ∀ o : Outcome card n, 0 ≤ p o.asg) (vs : List Nat) (a : Assignment) : 0 ≤ marginal card n p vs a := by
  unfold marginal weight
  rw [sumOut_outcomes]
  exact Finset.sum_nonneg (fun o _ => by split; exacts [hp o, le_rfl])

theorem marginal_mono (hp : ∀ o : Outcome card n, 0 ≤ p o.asg) {vs ws : List Nat} (h : ∀ v ∈ ws, v ∈ vs) (a : Assignment) :
    marginal card n p vs a ≤ marginal card n p ws a := by
  unfold marginal weight
  rw [sumOut_outcomes, sumOut_outcomes]
  apply Finset.sum_le_sum
  intro o _
  by_cases hv : Agrees (observed a vs) o.asg
  · rw [if_pos hv, if_pos]
    intro e he
    obtain ⟨v, hv', rfl⟩ := List.mem_map.1 he
    exact hv _ (List.mem_map.2 ⟨v, h v hv', rfl⟩)
  · rw [if_neg hv]
    split
    · exact hp o
    · exact le_rfl

theorem conditional_bounds (hp : ∀ o : Outcome card n, 0 ≤ p o.asg) {v : Nat} (hv : 0 < card v) (ps : List Nat) (a : Assignment) :
    0 ≤ conditional card n p v ps a ∧ conditional card n p v ps a ≤ 1 := by
  unfold conditional
  split
  · have : (1 : ℝ) ≤ card v := by exact_mod_cast hv
    exact ⟨by positivity, by rw [div_le_one (by linarith)]; exact this⟩
  · next h =>
    have h0 : 0 < marginal card n p ps a := lt_of_le_of_ne (marginal_nonneg hp _ _) (Ne.symm h)
    refine ⟨div_nonneg (marginal_nonneg hp _ _) h0.le, ?_⟩
    rw [div_le_one h0]
    exact marginal_mono hp (fun w hw => List.mem_cons_of_mem _ hw) a

theorem projection_nonneg (hp : ∀ o : Outcome card n, 0 ≤ p o.asg) (hc : ∀ v < n, 0 < card v) (ps : Nat → List Nat) (a : Assignment) :
    0 ≤ projection card n p ps a :=
  Finset.prod_nonneg (fun v hv => (conditional_bounds hp (hc v (Finset.mem_range.1 hv)) _ a).1)

end conditional

section samples

variable {dims : List Nat} {ops : List EdgeOp} {N : Net} {prob : Nat → Nat → Config → Except Fault ℝ}

/-- In `m` samples of `N`, the smoothed relative frequency of the value of `v` in `c` among the samples in which the variables `ps` have their
values in `c` is closer than `ε` to `θ`. -/
def EntryClose (N : Net) (prob : Nat → Nat → Config → Except Fault ℝ) (alpha : Int) (d m : Nat)
    (draws : Nat → Nat → {u : ℝ // 0 < u ∧ u ≤ 1}) (v : Nat) (ps : List Nat) (c : Assignment) (θ ε : ℝ) : Prop :=
  ∃ samples N', generateSamples inversion N prob m draws = .ok (samples, N') ∧
    |((countSame (samples.map asg) (v :: ps) c : ℝ) + (alpha : ℝ)) / ((countSame (samples.map asg) ps c : ℝ) + (alpha : ℝ) * (d : ℝ)) - θ| < ε

theorem entry_close (hpos : ∀ d ∈ dims, 0 < d) (hne : dims ≠ []) (hops : ∀ op ∈ ops, OpInRange dims.length op)
    (hN : (Net.empty dims).run ops = .ok N) (cond : Nat → Assignment → ℝ)
    (hcond : ∀ (v : Nat) node, N.nodes[v]? = some node → ∀ a, InRange (fun j => dims.getD j 0) (v :: node.parents) a →
      prob v (a v) (configOf a node.parents) = .ok (cond v a) ∧ 0 ≤ cond v a ∧
        ∑ y ∈ Finset.range (dims.getD v 0), cond v (a.set v y) = 1)
    {alpha : Int} (ha : 0 < alpha) {ε : ℝ} (hε : 0 < ε) {v : Nat} {ps : List Nat} (hv : v < dims.length) (hps : ∀ u ∈ ps, u < dims.length)
    (c : Assignment) :
    Filter.Tendsto (fun m : Nat => uniformDraws m dims.length
      {w | ¬ EntryClose N prob alpha (dims.getD v 0) m (drawsOf w) v ps c
        (conditional (fun j => dims.getD j 0) dims.length (fun a => ∏ u ∈ Finset.range dims.length, cond u a) v ps c) ε})
      Filter.atTop (nhds 0) := by
  classical
  obtain ⟨hP, hP1, hmar⟩ := law_ok hpos hops hN cond hcond
  have hd0 : 0 < dims.getD v 0 := by
    rw [List.getD_eq_getElem?_getD, List.getElem?_eq_getElem hv]
    exact hpos _ (List.getElem_mem hv)
  have hd1 : (1 : ℝ) ≤ (dims.getD v 0 : ℝ) := by exact_mod_cast hd0
  have ha' : (0 : ℝ) < (alpha : ℝ) := by exact_mod_cast ha
  have hvps : ∀ u ∈ v :: ps, u < dims.length := by
    intro u hu
    rcases List.mem_cons.1 hu with rfl | h
    · exact hv
    · exact hps u h
  by_cases h0 : marginal (fun j => dims.getD j 0) dims.length (fun a => ∏ u ∈ Finset.range dims.length, cond u a) ps c = 0
  · -- the values of `ps` never occur
    have hzero : ∀ m, uniformDraws m dims.length
        {w | ¬ EntryClose N prob alpha (dims.getD v 0) m (drawsOf w) v ps c
          (conditional (fun j => dims.getD j 0) dims.length (fun a => ∏ u ∈ Finset.range dims.length, cond u a) v ps c) ε} = 0 := by
      intro m
      have hb := samples_bound hpos hne hops hN cond hcond (m := m) (fun _ => False)
      rw [show expect (law dims cond) m (fun s => if (fun _ : Fin m → Outcome (fun j => dims.getD j 0) dims.length => False) s then (1 : ℝ) else 0) = 0 by
        unfold expect; simp, ENNReal.ofReal_zero] at hb
      refine le_antisymm (le_trans (measure_mono ?_) hb) zero_le
      intro w hw
      rintro ⟨samples, N', s, g1, g2, g3, g4, g5, g6, -⟩
      apply hw
      refine ⟨samples, N', g1, ?_⟩
      have hz : ∀ i, ¬ Agrees (observed c ps) (s i).asg := by
        intro i hag
        apply g6 i
        rw [hmar] at h0
        have := (Finset.sum_eq_zero_iff_of_nonneg (fun o _ => by split; exacts [hP o, le_rfl])).1 h0 (s i) (Finset.mem_univ _)
        rwa [if_pos hag] at this
      have hz' : ∀ i, ¬ Agrees (observed c (v :: ps)) (s i).asg := fun i hag => hz i (fun e he => hag e (List.mem_cons_of_mem _ he))
      rw [g5 _ c hps, g5 _ c hvps]
      simp only [hz, hz', if_false, Finset.sum_const_zero]
      unfold conditional
      rw [if_pos h0, zero_add, zero_add, show (alpha : ℝ) / ((alpha : ℝ) * (dims.getD v 0 : ℝ)) = 1 / (dims.getD v 0 : ℝ) by field_simp, sub_self, abs_zero]
      exact hε
    simp only [hzero]
    exact tendsto_const_nhds
  · have hpn : ∀ o : Outcome (fun j => dims.getD j 0) dims.length, 0 ≤ (fun a => ∏ u ∈ Finset.range dims.length, cond u a) o.asg := hP
    have hb01 := conditional_bounds (p := fun a => ∏ u ∈ Finset.range dims.length, cond u a) hpn (v := v) hd0 ps c
    have hq0 : 0 < marginal (fun j => dims.getD j 0) dims.length (fun a => ∏ u ∈ Finset.range dims.length, cond u a) ps c :=
      lt_of_le_of_ne (marginal_nonneg hpn _ _) (Ne.symm h0)
    have hθ : marginal (fun j => dims.getD j 0) dims.length (fun a => ∏ u ∈ Finset.range dims.length, cond u a) (v :: ps) c =
        conditional (fun j => dims.getD j 0) dims.length (fun a => ∏ u ∈ Finset.range dims.length, cond u a) v ps c *
          marginal (fun j => dims.getD j 0) dims.length (fun a => ∏ u ∈ Finset.range dims.length, cond u a) ps c := by
      unfold conditional
      rw [if_neg h0, div_mul_cancel₀ _ h0]
    generalize conditional (fun j => dims.getD j 0) dims.length (fun a => ∏ u ∈ Finset.range dims.length, cond u a) v ps c = θ at *
    generalize hq : marginal (fun j => dims.getD j 0) dims.length (fun a => ∏ u ∈ Finset.range dims.length, cond u a) ps c = q at *
    rw [hmar] at hq hθ
    have hbound : Filter.Tendsto (fun m : Nat => ENNReal.ofReal ((4 + 16 / ε ^ 2) / (m * q))) Filter.atTop (nhds 0) := by
      rw [← ENNReal.ofReal_zero]
      apply ENNReal.tendsto_ofReal
      apply Filter.Tendsto.div_atTop tendsto_const_nhds
      exact Filter.Tendsto.atTop_mul_const hq0 tendsto_natCast_atTop_atTop
    refine tendsto_of_tendsto_of_tendsto_of_le_of_le' tendsto_const_nhds hbound (Filter.Eventually.of_forall (fun _ => zero_le)) ?_
    have hev : ∀ᶠ m : Nat in Filter.atTop, 4 * (alpha : ℝ) * (dims.getD v 0 : ℝ) ≤ ε * m * q := by
      have : Filter.Tendsto (fun m : Nat => ε * (m : ℝ) * q) Filter.atTop Filter.atTop :=
        Filter.Tendsto.atTop_mul_const hq0 (Filter.Tendsto.const_mul_atTop hε tendsto_natCast_atTop_atTop)
      exact this.eventually_ge_atTop _
    filter_upwards [hev] with m hm
    have hdev := frequency_deviation hP hP1 (B := fun o => Agrees (observed c (v :: ps)) o.asg) (C := fun o => Agrees (observed c ps) o.asg)
      (fun o h e he => h e (List.mem_cons_of_mem _ he)) hq0 hq hθ hb01.1 hb01.2 ha' hd1 hε m hm
    refine le_trans (le_trans (measure_mono ?_) (samples_bound hpos hne hops hN cond hcond (m := m) (fun s =>
      ε ≤ |((∑ i, if Agrees (observed c (v :: ps)) (s i).asg then (1 : ℝ) else 0) + (alpha : ℝ)) /
        ((∑ i, if Agrees (observed c ps) (s i).asg then (1 : ℝ) else 0) + (alpha : ℝ) * (dims.getD v 0 : ℝ)) - θ|))) (ENNReal.ofReal_le_ofReal hdev)
    intro w hw
    rintro ⟨samples, N', s, g1, g2, g3, g4, g5, g6, g7⟩
    apply hw
    refine ⟨samples, N', g1, ?_⟩
    rw [g5 _ c hps, g5 _ c hvps]
    exact not_le.1 g7

/-- All smoothed relative frequencies that any graph may ask for are close to the conditional probabilities. -/
def EntriesClose (N : Net) (prob : Nat → Nat → Config → Except Fault ℝ) (alpha : Int) (dims : List Nat) (p : Assignment → ℝ) (m : Nat)
    (draws : Nat → Nat → {u : ℝ // 0 < u ∧ u ≤ 1}) (ε : ℝ) : Prop :=
  ∀ v < dims.length, ∀ ps : List Nat, ps.Pairwise (· < ·) → (∀ u ∈ ps, u < dims.length) → ∀ o : Outcome (fun j => dims.getD j 0) dims.length,
    EntryClose N prob alpha (dims.getD v 0) m draws v ps o.asg (conditional (fun j => dims.getD j 0) dims.length p v ps o.asg) ε

theorem entries_close (hpos : ∀ d ∈ dims, 0 < d) (hne : dims ≠ []) (hops : ∀ op ∈ ops, OpInRange dims.length op)
    (hN : (Net.empty dims).run ops = .ok N) (cond : Nat → Assignment → ℝ)
    (hcond : ∀ (v : Nat) node, N.nodes[v]? = some node → ∀ a, InRange (fun j => dims.getD j 0) (v :: node.parents) a →
      prob v (a v) (configOf a node.parents) = .ok (cond v a) ∧ 0 ≤ cond v a ∧
        ∑ y ∈ Finset.range (dims.getD v 0), cond v (a.set v y) = 1)
    {alpha : Int} (ha : 0 < alpha) {ε : ℝ} (hε : 0 < ε) :
    Filter.Tendsto (fun m : Nat => uniformDraws m dims.length
      {w | ¬ EntriesClose N prob alpha dims (fun a => ∏ u ∈ Finset.range dims.length, cond u a) m (drawsOf w) ε})
      Filter.atTop (nhds 0) := by
  classical
  let lst : Finset Nat → List Nat := fun T => (List.range dims.length).filter (· ∈ T)
  let I : Finset ((Nat × Finset Nat) × Outcome (fun j => dims.getD j 0) dims.length) :=
    (Finset.range dims.length ×ˢ (Finset.range dims.length).powerset) ×ˢ Finset.univ
  have hlim : Filter.Tendsto (fun m => ∑ e ∈ I, uniformDraws m dims.length
      {w | ¬ EntryClose N prob alpha (dims.getD e.1.1 0) m (drawsOf w) e.1.1 (lst e.1.2) e.2.asg
        (conditional (fun j => dims.getD j 0) dims.length (fun a => ∏ u ∈ Finset.range dims.length, cond u a) e.1.1 (lst e.1.2) e.2.asg) ε})
      Filter.atTop (nhds (∑ e ∈ I, 0)) := by
    apply tendsto_finsetSum
    intro e he
    rw [Finset.mem_product, Finset.mem_product] at he
    refine entry_close hpos hne hops hN cond hcond ha hε (Finset.mem_range.1 he.1.1) (fun u hu => ?_) _
    rw [List.mem_filter, List.mem_range] at hu
    exact hu.1
  rw [Finset.sum_const_zero] at hlim
  refine tendsto_of_tendsto_of_tendsto_of_le_of_le tendsto_const_nhds hlim (fun _ => zero_le) (fun m => ?_)
  refine le_trans (measure_mono (t := ⋃ e ∈ I,
      {w | ¬ EntryClose N prob alpha (dims.getD e.1.1 0) m (drawsOf w) e.1.1 (lst e.1.2) e.2.asg
        (conditional (fun j => dims.getD j 0) dims.length (fun a => ∏ u ∈ Finset.range dims.length, cond u a) e.1.1 (lst e.1.2) e.2.asg) ε}) ?_)
    (measure_biUnion_finset_le _ _)
  intro w hw
  by_contra hno
  apply hw
  intro v hv ps hps hlt o
  by_contra hbad
  apply hno
  rw [Set.mem_iUnion₂]
  have hl : lst ps.toFinset = ps := (sorted_range hps hlt).symm
  refine ⟨((v, ps.toFinset), o), ?_, ?_⟩
  · rw [Finset.mem_product, Finset.mem_product, Finset.mem_powerset]
    exact ⟨⟨Finset.mem_range.2 hv, fun u hu => Finset.mem_range.2 (hlt u (List.mem_toFinset.1 hu))⟩, Finset.mem_univ _⟩
  · show ¬ EntryClose N prob alpha (dims.getD v 0) m (drawsOf w) v (lst ps.toFinset) o.asg _ ε
    rw [hl]
    exact hbad

end samples

/-- The answer for value `x` of node `q` given the evidence `E`, from a junction tree built on the tables learned for the graph of `M` from the
samples, is closer than `η` to `y`. -/
def AnswerOn (M : Net) (dims : List Nat) (samples : List (List Nat)) (alpha : Int) (rnd : Nat → Nat → Nat)
    (order : List (Nat × Nat) → List (Nat × Nat)) (cord : Nat → List Nat) (E : List (Nat × Nat)) (q x : Nat) (y η : ℝ) : Prop :=
  ∃ pts J T z, learnParams M (columnsOf dims.length samples) dims.length samples.length alpha rnd [] = .ok pts ∧
    buildJunctionTree M (fun j => dims.getD j 0) pts order cord = .ok J ∧ J.marginal E q = .ok (T, J) ∧ T.pot[x]? = some z ∧ |z - y| < η

section answers

variable {dims : List Nat} {M : Net}

/-- Tables that are learned from data whose smoothed frequencies are close to the conditional probabilities of `p` give a distribution close to
the projection of `p`. -/
theorem learned_joint (hlen : M.nodes.length = dims.length) (hshape : NetShape (fun j => dims.getD j 0) M)
    {samples : List (List Nat)} (hcols : Columns (fun j => dims.getD j 0) dims.length (columnsOf dims.length samples) (samples.map asg))
    {alpha : Int} (ha : 0 < alpha) {pts : List (Table ℝ)} (hpl : pts.length = M.nodes.length)
    (hpts : ∀ (i : Nat) s, M.nodes[i]? = some s → ∃ T, pts[i]? = some T ∧ IsFrequencyTable (fun i => dims.getD i 0) (samples.map asg) alpha i s.parents T)
    {p : Assignment → ℝ} (hp : ∀ o : Outcome (fun j => dims.getD j 0) dims.length, 0 ≤ p o.asg) {ε : ℝ}
    (hclose : ∀ v < dims.length, ∀ ps : List Nat, ps.Pairwise (· < ·) → (∀ u ∈ ps, u < dims.length) →
      ∀ o : Outcome (fun j => dims.getD j 0) dims.length,
      |((countSame (samples.map asg) (v :: ps) o.asg : ℝ) + (alpha : ℝ)) / ((countSame (samples.map asg) ps o.asg : ℝ) + (alpha : ℝ) * (dims.getD v 0 : ℝ)) -
        conditional (fun j => dims.getD j 0) dims.length p v ps o.asg| < ε) (o : Outcome (fun j => dims.getD j 0) dims.length) :
    |joint pts o.asg - projection (fun j => dims.getD j 0) dims.length p M.pa o.asg| ≤ dims.length * ε := by
  have hj : joint pts o.asg = ∏ v ∈ Finset.range dims.length, nodeFactor pts v o.asg := by
    rw [joint_eq_order (List.Perm.refl _), hpl, hlen, prod_map_range]
  have hnf : ∀ v < dims.length, ∃ node T, M.nodes[v]? = some node ∧ pts[v]? = some T ∧
      IsFrequencyTable (fun j => dims.getD j 0) (samples.map asg) alpha v node.parents T := by
    intro v hv
    have hn : M.nodes[v]? = some (M.nodes[v]'(by omega)) := List.getElem?_eq_getElem _
    obtain ⟨T, k1, k2⟩ := hpts v _ hn
    exact ⟨_, T, hn, k1, k2⟩
  have hin : ∀ v node, M.nodes[v]? = some node → InRange (fun j => dims.getD j 0) (v :: node.parents) o.asg := by
    intro v node hn u hu
    apply Outcome.asg_lt o u
    rw [List.mem_range, ← hlen]
    exact NetShape.lt hshape hn u hu
  rw [hj]
  unfold projection
  refine prod_range_sub (fun v hv => ?_) (fun v hv => ?_) (fun v hv => ?_)
  · obtain ⟨node, T, k1, k2, k3⟩ := hnf v hv
    rw [nodeFactor_eq k2]
    have := (frequencyTable_normalised ha (fun r hr' => hcols.lt r hr' v hv) k3).1 o.asg (hin v node k1)
    exact ⟨this.1.le, this.2.1⟩
  · obtain ⟨node, T, k1, k2, k3⟩ := hnf v hv
    exact conditional_bounds hp (hshape.dim v node k1).2 _ _
  · obtain ⟨node, T, k1, k2, k3⟩ := hnf v hv
    have hpa : M.pa v = node.parents := by simp [Net.pa, k1]
    have hs := hshape.parents v node k1
    rw [nodeFactor_eq k2, hpa, k3.2.2 o.asg (hin v node k1)]
    exact (hclose v hv _ hs.1 (fun u hu => by rw [← hlen]; exact hs.2.1 u hu) o).le

/-- Learning for the graph of `M` and asking: the answer is close to the conditional probability under the projection. -/
theorem answer_on (hne : dims ≠ []) (hlen : M.nodes.length = dims.length) (hshape : NetShape (fun j => dims.getD j 0) M) (hinv : NetInv M)
    (hwc : WeaklyConnected M) {order : List (Nat × Nat) → List (Nat × Nat)} {cord : Nat → List Nat}
    (horder : ∀ l, (order l).Perm l) (hcord : ∀ m, (cord m).Perm (List.range m))
    {samples : List (List Nat)} (hcols : Columns (fun j => dims.getD j 0) dims.length (columnsOf dims.length samples) (samples.map asg))
    {alpha : Int} (ha : 0 < alpha) (rnd : Nat → Nat → Nat)
    {p : Assignment → ℝ} (hp : ∀ o : Outcome (fun j => dims.getD j 0) dims.length, 0 ≤ p o.asg) {ε : ℝ}
    (hclose : ∀ v < dims.length, ∀ ps : List Nat, ps.Pairwise (· < ·) → (∀ u ∈ ps, u < dims.length) →
      ∀ o : Outcome (fun j => dims.getD j 0) dims.length,
      |((countSame (samples.map asg) (v :: ps) o.asg : ℝ) + (alpha : ℝ)) / ((countSame (samples.map asg) ps o.asg : ℝ) + (alpha : ℝ) * (dims.getD v 0 : ℝ)) -
        conditional (fun j => dims.getD j 0) dims.length p v ps o.asg| < ε)
    {E : List (Nat × Nat)} (hEn : (E.map Prod.fst).Nodup) (hEr : ∀ e ∈ E, e.1 < dims.length ∧ e.2 < dims.getD e.1 0)
    {q x : Nat} (hq : q < dims.length) (hqE : q ∉ E.map Prod.fst) (hx : x < dims.getD q 0) {y η : ℝ}
    (hstable : ∀ f : Assignment → ℝ, (∀ o : Outcome (fun j => dims.getD j 0) dims.length,
      |f o.asg - projection (fun j => dims.getD j 0) dims.length p M.pa o.asg| ≤ dims.length * ε) →
      |posterior (fun j => dims.getD j 0) dims.length f E q x - y| < η) :
    AnswerOn M dims samples alpha rnd order cord E q x y η := by
  obtain ⟨pts, l1, l2, l3, l4, l5⟩ := learned_tables_of_shape (K := ℝ) hlen hshape hcols ha rnd
  rw [List.length_map] at l1
  obtain ⟨J, T, t1, t2, -, -, t3⟩ := posterior_of_inv hinv hlen hne hwc horder hcord l3 l4 hEn (fun e he => (hEr e he).1) (l5 E hEn hEr) hq hqE
  exact ⟨pts, J, T, _, l1, t1, t2, t3 x hx, hstable _ (learned_joint hlen hshape hcols ha l3.length l2 hp hclose)⟩

variable {ops : List EdgeOp} {N : Net} {prob : Nat → Nat → Config → Except Fault ℝ}

/-- What `EntriesClose` says about the samples that were drawn. -/
theorem entries_of_close {alpha : Int} {p : Assignment → ℝ} {m : Nat}
    {draws : Nat → Nat → {u : ℝ // 0 < u ∧ u ≤ 1}} {ε : ℝ} (h : EntriesClose N prob alpha dims p m draws ε) {samples : List (List Nat)} {N' : Net}
    (hg : generateSamples inversion N prob m draws = .ok (samples, N')) :
    ∀ v < dims.length, ∀ ps : List Nat, ps.Pairwise (· < ·) → (∀ u ∈ ps, u < dims.length) →
      ∀ o : Outcome (fun j => dims.getD j 0) dims.length,
      |((countSame (samples.map asg) (v :: ps) o.asg : ℝ) + (alpha : ℝ)) / ((countSame (samples.map asg) ps o.asg : ℝ) + (alpha : ℝ) * (dims.getD v 0 : ℝ)) -
        conditional (fun j => dims.getD j 0) dims.length p v ps o.asg| < ε := by
  intro v hv ps h1 h2 o
  obtain ⟨s', N'', g, h3⟩ := h v hv ps h1 h2 o
  rw [hg] at g
  cases g
  exact h3

/-- C108.  Samples are drawn from the network `N`, the parameters are learned from them for the graph of another network `M`, and a junction
tree built from the learned tables is queried.  With more and more samples, the probability that its answer differs by `η` or more from the
conditional probability under the distribution with the graph of `M` and the conditional distributions of `N` tends to 0. -/
theorem C108_answers (hpos : ∀ d ∈ dims, 0 < d) (hne : dims ≠ []) (hops : ∀ op ∈ ops, OpInRange dims.length op)
    (hN : (Net.empty dims).run ops = .ok N) {ops' : List EdgeOp} (hops' : ∀ op ∈ ops', OpInRange dims.length op)
    (hM : (Net.empty dims).run ops' = .ok M) (hwc : WeaklyConnected M) {order : List (Nat × Nat) → List (Nat × Nat)} {cord : Nat → List Nat}
    (horder : ∀ l, (order l).Perm l) (hcord : ∀ m, (cord m).Perm (List.range m)) (cond : Nat → Assignment → ℝ)
    (hcond : ∀ (v : Nat) node, N.nodes[v]? = some node → ∀ a, InRange (fun j => dims.getD j 0) (v :: node.parents) a →
      prob v (a v) (configOf a node.parents) = .ok (cond v a) ∧ 0 ≤ cond v a ∧
        ∑ y ∈ Finset.range (dims.getD v 0), cond v (a.set v y) = 1)
    {alpha : Int} (ha : 0 < alpha) (rnd : Nat → Nat → Nat)
    {E : List (Nat × Nat)} (hEn : (E.map Prod.fst).Nodup) (hEr : ∀ e ∈ E, e.1 < dims.length ∧ e.2 < dims.getD e.1 0)
    (hE : 0 < weight (fun j => dims.getD j 0) dims.length
      (projection (fun j => dims.getD j 0) dims.length (fun a => ∏ u ∈ Finset.range dims.length, cond u a) M.pa) (Agrees E))
    {q x : Nat} (hq : q < dims.length) (hqE : q ∉ E.map Prod.fst) (hx : x < dims.getD q 0) {η : ℝ} (hη : 0 < η) :
    Filter.Tendsto (fun m : Nat => uniformDraws m dims.length
      {w | ¬ ∃ samples N', generateSamples inversion N prob m (drawsOf w) = .ok (samples, N') ∧
        AnswerOn M dims samples alpha rnd order cord E q x (posterior (fun j => dims.getD j 0) dims.length
          (projection (fun j => dims.getD j 0) dims.length (fun a => ∏ u ∈ Finset.range dims.length, cond u a) M.pa) E q x) η})
      Filter.atTop (nhds 0) := by
  obtain ⟨M0, h1, h2, h3, h4⟩ := run_shape hops' hpos
  rw [hM] at h1
  cases h1
  have hp : ∀ o : Outcome (fun j => dims.getD j 0) dims.length, 0 ≤ (fun a => ∏ u ∈ Finset.range dims.length, cond u a) o.asg :=
    (law_ok hpos hops hN cond hcond).1
  have hcard : ∀ v < dims.length, 0 < dims.getD v 0 := fun v hv => (h3.dim v _ (List.getElem?_eq_getElem (by omega))).2
  have hn0 : (0 : ℝ) < dims.length := by
    have : 0 < dims.length := List.length_pos_iff.2 hne
    exact_mod_cast this
  obtain ⟨δ, hδ, hst⟩ := posterior_close (fun o => projection_nonneg hp hcard M.pa o.asg) hE hη
  refine tendsto_of_tendsto_of_tendsto_of_le_of_le tendsto_const_nhds
    (entries_close hpos hne hops hN cond hcond ha (ε := δ / dims.length) (by positivity)) (fun _ => zero_le) (fun m => measure_mono ?_)
  intro w hw hgood
  apply hw
  obtain ⟨samples, N', g1, g2, g3⟩ := sample_columns hpos hne hops hN cond hcond m (drawsOf w)
  refine ⟨samples, N', g1, answer_on hne h2 h3 h4 hwc horder hcord g3 ha rnd hp (entries_of_close hgood g1) hEn hEr hq hqE hx ?_⟩
  intro f hf
  refine hst f (fun o => (hf o).trans (le_of_eq ?_)) q x
  field_simp

end answers

/-! ### C109 -/

section equivalent

variable {card : Nat → Nat} {N M : Net} {pts : List (Table ℝ)}

theorem agrees_observed_iff {a b : Assignment} {vs : List Nat} : Agrees (observed a vs) b ↔ ∀ v ∈ vs, b v = a v := by
  constructor
  · intro h v hv
    exact h (v, a v) (List.mem_map.2 ⟨v, hv, rfl⟩)
  · intro h e he
    obtain ⟨v, hv, rfl⟩ := List.mem_map.1 he
    exact h v hv

theorem marginal_congr {n : Nat} {p : Assignment → ℝ} {vs ws : List Nat} (h : ∀ v, v ∈ vs ↔ v ∈ ws) (a : Assignment) :
    marginal card n p vs a = marginal card n p ws a := by
  unfold marginal
  apply weight_iff
  intro b
  rw [agrees_observed_iff, agrees_observed_iff]
  simp only [h]

/-- A distribution that factorises along a graph factorises along every equivalent graph. -/
theorem equivalent_projection (hinv : NetInv N) (hpts : NodeTables card N pts) (hcond : ConditionalTables card pts)
    (hp : ∀ o : Outcome card N.nodes.length, 0 ≤ joint pts o.asg) (hM : NetInv M) (hlen : M.nodes.length = N.nodes.length)
    (he : Equivalent (ParentOf N) (ParentOf M)) {a : Assignment} (ha : InRange card (List.range N.nodes.length) a) :
    projection card N.nodes.length (joint pts) M.pa a = joint pts a := by
  obtain ⟨l, _, hl⟩ := genTopoOrd_eq hinv.wf hinv.acyclic
  obtain ⟨k, _, hk⟩ := genTopoOrd_eq hM.wf hM.acyclic
  have hJ := jointOrder hinv hpts hcond hl
  have hcard := (nodeTables_facts hpts).1
  have ht := topoFacts hM hk
  have hacyc : ¬ Cyclic (ParentOf N) := by
    have : ParentOf N = ChildOf N := by
      funext a b
      exact propext (parentOf_iff_childOf hinv.wf)
    rw [this]
    exact hinv.acyclic
  have hacyc' : ¬ Cyclic (ParentOf M) := by
    have : ParentOf M = ChildOf M := by
      funext a b
      exact propext (parentOf_iff_childOf hM.wf)
    rw [this]
    exact hM.acyclic
  have hrange : ∀ x y, ParentOf N x y → x < N.nodes.length ∧ y < N.nodes.length := fun x y h => parentOf_lt hinv.wf h
  have hidx : ∀ x y, Relation.TransGen (ParentOf M) x y → k.idxOf x < k.idxOf y := by
    intro x y h
    induction h with
    | single h => exact ht.before _ _ (parentOf_iff.1 h)
    | tail _ h ih => exact lt_trans ih (ht.before _ _ (parentOf_iff.1 h))
  have key : ∀ q r, k = q ++ r → (q.map (fun v => conditional card N.nodes.length (joint pts) v (M.pa v) a)).prod =
      marginal card N.nodes.length (joint pts) q a := by
    intro q
    induction q using List.reverseRecOn with
    | nil =>
      intro r _
      rw [List.map_nil, List.prod_nil, ← hJ.total hpts.length hcard]
      apply weight_iff
      intro b
      simp [observed, Agrees]
    | append_singleton q v ih =>
      intro r e
      rw [List.append_assoc, List.singleton_append] at e
      rw [List.map_append, List.prod_append, ih (v :: r) e, List.map_singleton, List.prod_singleton]
      have hmono := marginal_mono hp (vs := q ++ [v]) (ws := q) (fun u hu => List.mem_append_left _ hu) a
      have hnn := marginal_nonneg hp (q ++ [v]) a
      by_cases hq0 : marginal card N.nodes.length (joint pts) q a = 0
      · rw [hq0, zero_mul]
        rw [hq0] at hmono
        exact le_antisymm hnn hmono
      have hpa : ∀ u ∈ M.pa v, u ∈ q := fun u hu => topo_prefix ht e hu
      have hmem : ∀ u ∈ k, u < N.nodes.length := fun u hu => by rw [← hlen]; exact (ht.mem u).1 hu
      have hv : v < N.nodes.length := hmem v (by rw [e]; simp)
      have hvq : v ∉ q := fun h => by
        have := ht.nodup
        rw [e] at this
        exact (List.nodup_append.1 this).2.2 v h v (by simp) rfl
      have hpa0 : marginal card N.nodes.length (joint pts) (M.pa v) a ≠ 0 := by
        intro h0
        apply hq0
        have := marginal_mono hp hpa a
        rw [h0] at this
        exact le_antisymm this (marginal_nonneg hp _ _)
      let rest := q.filter (fun u => u ∉ M.pa v)
      have hboth : ∀ u, u ∈ M.pa v ++ rest ↔ u ∈ q := by
        intro u
        simp only [rest, List.mem_append, List.mem_filter, decide_eq_true_eq]
        constructor
        · rintro (h | h)
          · exact hpa u h
          · exact h.1
        · intro h
          by_cases hu : u ∈ M.pa v
          · exact Or.inl hu
          · exact Or.inr ⟨h, hu⟩
      have hfst : ∀ vs : List Nat, (observed a vs).map Prod.fst = vs := fun vs => by simp [observed, Function.comp_def]
      have happ : observed a (M.pa v ++ rest) = observed a (M.pa v) ++ observed a rest := by simp [observed]
      have hsepM : ∀ w ∈ rest, DSeparated (ParentOf M) (M.pa v) v w := by
        intro w hw
        obtain ⟨hwq, hwp⟩ := List.mem_filter.1 hw
        have hwp : w ∉ M.pa v := by simpa using hwp
        have hlt : k.idxOf w < k.idxOf v := by
          rw [e, List.idxOf_append_of_mem hwq, List.idxOf_append_of_notMem hvq, List.idxOf_cons_self]
          have := List.idxOf_lt_length_iff.2 hwq
          omega
        refine parents_separate hacyc' (fun h => hvq (h ▸ hwq)) ?_ ?_ (fun z => parentOf_iff.symm)
        · rintro (h | h)
          · have := hidx v w (.single h)
            omega
          · exact hwp (parentOf_iff.1 h)
        · intro h
          have := hidx v w h
          omega
      have hpost := posterior_separated (card := card) hinv hpts hcond hl (E := observed a (M.pa v)) (F := observed a rest) (q := v)
        (by rw [hfst]; exact (hM.wf.pa_sorted v).imp (fun h => Nat.ne_of_lt h))
        (by
          intro e' he'
          obtain ⟨u, hu, rfl⟩ := List.mem_map.1 he'
          exact hmem u (by rw [e]; exact List.mem_append_left _ (hpa u hu)))
        (by
          intro e' he'
          obtain ⟨u, hu, rfl⟩ := List.mem_map.1 he'
          exact hmem u (by rw [e]; exact List.mem_append_left _ (List.mem_filter.1 hu).1))
        hv (by rw [hfst]; exact fun h => hvq (hpa v h)) (by rw [hfst]; exact fun h => hvq (List.mem_filter.1 h).1)
        (by
          rw [hfst, hfst]
          intro w hw
          refine (equivalent_dSeparated _ rfl hacyc hrange he ?_).2 (hsepM w hw)
          rintro rfl
          exact hvq (List.mem_filter.1 hw).1)
        (by rw [← happ]; exact fun h0 => hq0 ((marginal_congr hboth a).symm.trans h0)) hpa0 (a v)
      have ep : ∀ vs, posterior card N.nodes.length (joint pts) (observed a vs) v (a v) =
          marginal card N.nodes.length (joint pts) (v :: vs) a / marginal card N.nodes.length (joint pts) vs a := by
        intro vs
        unfold posterior marginal
        congr 1
        apply weight_iff
        intro b
        rw [agrees_observed_iff, agrees_observed_iff]
        simp [and_comm]
      rw [← happ, ep, ep] at hpost
      unfold conditional
      rw [if_neg hpa0, ← hpost, marginal_congr hboth a, mul_div_cancel₀ _ hq0]
      apply marginal_congr
      intro u
      simp only [List.mem_cons, List.mem_append, List.not_mem_nil, or_false]
      rw [← hboth u, List.mem_append, or_comm]
  have hfin := key k [] (by simp)
  have hperm : k.Perm (List.range N.nodes.length) := by
    rw [← hlen]
    exact order_length hk
  have hprod : (k.map (fun v => conditional card N.nodes.length (joint pts) v (M.pa v) a)).prod =
      projection card N.nodes.length (joint pts) M.pa a := by
    unfold projection
    rw [(hperm.map _).prod_eq, prod_map_range]
  rw [hprod] at hfin
  rw [hfin]
  have := hJ.prefix hpts.length hcard ha l.reverse [] (by simp)
  rw [joint_eq_order hJ.perm, ← (List.reverse_perm l |>.map (fun v => nodeFactor pts v a)).prod_eq, ← this]
  apply weight_iff
  intro b
  rw [agrees_observed_iff, agrees_observed_iff]
  simp only [List.mem_reverse, ht.mem, hl.2.1, hlen]

theorem weight_congr_range {n : Nat} {f g : Assignment → ℝ} (h : ∀ a, InRange card (List.range n) a → f a = g a) (ev : Assignment → Prop)
    [DecidablePred ev] : weight card n f ev = weight card n g ev := by
  unfold weight
  apply sumOut_congr
  intro b hb _
  rw [h b (fun u hu => hb u hu)]

theorem projection_congr {n : Nat} {f g : Assignment → ℝ} (h : ∀ a, InRange card (List.range n) a → f a = g a) (parents : Nat → List Nat) :
    projection card n f parents = projection card n g parents := by
  funext a
  unfold projection conditional marginal
  simp only [weight_congr_range h]

theorem posterior_congr_range {n : Nat} {f g : Assignment → ℝ} (h : ∀ a, InRange card (List.range n) a → f a = g a) (E : List (Nat × Nat)) (q x : Nat) :
    posterior card n f E q x = posterior card n g E q x := by
  unfold posterior
  rw [weight_congr_range h, weight_congr_range h]

variable {dims : List Nat} {ops : List EdgeOp} {prob : Nat → Nat → Config → Except Fault ℝ}

theorem equivalent_law (hpos : ∀ d ∈ dims, 0 < d) (hops : ∀ op ∈ ops, OpInRange dims.length op)
    (hN : (Net.empty dims).run ops = .ok N) (cond : Nat → Assignment → ℝ)
    (hcond : ∀ (v : Nat) node, N.nodes[v]? = some node → ∀ a, InRange (fun j => dims.getD j 0) (v :: node.parents) a →
      prob v (a v) (configOf a node.parents) = .ok (cond v a) ∧ 0 ≤ cond v a ∧
        ∑ y ∈ Finset.range (dims.getD v 0), cond v (a.set v y) = 1)
    (hM : NetInv M) (hlen : M.nodes.length = dims.length) (he : Equivalent (ParentOf N) (ParentOf M))
    {a : Assignment} (ha : InRange (fun j => dims.getD j 0) (List.range dims.length) a) :
    projection (fun j => dims.getD j 0) dims.length (fun a => ∏ u ∈ Finset.range dims.length, cond u a) M.pa a =
      ∏ u ∈ Finset.range dims.length, cond u a := by
  obtain ⟨hinv, hl⟩ := netInv_of_run hops hN
  obtain ⟨pts, hpts, hct, _, hj⟩ := cond_tables hpos hops hN cond hcond
  have hlaw := (law_ok hpos hops hN cond hcond).1
  have h := equivalent_projection hinv hpts hct (M := M) (by
    rw [hl]
    intro o
    rw [hj _ (Outcome.asg_lt o)]
    exact hlaw o) hM (by rw [hlen, hl]) he (a := a) (by rw [hl]; exact ha)
  rw [hl, projection_congr hj, hj a ha] at h
  exact h

/-- C109.  Two graphs with the same adjacencies and v-structures stand for the same distributions: the joint distribution of a network is the
product of the conditional distributions of the nodes given their parents in any equivalent graph. -/
theorem C109_factorises (hpos : ∀ d ∈ dims, 0 < d) (hops : ∀ op ∈ ops, OpInRange dims.length op)
    (hN : (Net.empty dims).run ops = .ok N) (cond : Nat → Assignment → ℝ)
    (hcond : ∀ (v : Nat) node, N.nodes[v]? = some node → ∀ a, InRange (fun j => dims.getD j 0) (v :: node.parents) a →
      prob v (a v) (configOf a node.parents) = .ok (cond v a) ∧ 0 ≤ cond v a ∧
        ∑ y ∈ Finset.range (dims.getD v 0), cond v (a.set v y) = 1)
    {ops' : List EdgeOp} (hops' : ∀ op ∈ ops', OpInRange dims.length op) (hM : (Net.empty dims).run ops' = .ok M)
    (he : Equivalent (ParentOf N) (ParentOf M)) {a : Assignment} (ha : InRange (fun j => dims.getD j 0) (List.range dims.length) a) :
    projection (fun j => dims.getD j 0) dims.length (fun a => ∏ u ∈ Finset.range dims.length, cond u a) M.pa a =
      ∏ u ∈ Finset.range dims.length, cond u a :=
  equivalent_law hpos hops hN cond hcond (netInv_of_run hops' hM).1 (netInv_of_run hops' hM).2 he ha

/-- C109.  It does not matter for the answers which of the equivalent graphs the parameters are learned for: in the end they are those of the
network the samples were drawn from. -/
theorem C109_answers (hpos : ∀ d ∈ dims, 0 < d) (hne : dims ≠ []) (hops : ∀ op ∈ ops, OpInRange dims.length op)
    (hN : (Net.empty dims).run ops = .ok N) {ops' : List EdgeOp} (hops' : ∀ op ∈ ops', OpInRange dims.length op)
    (hM : (Net.empty dims).run ops' = .ok M) (he : Equivalent (ParentOf N) (ParentOf M)) (hwc : WeaklyConnected M)
    {order : List (Nat × Nat) → List (Nat × Nat)} {cord : Nat → List Nat}
    (horder : ∀ l, (order l).Perm l) (hcord : ∀ m, (cord m).Perm (List.range m)) (cond : Nat → Assignment → ℝ)
    (hcond : ∀ (v : Nat) node, N.nodes[v]? = some node → ∀ a, InRange (fun j => dims.getD j 0) (v :: node.parents) a →
      prob v (a v) (configOf a node.parents) = .ok (cond v a) ∧ 0 ≤ cond v a ∧
        ∑ y ∈ Finset.range (dims.getD v 0), cond v (a.set v y) = 1)
    {alpha : Int} (ha : 0 < alpha) (rnd : Nat → Nat → Nat)
    {E : List (Nat × Nat)} (hEn : (E.map Prod.fst).Nodup) (hEr : ∀ e ∈ E, e.1 < dims.length ∧ e.2 < dims.getD e.1 0)
    (hE : 0 < weight (fun j => dims.getD j 0) dims.length (fun a => ∏ u ∈ Finset.range dims.length, cond u a) (Agrees E))
    {q x : Nat} (hq : q < dims.length) (hqE : q ∉ E.map Prod.fst) (hx : x < dims.getD q 0) {η : ℝ} (hη : 0 < η) :
    Filter.Tendsto (fun m : Nat => uniformDraws m dims.length
      {w | ¬ ∃ samples N', generateSamples inversion N prob m (drawsOf w) = .ok (samples, N') ∧
        AnswerOn M dims samples alpha rnd order cord E q x
          (posterior (fun j => dims.getD j 0) dims.length (fun a => ∏ u ∈ Finset.range dims.length, cond u a) E q x) η})
      Filter.atTop (nhds 0) := by
  have hf := fun a ha => C109_factorises hpos hops hN cond hcond hops' hM he (a := a) ha
  have := C108_answers hpos hne hops hN hops' hM hwc horder hcord cond hcond ha rnd hEn hEr (by rw [weight_congr_range hf]; exact hE) hq hqE hx hη
  rw [posterior_congr_range hf] at this
  exact this

end equivalent

/-! ### Examples: node 0 is a fair coin, node 1 copies node 0 and node 2 copies node 1, each with probability 3/4. -/

/-- Conditional distributions of the example. -/
noncomputable def copyProb (v x : Nat) (u : Config) : Except Fault ℝ :=
  if v = 0 then .ok (1 / 2) else .ok (if u = [(v - 1, x)] then 3 / 4 else 1 / 4)

/-- The same as functions of an assignment. -/
noncomputable def copyCond : Nat → Assignment → ℝ := fun v a => if v = 0 then 1 / 2 else if a (v - 1) = a v then 3 / 4 else 1 / 4

theorem copy_ok : ∃ N, (Net.empty [2, 2, 2]).run [.addDirected 0 1, .addDirected 1 2] = .ok N ∧
    (∀ x y, ParentOf N x y ↔ x = 0 ∧ y = 1 ∨ x = 1 ∧ y = 2) ∧
    ∀ (v : Nat) node, N.nodes[v]? = some node → ∀ a, InRange (fun j => [2, 2, 2].getD j 0) (v :: node.parents) a →
      copyProb v (a v) (configOf a node.parents) = .ok (copyCond v a) ∧ 0 ≤ copyCond v a ∧
        ∑ y ∈ Finset.range ([2, 2, 2].getD v 0), copyCond v (a.set v y) = 1 := by
  refine ⟨_, rfl, ?_, ?_⟩
  · intro x y
    constructor
    · rintro ⟨node, h1, h2⟩
      match y, h1 with
      | 0, h1 => cases h1; cases h2
      | 1, h1 =>
        cases h1
        have : x ∈ [0] := h2
        simpa using this
      | 2, h1 =>
        cases h1
        have : x ∈ [1] := h2
        simpa using this
    · rintro (⟨rfl, rfl⟩ | ⟨rfl, rfl⟩)
      · refine ⟨_, rfl, ?_⟩
        show 0 ∈ [0]
        simp
      · refine ⟨_, rfl, ?_⟩
        show 1 ∈ [1]
        simp
  · intro v node hnode a ha
    match v with
    | 0 =>
      refine ⟨rfl, by norm_num [copyCond], ?_⟩
      simp [copyCond]
    | 1 =>
      cases hnode
      refine ⟨?_, ?_, ?_⟩
      · show copyProb 1 (a 1) [(0, a 0)] = _
        unfold copyProb copyCond
        by_cases h : a 0 = a 1 <;> simp [h]
      · unfold copyCond
        simp only [one_ne_zero, if_false]
        split <;> norm_num
      · have := ha 0 (by decide)
        have h01 : a 0 = 0 ∨ a 0 = 1 := by
          simp at this
          omega
        rcases h01 with h | h <;> (simp [copyCond, Finset.sum_range_succ, Assignment.set, h]; norm_num)
    | 2 =>
      cases hnode
      refine ⟨?_, ?_, ?_⟩
      · show copyProb 2 (a 2) [(1, a 1)] = _
        unfold copyProb copyCond
        by_cases h : a 1 = a 2 <;> simp [h]
      · unfold copyCond
        simp only [OfNat.ofNat_ne_zero, if_false]
        split <;> norm_num
      · have := ha 1 (by decide)
        have h01 : a 1 = 0 ∨ a 1 = 1 := by
          simp at this
          omega
        rcases h01 with h | h <;> (simp [copyCond, Finset.sum_range_succ, Assignment.set, h]; norm_num)
    | n + 3 => cases hnode

/-- Three nodes in a row are connected. -/
theorem row_connected {N : Net} (hlen : N.nodes.length = 3) (h01 : Linked N 0 1) (h12 : Linked N 1 2) : WeaklyConnected N := by
  have base : ∀ i, i < 3 → Relation.ReflTransGen (Linked N) 0 i := by
    intro i hi
    match i, hi with
    | 0, _ => exact .refl
    | 1, _ => exact .single h01
    | 2, _ => exact (Relation.ReflTransGen.single h01).tail h12
  intro i j hi hj
  rw [hlen] at hi hj
  exact (conn_symm (fun _ _ h => h.symm) (base i hi)).trans (base j hj)

/-- P(node 2 = 0 | node 0 = 0) is 5/8. -/
theorem copy_posterior :
    posterior (fun j => [2, 2, 2].getD j 0) 3 (fun a => ∏ u ∈ Finset.range 3, copyCond u a) [(0, 0)] 2 0 = 5 / 8 := by
  simp [posterior, weight, sumOut, List.range_succ, Agrees, copyCond, Finset.sum_range_succ, Finset.prod_range_succ, Assignment.set]
  norm_num

/-- The distribution with the graph 0 → 1 ← 2. -/
noncomputable def colliderLaw (a : Assignment) : ℝ := if a 0 = a 2 then if a 0 = a 1 then 9 / 40 else 1 / 40 else 1 / 8

theorem copy_projection {pa : Nat → List Nat} (p0 : pa 0 = []) (p1 : pa 1 = [0, 2]) (p2 : pa 2 = []) {a : Assignment}
    (ha : InRange (fun j => [2, 2, 2].getD j 0) (List.range 3) a) :
    projection (fun j => [2, 2, 2].getD j 0) 3 (fun a => ∏ u ∈ Finset.range 3, copyCond u a) pa a = colliderLaw a := by
  have h0 : a 0 = 0 ∨ a 0 = 1 := by have := ha 0 (by decide); simp at this; omega
  have h1 : a 1 = 0 ∨ a 1 = 1 := by have := ha 1 (by decide); simp at this; omega
  have h2 : a 2 = 0 ∨ a 2 = 1 := by have := ha 2 (by decide); simp at this; omega
  simp only [projection, Finset.prod_range_succ, Finset.prod_range_zero, p0, p1, p2, conditional, colliderLaw]
  rcases h0 with h0 | h0 <;> rcases h1 with h1 | h1 <;> rcases h2 with h2 | h2 <;>
  · simp [marginal, weight, sumOut, List.range_succ, Agrees, observed, copyCond, Finset.sum_range_succ, Assignment.set, h0, h1, h2]
    norm_num

theorem colliderLaw_weight : 0 < weight (fun j => [2, 2, 2].getD j 0) 3 colliderLaw (Agrees [(0, 0)]) := by
  simp [weight, sumOut, List.range_succ, Agrees, colliderLaw, Finset.sum_range_succ, Assignment.set]
  norm_num

theorem colliderLaw_posterior : posterior (fun j => [2, 2, 2].getD j 0) 3 colliderLaw [(0, 0)] 2 0 = 1 / 2 := by
  simp [posterior, weight, sumOut, List.range_succ, Agrees, colliderLaw, Finset.sum_range_succ, Assignment.set]
  norm_num

/-- The wrong graph 0 → 1 ← 2: learned for it, P(node 2 = 0 | node 0 = 0) tends to 1/2.  It is 5/8. -/
example : ∃ N M, (Net.empty [2, 2, 2]).run [.addDirected 0 1, .addDirected 1 2] = .ok N ∧
    (Net.empty [2, 2, 2]).run [.addDirected 0 1, .addDirected 2 1] = .ok M ∧
    posterior (fun j => [2, 2, 2].getD j 0) 3 (fun a => ∏ u ∈ Finset.range 3, copyCond u a) [(0, 0)] 2 0 = 5 / 8 ∧ ∀ η : ℝ, 0 < η →
    Filter.Tendsto (fun m : Nat => uniformDraws m 3
      {w | ¬ ∃ samples N', generateSamples inversion N copyProb m (drawsOf w) = .ok (samples, N') ∧
        AnswerOn M [2, 2, 2] samples 1 (fun _ _ => 0) id List.range [(0, 0)] 2 0 (1 / 2) η})
      Filter.atTop (nhds 0) := by
  obtain ⟨N, h1, -, h3⟩ := copy_ok
  obtain ⟨M, hM, p0, p1, p2, hw⟩ : ∃ M, (Net.empty [2, 2, 2]).run [.addDirected 0 1, .addDirected 2 1] = .ok M ∧ M.pa 0 = [] ∧ M.pa 1 = [0, 2] ∧
      M.pa 2 = [] ∧ WeaklyConnected M :=
    ⟨_, rfl, rfl, rfl, rfl, row_connected rfl (Or.inl ⟨_, rfl, by decide⟩) (Or.inr ⟨_, rfl, by decide⟩)⟩
  refine ⟨N, M, h1, hM, copy_posterior, fun η hη => ?_⟩
  have hproj := fun a ha => copy_projection (pa := M.pa) p0 p1 p2 (a := a) ha
  have := C108_answers (dims := [2, 2, 2]) (by simp) (by simp) (by simp [OpInRange]) h1 (by simp [OpInRange]) hM hw (order := id)
    (cord := List.range) (fun _ => List.Perm.refl _) (fun _ => List.Perm.refl _) copyCond h3 (alpha := 1) one_pos (fun _ _ => 0)
    (E := [(0, 0)]) (by simp) (by simp) (by
      rw [show [2, 2, 2].length = 3 from rfl, weight_congr_range hproj]
      exact colliderLaw_weight) (q := 2) (x := 0) (by simp) (by simp) (by simp) hη
  rw [show [2, 2, 2].length = 3 from rfl, posterior_congr_range hproj, colliderLaw_posterior] at this
  exact this

/-- The equivalent graph 2 → 1 → 0: learned for it, P(node 2 = 0 | node 0 = 0) does tend to 5/8. -/
example : ∃ N M, (Net.empty [2, 2, 2]).run [.addDirected 0 1, .addDirected 1 2] = .ok N ∧
    (Net.empty [2, 2, 2]).run [.addDirected 2 1, .addDirected 1 0] = .ok M ∧ Equivalent (ParentOf N) (ParentOf M) ∧ ∀ η : ℝ, 0 < η →
    Filter.Tendsto (fun m : Nat => uniformDraws m 3
      {w | ¬ ∃ samples N', generateSamples inversion N copyProb m (drawsOf w) = .ok (samples, N') ∧
        AnswerOn M [2, 2, 2] samples 1 (fun _ _ => 0) id List.range [(0, 0)] 2 0 (5 / 8) η})
      Filter.atTop (nhds 0) := by
  obtain ⟨N, h1, h2, h3⟩ := copy_ok
  obtain ⟨M, hM, hE, hw⟩ : ∃ M, (Net.empty [2, 2, 2]).run [.addDirected 2 1, .addDirected 1 0] = .ok M ∧
      (∀ x y, ParentOf M x y ↔ x = 1 ∧ y = 0 ∨ x = 2 ∧ y = 1) ∧ WeaklyConnected M := by
    refine ⟨_, rfl, ?_, row_connected rfl (Or.inr ⟨_, rfl, by decide⟩) (Or.inr ⟨_, rfl, by decide⟩)⟩
    intro x y
    constructor
    · rintro ⟨node, h1, h2⟩
      match y, h1 with
      | 0, h1 =>
        cases h1
        have : x ∈ [1] := h2
        simpa using this
      | 1, h1 =>
        cases h1
        have : x ∈ [2] := h2
        simpa using this
      | 2, h1 => cases h1; cases h2
    · rintro (⟨rfl, rfl⟩ | ⟨rfl, rfl⟩)
      · refine ⟨_, rfl, ?_⟩
        show 1 ∈ [1]
        simp
      · refine ⟨_, rfl, ?_⟩
        show 2 ∈ [2]
        simp
  have he : Equivalent (ParentOf N) (ParentOf M) := by
    refine ⟨acyclic_of_run (by simp [OpInRange]) hM, ?_, ?_⟩
    · intro x y
      simp only [Spec.Joined, h2, hE]
      omega
    · intro x y z
      simp only [VStructure, Spec.Joined, h2, hE]
      omega
  refine ⟨N, M, h1, hM, he, fun η hη => ?_⟩
  have := C109_answers (dims := [2, 2, 2]) (by simp) (by simp) (by simp [OpInRange]) h1 (by simp [OpInRange]) hM he hw (order := id)
    (cord := List.range) (fun _ => List.Perm.refl _) (fun _ => List.Perm.refl _) copyCond h3 (alpha := 1) one_pos (fun _ _ => 0)
    (E := [(0, 0)]) (by simp) (by simp) (by
      simp [weight, sumOut, List.range_succ, Agrees, copyCond, Finset.sum_range_succ, Finset.prod_range_succ, Assignment.set]
      norm_num) (q := 2) (x := 0) (by simp) (by simp) (by simp) hη
  have e : posterior (fun j => [2, 2, 2].getD j 0) [2, 2, 2].length (fun a => ∏ u ∈ Finset.range [2, 2, 2].length, copyCond u a) [(0, 0)] 2 0 =
      5 / 8 := by
    simp [posterior, weight, sumOut, List.range_succ, Agrees, copyCond, Finset.sum_range_succ, Finset.prod_range_succ, Assignment.set]
    norm_num
  rw [e] at this
  exact this

end FastPGM
