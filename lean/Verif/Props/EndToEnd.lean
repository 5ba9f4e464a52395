import Verif.Props.Projection
import Verif.Props.ChiSquare
import Verif.Lemmas.OrientDims

/-!
C110: the graph and the parameters are learned from the same samples, and the learned network is queried.
-/

namespace FastPGM

open Spec MeasureTheory

/-- From `m` samples of `N` the learner constructs a directed graph such that `good` holds for the samples and the graph, for every order of the
pairs, schedule and batching and every sequence of random bits. -/
def LearnsGraph (N : Net) (prob : Nat → Nat → Config → Except Fault ℝ) (pchisq : ℝ → Nat → Option ℝ) (level : ℝ) (dims : List Nat) (depth : Nat)
    (F m : Nat) (draws : Nat → Nat → {u : ℝ // 0 < u ∧ u ≤ 1}) (good : List (List Nat) → Net → Prop) : Prop :=
  ∃ samples N', generateSamples inversion N prob m draws = .ok (samples, N') ∧
    ∀ (cap : Nat) (order : List Nat) (sched : Nat → Schedule) (fuel fuel' room : Nat) (bits : Nat → Bool), 0 < cap →
      order.Perm (List.range (dims.length * (dims.length - 1) / 2)) → (∀ d r l, (sched d r l).Perm l) → F ≤ fuel →
      dims.length * (dims.length - 1) / 2 ≤ room → dims.length * (dims.length - 1) / 2 < fuel' →
      ∃ k L, learnSkeleton (ciTest Real.log pchisq level dims (columnsOf dims.length samples) m) dims.length depth 1 cap order sched fuel = .ok k ∧
        orientPhase room bits true fuel' dims k = .ok L ∧ good samples L

theorem LearnsGraph.mono {N : Net} {prob : Nat → Nat → Config → Except Fault ℝ} {pchisq : ℝ → Nat → Option ℝ} {level : ℝ} {dims : List Nat}
    {depth F m : Nat} {draws : Nat → Nat → {u : ℝ // 0 < u ∧ u ≤ 1}} {good good' : List (List Nat) → Net → Prop}
    (hg : ∀ samples L, HasDims dims L → NetInv L → good samples L → good' samples L)
    (h : LearnsGraph N prob pchisq level dims depth F m draws good) : LearnsGraph N prob pchisq level dims depth F m draws good' := by
  obtain ⟨samples, N', g, h⟩ := h
  refine ⟨samples, N', g, ?_⟩
  intro cap order sched fuel fuel' room bits h1 h2 h3 h4 h5 h6
  obtain ⟨k, L, q1, q2, q3⟩ := h cap order sched fuel fuel' room bits h1 h2 h3 h4 h5 h6
  exact ⟨k, L, q1, q2, hg samples L (orientPhase_dims q2) (orientPhase_keep q2) q3⟩

section samples

variable {dims : List Nat} {ops : List EdgeOp} {N : Net} {prob : Nat → Nat → Config → Except Fault ℝ}

/-- C110.  The whole way from samples to answers: let the graph of the network be faithful, no node have `depth` or more parents, the network be
connected and some two nodes not be adjacent.  With more and more samples, the probability that the learner fails, that its graph `L` is not an
acyclic orientation of the adjacencies of `N` with the compelled directions, or that the answers of the tables learned from the same samples for
`L` are not close to the conditional probabilities under the projection of the true distribution to `L`, tends to 0.  (`f` is a possible value of
the projection.) -/
theorem C110_answers (hpos : ∀ d ∈ dims, 0 < d) (hne : dims ≠ []) (hops : ∀ op ∈ ops, OpInRange dims.length op)
    (hN : (Net.empty dims).run ops = .ok N) (hwc : WeaklyConnected N) (cond : Nat → Assignment → ℝ)
    (hcond : ∀ (v : Nat) node, N.nodes[v]? = some node → ∀ a, InRange (fun j => dims.getD j 0) (v :: node.parents) a →
      prob v (a v) (configOf a node.parents) = .ok (cond v a) ∧ 0 ≤ cond v a ∧
        ∑ y ∈ Finset.range (dims.getD v 0), cond v (a.set v y) = 1)
    {pchisq : ℝ → Nat → Option ℝ} {F : ℝ → Nat → ℝ} {level : Nat → ℝ} (hslow : SlowLevels pchisq F level)
    (hfaith : Faithful N (fun j => dims.getD j 0) dims.length (fun a => ∏ u ∈ Finset.range dims.length, cond u a))
    {depth : Nat} (hdepth : FewParents (ParentOf N) depth) (hnc : ∃ x y, x < y ∧ y < dims.length ∧ ¬ Spec.Joined (ParentOf N) x y)
    {order : List (Nat × Nat) → List (Nat × Nat)} {cord : Nat → List Nat}
    (horder : ∀ l, (order l).Perm l) (hcord : ∀ m, (cord m).Perm (List.range m))
    {alpha : Int} (ha : 0 < alpha) (rnd : Nat → Nat → Nat) {f : Assignment → ℝ} (hf : ∀ o : Outcome (fun j => dims.getD j 0) dims.length, 0 ≤ f o.asg)
    {E : List (Nat × Nat)} (hEn : (E.map Prod.fst).Nodup) (hEr : ∀ e ∈ E, e.1 < dims.length ∧ e.2 < dims.getD e.1 0)
    (hE : 0 < weight (fun j => dims.getD j 0) dims.length f (Agrees E))
    {q x : Nat} (hq : q < dims.length) (hqE : q ∉ E.map Prod.fst) (hx : x < dims.getD q 0) {η : ℝ} (hη : 0 < η) :
    ∃ fuel, Filter.Tendsto (fun m : Nat => uniformDraws m dims.length
      {w | ¬ LearnsGraph N prob pchisq (level m) dims depth fuel m (drawsOf w) (fun samples L =>
        ¬ Cyclic (ParentOf L) ∧ (∀ x y, Spec.Joined (ParentOf L) x y ↔ Spec.Joined (ParentOf N) x y) ∧
        (∀ x y, Compelled (ParentOf N) x y → ParentOf L x y) ∧
        ((∀ a, InRange (fun j => dims.getD j 0) (List.range dims.length) a →
            projection (fun j => dims.getD j 0) dims.length (fun a => ∏ u ∈ Finset.range dims.length, cond u a) L.pa a = f a) →
          AnswerOn L dims samples alpha rnd order cord E q x (posterior (fun j => dims.getD j 0) dims.length f E q x) η))})
      Filter.atTop (nhds 0) := by
  obtain ⟨fuel, hfuel⟩ := C57_completion_partial (oracle_of_run hops hN) hdepth hnc
  have hp : ∀ o : Outcome (fun j => dims.getD j 0) dims.length, 0 ≤ (fun a => ∏ u ∈ Finset.range dims.length, cond u a) o.asg :=
    (law_ok hpos hops hN cond hcond).1
  have hn0 : (0 : ℝ) < dims.length := by
    have : 0 < dims.length := List.length_pos_iff.2 hne
    exact_mod_cast this
  obtain ⟨δ, hδ, hst⟩ := posterior_close hf hE hη
  have hlim := (C103_verdicts hpos hne hops hN cond hcond hslow).add
    (entries_close hpos hne hops hN cond hcond ha (ε := δ / dims.length) (by positivity))
  rw [add_zero] at hlim
  refine ⟨fuel, tendsto_of_tendsto_of_tendsto_of_le_of_le tendsto_const_nhds hlim (fun _ => zero_le) (fun m => ?_)⟩
  refine le_trans (measure_mono ?_) (measure_union_le _ _)
  intro w hw
  by_contra hn
  rw [Set.mem_union, not_or] at hn
  obtain ⟨hver, hclose⟩ := hn
  simp only [Set.mem_ofPred_eq, not_not] at hver hclose
  apply hw
  obtain ⟨samples, N', g1, hver⟩ := hver
  obtain ⟨samples', N'', g1', g2, g3⟩ := sample_columns hpos hne hops hN cond hcond m (drawsOf w)
  rw [g1] at g1'
  cases g1'
  refine ⟨samples, N', g1, ?_⟩
  intro cap ord sched fuel1 fuel' room bits hcap hord hsched hF hroom hf'
  obtain ⟨k, L, q1, q2, q3, q4, q5, q6⟩ := hfuel _ 1 cap ord sched fuel1 fuel' room bits dims
    (answers_of_verdicts hpos hne hops hN cond hcond hfaith g1 hver) one_pos hcap hord hsched hF rfl hroom hf'
  have hinv := orientPhase_keep q2
  have hdims : L.nodes.map NodeS.dim = dims := orientPhase_dims q2
  have hlen : L.nodes.length = dims.length := by rw [← hdims, List.length_map]
  refine ⟨k, L, q1, q2, q3, fun x y => (q4 x y).symm, q6, fun hproj => ?_⟩
  have hlenN := (netInv_of_run hops hN).2
  have hwcL : WeaklyConnected L := by
    intro i j hi hj
    refine Relation.ReflTransGen.mono (fun x y h => (q4 x y).1 h) _ _ (hwc i j (by omega) (by omega))
  refine answer_on hne hlen (shape_of_inv hinv hdims hpos) hinv hwcL horder hcord g3 ha rnd hp (entries_of_close hclose g1) hEn hEr hq hqE hx ?_
  intro g hg
  refine hst g (fun o => ?_) q x
  have := hg o
  rw [hproj _ (Outcome.asg_lt o)] at this
  refine this.trans (le_of_eq ?_)
  field_simp

/-- C110, the true answers: if the completed graph has no v-structure that `N` has not, the answers of the tables learned for it are close to the
true conditional probabilities. -/
theorem C110_no_new_collider (hpos : ∀ d ∈ dims, 0 < d) (hne : dims ≠ []) (hops : ∀ op ∈ ops, OpInRange dims.length op)
    (hN : (Net.empty dims).run ops = .ok N) (hwc : WeaklyConnected N) (cond : Nat → Assignment → ℝ)
    (hcond : ∀ (v : Nat) node, N.nodes[v]? = some node → ∀ a, InRange (fun j => dims.getD j 0) (v :: node.parents) a →
      prob v (a v) (configOf a node.parents) = .ok (cond v a) ∧ 0 ≤ cond v a ∧
        ∑ y ∈ Finset.range (dims.getD v 0), cond v (a.set v y) = 1)
    {pchisq : ℝ → Nat → Option ℝ} {F : ℝ → Nat → ℝ} {level : Nat → ℝ} (hslow : SlowLevels pchisq F level)
    (hfaith : Faithful N (fun j => dims.getD j 0) dims.length (fun a => ∏ u ∈ Finset.range dims.length, cond u a))
    {depth : Nat} (hdepth : FewParents (ParentOf N) depth) (hnc : ∃ x y, x < y ∧ y < dims.length ∧ ¬ Spec.Joined (ParentOf N) x y)
    {order : List (Nat × Nat) → List (Nat × Nat)} {cord : Nat → List Nat}
    (horder : ∀ l, (order l).Perm l) (hcord : ∀ m, (cord m).Perm (List.range m)) {alpha : Int} (ha : 0 < alpha) (rnd : Nat → Nat → Nat)
    {E : List (Nat × Nat)} (hEn : (E.map Prod.fst).Nodup) (hEr : ∀ e ∈ E, e.1 < dims.length ∧ e.2 < dims.getD e.1 0)
    (hE : 0 < weight (fun j => dims.getD j 0) dims.length (fun a => ∏ u ∈ Finset.range dims.length, cond u a) (Agrees E))
    {q x : Nat} (hq : q < dims.length) (hqE : q ∉ E.map Prod.fst) (hx : x < dims.getD q 0) {η : ℝ} (hη : 0 < η) :
    ∃ fuel, Filter.Tendsto (fun m : Nat => uniformDraws m dims.length
      {w | ¬ LearnsGraph N prob pchisq (level m) dims depth fuel m (drawsOf w) (fun samples L =>
        (∀ a b c, VStructure (ParentOf L) a b c → VStructure (ParentOf N) a b c) → AnswerOn L dims samples alpha rnd order cord E q x
          (posterior (fun j => dims.getD j 0) dims.length (fun a => ∏ u ∈ Finset.range dims.length, cond u a) E q x) η)})
      Filter.atTop (nhds 0) := by
  obtain ⟨fuel, h⟩ := C110_answers hpos hne hops hN hwc cond hcond hslow hfaith hdepth hnc horder hcord ha rnd
    (law_ok hpos hops hN cond hcond).1 hEn hEr hE hq hqE hx hη
  refine ⟨fuel, tendsto_of_tendsto_of_tendsto_of_le_of_le tendsto_const_nhds h (fun _ => zero_le) (fun m => measure_mono ?_)⟩
  intro w hw hgood
  refine hw (hgood.mono fun samples L hdims hinv hL hcol => ?_)
  obtain ⟨h1, h2, h3, h4⟩ := hL
  refine h4 (fun a har => equivalent_law hpos hops hN cond hcond hinv (by rw [← (show L.nodes.map NodeS.dim = dims from hdims), List.length_map])
    ⟨h1, h2, fun a b c => ⟨hcol a b c, fun hv => ?_⟩⟩ har)
  have e1 : Compelled (ParentOf N) a b := fun D' he => ((he.colliders a b c).2 hv).2.1
  have e2 : Compelled (ParentOf N) c b := fun D' he => ((he.colliders a b c).2 hv).2.2.1
  exact ⟨hv.1, h3 _ _ e1, h3 _ _ e2, fun hj => hv.2.2.2 ((h2 a c).1 hj)⟩

/-- C110, the true graph: if the directions of all edges are compelled, the probability that the learned graph is not the true one, or the answers
are not close to the true conditional probabilities, tends to 0. -/
theorem C110_compelled (hpos : ∀ d ∈ dims, 0 < d) (hne : dims ≠ []) (hops : ∀ op ∈ ops, OpInRange dims.length op)
    (hN : (Net.empty dims).run ops = .ok N) (hwc : WeaklyConnected N) (cond : Nat → Assignment → ℝ)
    (hcond : ∀ (v : Nat) node, N.nodes[v]? = some node → ∀ a, InRange (fun j => dims.getD j 0) (v :: node.parents) a →
      prob v (a v) (configOf a node.parents) = .ok (cond v a) ∧ 0 ≤ cond v a ∧
        ∑ y ∈ Finset.range (dims.getD v 0), cond v (a.set v y) = 1)
    {pchisq : ℝ → Nat → Option ℝ} {F : ℝ → Nat → ℝ} {level : Nat → ℝ} (hslow : SlowLevels pchisq F level)
    (hfaith : Faithful N (fun j => dims.getD j 0) dims.length (fun a => ∏ u ∈ Finset.range dims.length, cond u a))
    {depth : Nat} (hdepth : FewParents (ParentOf N) depth) (hnc : ∃ x y, x < y ∧ y < dims.length ∧ ¬ Spec.Joined (ParentOf N) x y)
    (hall : ∀ x y, ParentOf N x y → Compelled (ParentOf N) x y)
    {order : List (Nat × Nat) → List (Nat × Nat)} {cord : Nat → List Nat}
    (horder : ∀ l, (order l).Perm l) (hcord : ∀ m, (cord m).Perm (List.range m)) {alpha : Int} (ha : 0 < alpha) (rnd : Nat → Nat → Nat)
    {E : List (Nat × Nat)} (hEn : (E.map Prod.fst).Nodup) (hEr : ∀ e ∈ E, e.1 < dims.length ∧ e.2 < dims.getD e.1 0)
    (hE : 0 < weight (fun j => dims.getD j 0) dims.length (fun a => ∏ u ∈ Finset.range dims.length, cond u a) (Agrees E))
    {q x : Nat} (hq : q < dims.length) (hqE : q ∉ E.map Prod.fst) (hx : x < dims.getD q 0) {η : ℝ} (hη : 0 < η) :
    ∃ fuel, Filter.Tendsto (fun m : Nat => uniformDraws m dims.length
      {w | ¬ LearnsGraph N prob pchisq (level m) dims depth fuel m (drawsOf w) (fun samples L =>
        (∀ x y, ParentOf L x y ↔ ParentOf N x y) ∧ AnswerOn L dims samples alpha rnd order cord E q x
          (posterior (fun j => dims.getD j 0) dims.length (fun a => ∏ u ∈ Finset.range dims.length, cond u a) E q x) η)})
      Filter.atTop (nhds 0) := by
  obtain ⟨fuel, h⟩ := C110_answers hpos hne hops hN hwc cond hcond hslow hfaith hdepth hnc horder hcord ha rnd
    (law_ok hpos hops hN cond hcond).1 hEn hEr hE hq hqE hx hη
  refine ⟨fuel, tendsto_of_tendsto_of_tendsto_of_le_of_le tendsto_const_nhds h (fun _ => zero_le) (fun m => measure_mono ?_)⟩
  intro w hw hgood
  refine hw (hgood.mono fun samples L hdims hinv hL => ?_)
  obtain ⟨h1, h2, h3, h4⟩ := hL
  have hiff : ∀ x y, ParentOf L x y ↔ ParentOf N x y := by
    intro x y
    refine ⟨fun hxy => ?_, fun hxy => h3 x y (hall x y hxy)⟩
    rcases (h2 x y).1 (Or.inl hxy) with hn | hn
    · exact hn
    · exact absurd ⟨x, Relation.TransGen.tail (.single hxy) (h3 y x (hall y x hn))⟩ h1
  have heq : ParentOf L = ParentOf N := by
    funext x y
    exact propext (hiff x y)
  refine ⟨hiff, h4 (fun a har => equivalent_law hpos hops hN cond hcond hinv
    (by rw [← (show L.nodes.map NodeS.dim = dims from hdims), List.length_map]) ⟨h1, h2, fun a b c => by rw [heq]⟩ har)⟩

end samples

/-! ### The hypotheses can be met: the collider of C103, whose two edges are compelled -/

example : ∃ N, (Net.empty [2, 2, 2]).run [.addDirected 0 2, .addDirected 1 2] = .ok N ∧ ∀ η : ℝ, 0 < η →
    ∃ fuel, Filter.Tendsto (fun m : Nat => uniformDraws m 3
      {w | ¬ LearnsGraph N andProb chi (1 / ((m : ℝ) + 1)) [2, 2, 2] 3 fuel m (drawsOf w) (fun samples L =>
        (∀ x y, ParentOf L x y ↔ ParentOf N x y) ∧ AnswerOn L [2, 2, 2] samples 1 (fun _ _ => 0) id List.range [(2, 1)] 0 1 (2 / 3) η)})
      Filter.atTop (nhds 0) := by
  obtain ⟨N, h1, h2, h3⟩ := and_ok
  have hw : WeaklyConnected N := by
    have h02 : Linked N 0 2 := Or.inl ((h2 0 2).2 (by simp))
    have h21 : Linked N 2 1 := Or.inr ((h2 1 2).2 (by simp))
    have base : ∀ i, i < 3 → Relation.ReflTransGen (Linked N) 0 i := by
      intro i hi
      match i, hi with
      | 0, _ => exact .refl
      | 1, _ => exact (Relation.ReflTransGen.single h02).tail h21
      | 2, _ => exact .single h02
    have hlen := (netInv_of_run (dims := [2, 2, 2]) (by simp [OpInRange]) h1).2
    intro i j hi hj
    rw [hlen] at hi hj
    exact (conn_symm (fun _ _ h => h.symm) (base i hi)).trans (base j hj)
  have hdepth : FewParents (ParentOf N) 3 := by
    intro x S hn hS
    have : S.length ≤ [0, 1].length := by
      apply List.Subperm.length_le
      apply hn.subperm
      intro v hv
      have := ((h2 v x).1 (hS v hv)).1
      simpa using this
    simpa using Nat.lt_succ_of_le this
  have hcol : ∀ D', Equivalent (ParentOf N) D' → D' 0 2 ∧ D' 1 2 := by
    intro D' h
    have := (h.colliders 0 2 1).2 ⟨by decide, (h2 0 2).2 (by simp), (h2 1 2).2 (by simp), by simp [Spec.Joined, h2]⟩
    exact ⟨this.2.1, this.2.2.1⟩
  have hall : ∀ x y, ParentOf N x y → Compelled (ParentOf N) x y := by
    intro x y hxy D' h
    obtain ⟨rfl | rfl, rfl⟩ := (h2 x y).1 hxy
    · exact (hcol D' h).1
    · exact (hcol D' h).2
  refine ⟨N, h1, fun η hη => ?_⟩
  have := C110_compelled (dims := [2, 2, 2]) (by simp) (by simp) (by simp [OpInRange]) h1 hw andCond h3 chiSquare_slow (and_faithful h2) hdepth
    ⟨0, 1, by decide, by decide, by simp [Spec.Joined, h2]⟩ hall (order := id) (cord := List.range) (fun _ => List.Perm.refl _)
    (fun _ => List.Perm.refl _) (alpha := 1) one_pos (fun _ _ => 0) (E := [(2, 1)]) (by simp) (by simp)
    (by
      simp [weight, sumOut, List.range_succ, Agrees, andCond, noisyAnd, Finset.sum_range_succ, Finset.prod_range_succ, Assignment.set]
      norm_num) (q := 0) (x := 1) (by simp) (by simp) (by simp) hη
  have e : posterior (fun j => [2, 2, 2].getD j 0) [2, 2, 2].length (fun a => ∏ u ∈ Finset.range [2, 2, 2].length, andCond u a) [(2, 1)] 0 1 =
      2 / 3 := by
    simp [posterior, weight, sumOut, List.range_succ, Agrees, andCond, noisyAnd, Finset.sum_range_succ, Finset.prod_range_succ, Assignment.set]
    norm_num
  rw [e] at this
  exact this

/-! ### The chain of C108's example: the answer need not be right in the end -/

/-- No set but the middle node separates anything in the chain. -/
theorem copy_dependent {x y : Nat} {z : List Nat} (hxy : x < y) (hy : y < 3) (hz : z.Pairwise (· < ·)) (hlt : ∀ v ∈ z, v < 3 ∧ v ≠ x ∧ v ≠ y)
    (hnot : ¬ (x = 0 ∧ y = 2 ∧ z = [1])) :
    ¬ CondIndependent (fun j => [2, 2, 2].getD j 0) 3 (fun a => ∏ u ∈ Finset.range 3, copyCond u a) x y z := by
  intro h
  have h := h (fun _ => 1) (by
    intro v hv
    rw [List.mem_range] at hv
    have : v = 0 ∨ v = 1 ∨ v = 2 := by omega
    rcases this with rfl | rfl | rfl <;> decide)
  have hz' : z = [] ∨ z = [3 - x - y] := by
    match z, hz, hlt with
    | [], _, _ => exact Or.inl rfl
    | [v], _, hlt => right; have := hlt v (by simp); congr 1; omega
    | v :: w :: _, hz, hlt =>
      exfalso
      have h1 := hlt v (by simp)
      have h2 := hlt w (by simp)
      have h3 := (List.pairwise_cons.1 hz).1 w (by simp)
      omega
  have hxy' : x = 0 ∧ y = 1 ∨ x = 0 ∧ y = 2 ∨ x = 1 ∧ y = 2 := by omega
  rcases hxy' with ⟨rfl, rfl⟩ | ⟨rfl, rfl⟩ | ⟨rfl, rfl⟩ <;> rcases hz' with rfl | rfl <;>
    first
    | exact hnot ⟨rfl, rfl, rfl⟩
    | (simp [marginal, weight, sumOut, List.range_succ, Agrees, observed, copyCond, Finset.sum_range_succ, Finset.prod_range_succ,
        Assignment.set] at h
       norm_num at h)

theorem copy_graph {N : Net} (hE : ∀ x y, ParentOf N x y ↔ x = 0 ∧ y = 1 ∨ x = 1 ∧ y = 2) : ParentOf N = chain := by
  funext x y
  exact propext (hE x y)

theorem copy_faithful {N : Net} (hE : ∀ x y, ParentOf N x y ↔ x = 0 ∧ y = 1 ∨ x = 1 ∧ y = 2) :
    Faithful N (fun j => [2, 2, 2].getD j 0) 3 (fun a => ∏ u ∈ Finset.range 3, copyCond u a) := by
  intro x y z hxy hy hz hlt hi
  by_cases h : x = 0 ∧ y = 2 ∧ z = [1]
  · obtain ⟨rfl, rfl, rfl⟩ := h
    rw [copy_graph hE]
    exact (chain_oracle.1.3 0 2 [1] (by decide) (by decide) (by simp) (by simp)).1 rfl
  · exact absurd hi (copy_dependent hxy hy hz hlt h)

/-- The orientation phase looks at the pairs of nodes, the adjacencies and the separating sets only. -/
theorem orientPhase_view {cap fuel : Nat} {bits : Nat → Bool} {dag : Bool} {dims : List Nat} {k k' : Skeleton} (h : k.view = k'.view) :
    orientPhase cap bits dag fuel dims k = orientPhase cap bits dag fuel dims k' := by
  simp only [Skeleton.view, Prod.mk.injEq] at h
  obtain ⟨h1, h2, h3⟩ := h
  have e : ∀ k : Skeleton, skeletonNet dims k = { Net.empty dims with edges := (k.edges.map (fun e => (e.x, e.y))).map (fun p => mkUndirected p.1 p.2) } := by
    intro k
    unfold skeletonNet
    rw [List.map_map]
    rfl
  unfold orientPhase
  rw [e k, e k', h1, h2, h3]

/-- C110, violation: three variables, each of the last two copying the one before with probability 3/4.  The graph is faithful, and
P(node 2 = 0 | node 0 = 0) is 5/8.  With the random bits 0, 1, the answer of the learned network for it tends to 1/2. -/
theorem C110_wrong_answer : ∃ N F, (Net.empty [2, 2, 2]).run [.addDirected 0 1, .addDirected 1 2] = .ok N ∧ WeaklyConnected N ∧
    Faithful N (fun j => [2, 2, 2].getD j 0) 3 (fun a => ∏ u ∈ Finset.range 3, copyCond u a) ∧
    posterior (fun j => [2, 2, 2].getD j 0) 3 (fun a => ∏ u ∈ Finset.range 3, copyCond u a) [(0, 0)] 2 0 = 5 / 8 ∧ ∀ η : ℝ, 0 < η →
    Filter.Tendsto (fun m : Nat => uniformDraws m 3
      {w | ¬ ∃ samples N', generateSamples inversion N copyProb m (drawsOf w) = .ok (samples, N') ∧
        ∀ (cap : Nat) (order : List Nat) (sched : Nat → Schedule) (fuel : Nat), 0 < cap → order.Perm (List.range 3) →
          (∀ d r l, (sched d r l).Perm l) → F ≤ fuel →
          ∃ k L, learnSkeleton (ciTest Real.log chi (1 / ((m : ℝ) + 1)) [2, 2, 2] (columnsOf 3 samples) m) 3 2 1 cap order sched fuel = .ok k ∧
            orientPhase 3 (fun i => i == 1) true 100 [2, 2, 2] k = .ok L ∧
            AnswerOn L [2, 2, 2] samples 1 (fun _ _ => 0) id List.range [(0, 0)] 2 0 (1 / 2) η})
      Filter.atTop (nhds 0) := by
  obtain ⟨N, h1, h2, h3⟩ := copy_ok
  have hlen := (netInv_of_run (dims := [2, 2, 2]) (by simp [OpInRange]) h1).2
  have hw : WeaklyConnected N := row_connected hlen (Or.inl ((h2 0 1).2 (by simp))) (Or.inl ((h2 1 2).2 (by simp)))
  have hdepth : FewParents (ParentOf N) 2 := by rw [copy_graph h2]; exact chain_oracle.2
  obtain ⟨F1, v, hl⟩ := learnSkeleton_eq (separated N) 3 2
  -- the verdicts about the chain
  have hsame : ∀ x y z, x < y → y < 3 → z.Pairwise (· < ·) → (∀ v ∈ z, v < 3 ∧ v ≠ x ∧ v ≠ y) → separated N x y z = chainVerdicts x y z := by
    intro x y z hxy hy hz hlt
    have e1 := (oracle_of_run (dims := [2, 2, 2]) (by simp [OpInRange]) h1).3 x y z hxy hy hz hlt
    have e2 := chain_oracle.1.3 x y z hxy hy hz hlt
    rw [copy_graph h2] at e1
    rw [Bool.eq_iff_iff, e1, e2]
  have hans : Answers (singleTest chainVerdicts) (separated N) 3 1 := by
    refine ⟨fun x y hxy hy => ?_, fun x y d sets hxy hy hd hs hl hall => ?_⟩
    · rw [hsame x y [] hxy hy List.Pairwise.nil (by simp)]
      exact (answers_single chainVerdicts 3).empty x y hxy hy
    · obtain ⟨s, rfl⟩ : ∃ s, sets = [s] := by
        match sets, hs, hl with
        | [s], _, _ => exact ⟨s, rfl⟩
      have := (answers_single chainVerdicts 3).group x y d [s] hxy hy hd hs hl hall
      have e := hsame x y s hxy hy (hall s (by simp)).2.1 (hall s (by simp)).2.2
      simp only [List.any_cons, List.any_nil, List.findIdx_singleton, e] at this ⊢
      exact this
  have hview : ∃ k L, k.view = v ∧ orientPhase 3 (fun i => i == 1) true 100 [2, 2, 2] k = .ok L ∧ L.pa 0 = [] ∧ L.pa 1 = [0, 2] ∧ L.pa 2 = [] := by
    obtain ⟨k, L, q1, q2, q3⟩ : ∃ k L, learnSkeleton (singleTest chainVerdicts) 3 2 1 128 (List.range 3) (fun _ _ l => l) (F1 + 10) = .ok k ∧
      orientPhase 3 (fun i => i == 1) true 100 [2, 2, 2] k = .ok L ∧ L.pa 0 = [] ∧ L.pa 1 = [0, 2] ∧ L.pa 2 = [] := ⟨_, _, rfl, rfl, rfl, rfl, rfl⟩
    obtain ⟨k', r1, r2, -⟩ := hl (singleTest chainVerdicts) 1 128 (List.range 3) (fun _ _ l => l) (F1 + 10) hans one_pos (by decide)
      (List.Perm.refl _) (fun _ _ _ => List.Perm.refl _) (by omega)
    rw [q1] at r1
    cases r1
    exact ⟨k, L, r2, q2, q3⟩
  obtain ⟨k0, L0, hk0, hL0, p0, p1, p2⟩ := hview
  have hinv := orientPhase_keep hL0
  have hdims : L0.nodes.map NodeS.dim = [2, 2, 2] := orientPhase_dims hL0
  have hlen0 : L0.nodes.length = 3 := by rw [← List.length_map (f := NodeS.dim), hdims]; rfl
  have hw0 : WeaklyConnected L0 := row_connected hlen0 (Or.inl (parentOf_iff.2 (by rw [p1]; simp))) (Or.inr (parentOf_iff.2 (by rw [p1]; simp)))
  refine ⟨N, F1, h1, hw, copy_faithful h2, copy_posterior, fun η hη => ?_⟩
  have hp : ∀ o : Outcome (fun j => [2, 2, 2].getD j 0) [2, 2, 2].length, 0 ≤ (fun a => ∏ u ∈ Finset.range [2, 2, 2].length, copyCond u a) o.asg :=
    (law_ok (dims := [2, 2, 2]) (by simp) (by simp [OpInRange]) h1 copyCond h3).1
  obtain ⟨δ, hδ, hst⟩ := posterior_close (g := colliderLaw) (card := fun j => [2, 2, 2].getD j 0) (n := 3)
    (fun o => by unfold colliderLaw; split <;> (try split) <;> norm_num) colliderLaw_weight hη
  have hlim := (C103_verdicts (dims := [2, 2, 2]) (by simp) (by simp) (by simp [OpInRange]) h1 copyCond h3 chiSquare_slow).add
    (entries_close (dims := [2, 2, 2]) (by simp) (by simp) (by simp [OpInRange]) h1 copyCond h3 (alpha := 1) one_pos (ε := δ / 3) (by positivity))
  rw [add_zero] at hlim
  refine tendsto_of_tendsto_of_tendsto_of_le_of_le tendsto_const_nhds hlim (fun _ => zero_le) (fun m => ?_)
  refine le_trans (measure_mono ?_) (measure_union_le _ _)
  intro w hw
  by_contra hn
  rw [Set.mem_union, not_or] at hn
  obtain ⟨hver, hclose⟩ := hn
  replace hver := not_not.1 hver
  replace hclose := not_not.1 hclose
  apply hw
  obtain ⟨samples, N', g1, hver⟩ := hver
  obtain ⟨samples', N'', g1', g2, g3⟩ := sample_columns (dims := [2, 2, 2]) (by simp) (by simp) (by simp [OpInRange]) h1 copyCond h3 m (drawsOf w)
  rw [g1] at g1'
  cases g1'
  refine ⟨samples, N', g1, fun cap order sched fuel hcap hord hsched hF => ?_⟩
  obtain ⟨k, q1, q2, -⟩ := hl _ 1 cap order sched fuel (answers_of_verdicts (dims := [2, 2, 2]) (by simp) (by simp) (by simp [OpInRange]) h1 copyCond h3
    (copy_faithful h2) g1 hver) one_pos hcap hord hsched hF
  refine ⟨k, L0, q1, by rw [orientPhase_view (q2.trans hk0.symm)]; exact hL0, ?_⟩
  refine answer_on (dims := [2, 2, 2]) (by simp) hlen0 (shape_of_inv hinv hdims (by simp)) hinv hw0 (fun _ => List.Perm.refl _)
    (fun _ => List.Perm.refl _) g3 one_pos _ hp (entries_of_close hclose g1) (by simp) (by simp) (by simp) (by simp) (by simp) ?_
  intro g hg
  have := hst g (fun o => ?_) 2 0
  · rw [colliderLaw_posterior] at this
    exact this
  · have := hg o
    have e : projection (fun j => [2, 2, 2].getD j 0) [2, 2, 2].length (fun a => ∏ u ∈ Finset.range [2, 2, 2].length, copyCond u a) L0.pa o.asg =
      colliderLaw o.asg := copy_projection p0 p1 p2 (Outcome.asg_lt o)
    rw [e] at this
    refine this.trans (le_of_eq ?_)
    simp only [List.length_cons, List.length_nil]
    norm_num
    ring

end FastPGM
