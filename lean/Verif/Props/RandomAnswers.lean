import Verif.Props.Random

/-!
C101: the answers of a network whose parameters were learned from samples approach the answers of the network sampled from.
-/

namespace FastPGM

open Spec MeasureTheory

/-- Probability that the variables before some place of the order have given values. -/
theorem JointOrder.prefix {K : Type} [Field K] {card : Nat → Nat} {N : Net} {pts : List (Table K)} {l : List Nat} (h : JointOrder N card pts l)
    (hlen : pts.length = N.nodes.length) (hc : ∀ i < N.nodes.length, 0 < card i) {c : Assignment}
    (hcr : InRange card (List.range N.nodes.length) c) :
    ∀ q r, l = q.reverse ++ r →
      weight card N.nodes.length (joint pts) (Agrees (observed c q)) = (q.map (fun v => nodeFactor pts v c)).prod := by
  have hmem : ∀ x ∈ l, x ∈ List.range N.nodes.length := fun x hx => by
    rw [← hlen]
    exact h.perm.mem_iff.1 hx
  intro q
  induction q with
  | nil =>
    intro r _
    rw [List.map_nil, List.prod_nil, ← h.total hlen hc]
    unfold weight
    congr 1
  | cons v q ih =>
    intro r e
    rw [List.reverse_cons, List.append_assoc, List.singleton_append] at e
    have := sumOut_order_conditional (card := card) (V := List.range N.nodes.length) (q := q.reverse) (r := r) (v := v) (nodeFactor pts) (e ▸ h.nodup)
      (e ▸ hmem) (fun q' u r' h' => h.dep q' u r' (e.trans h')) (e ▸ h.one) (ws := q) (fun x hx => by simpa using hx)
      ((h.dep _ v r e).mono (fun x hx => by simpa using hx)) hcr (a := fun _ => 0) (fun x hx => hc x (List.mem_range.1 hx))
    rw [← e] at this
    rw [List.map_cons, List.prod_cons, ← ih (v :: r) e]
    unfold weight
    rw [← hlen, ← sumOut_perm_eq h.perm, ← sumOut_perm_eq h.perm]
    simp only [joint_eq_order h.perm]
    exact this

theorem prod_range_sub {n : Nat} {f g : Nat → ℝ} (hf : ∀ i < n, 0 ≤ f i ∧ f i ≤ 1) (hg : ∀ i < n, 0 ≤ g i ∧ g i ≤ 1) {ε : ℝ}
    (h : ∀ i < n, |f i - g i| ≤ ε) : |∏ i ∈ Finset.range n, f i - ∏ i ∈ Finset.range n, g i| ≤ n * ε := by
  induction n with
  | zero => simp
  | succ n ih =>
    rw [Finset.prod_range_succ, Finset.prod_range_succ]
    have ih := ih (fun i hi => hf i (by omega)) (fun i hi => hg i (by omega)) (fun i hi => h i (by omega))
    have hF0 : 0 ≤ ∏ i ∈ Finset.range n, f i := Finset.prod_nonneg (fun i hi => (hf i (by have := Finset.mem_range.1 hi; omega)).1)
    have hF1 : ∏ i ∈ Finset.range n, f i ≤ 1 :=
      Finset.prod_le_one (fun i hi => (hf i (by have := Finset.mem_range.1 hi; omega)).1) (fun i hi => (hf i (by have := Finset.mem_range.1 hi; omega)).2)
    generalize ∏ i ∈ Finset.range n, f i = F at *
    generalize ∏ i ∈ Finset.range n, g i = G at *
    have e : F * f n - G * g n = F * (f n - g n) + (F - G) * g n := by ring
    have h1 : |F * (f n - g n)| ≤ ε := by
      rw [abs_mul, abs_of_nonneg hF0]
      calc F * |f n - g n| ≤ 1 * |f n - g n| := mul_le_mul_of_nonneg_right hF1 (abs_nonneg _)
        _ = |f n - g n| := one_mul _
        _ ≤ ε := h n (by omega)
    have h2 : |(F - G) * g n| ≤ n * ε := by
      rw [abs_mul, abs_of_nonneg (hg n (by omega)).1]
      calc |F - G| * g n ≤ |F - G| * 1 := mul_le_mul_of_nonneg_left (hg n (by omega)).2 (abs_nonneg _)
        _ = |F - G| := mul_one _
        _ ≤ n * ε := ih
    rw [e]
    push_cast
    calc _ ≤ |F * (f n - g n)| + |(F - G) * g n| := abs_add_le _ _
      _ ≤ ε + n * ε := add_le_add h1 h2
      _ = (n + 1) * ε := by ring

theorem first_split {α : Type} {p : α → Prop} : ∀ {l : List α}, (∃ x ∈ l, p x) → ∃ q v r, l = q ++ v :: r ∧ p v ∧ ∀ x ∈ q, ¬ p x := by
  intro l
  induction l with
  | nil => rintro ⟨x, hx, _⟩; simp at hx
  | cons a l ih =>
    rintro ⟨x, hx, hp⟩
    by_cases ha : p a
    · exact ⟨[], a, l, rfl, ha, by simp⟩
    · obtain ⟨q, v, r, e, h1, h2⟩ := ih ⟨x, (List.mem_cons.1 hx).resolve_left (fun e => ha (e ▸ hp)), hp⟩
      refine ⟨a :: q, v, r, by rw [e]; rfl, h1, ?_⟩
      intro y hy
      rcases List.mem_cons.1 hy with rfl | hy
      · exact ha
      · exact h2 y hy

/-- Close numerators and denominators have close quotients. -/
theorem div_close {a p a' p' δ η : ℝ} (hp : 0 < p) (ha : 0 ≤ a) (hap : a ≤ p) (h1 : |a' - a| ≤ δ) (h2 : |p' - p| ≤ δ) (hδ : δ ≤ p / 2)
    (hη : 4 * δ < η * p) : |a' / p' - a / p| < η := by
  have hp' : p / 2 ≤ p' := by
    have := neg_abs_le (p' - p)
    linarith
  have hp0 : 0 < p' := by linarith
  have e : a' / p' - a / p = ((a' - a) * p - a * (p' - p)) / (p' * p) := by
    field_simp
    ring
  rw [e, abs_div, abs_of_pos (mul_pos hp0 hp), div_lt_iff₀ (mul_pos hp0 hp)]
  have h3 : |(a' - a) * p - a * (p' - p)| ≤ δ * p + p * δ := by
    refine le_trans (abs_sub _ _) (add_le_add ?_ ?_)
    · rw [abs_mul, abs_of_pos hp]
      exact mul_le_mul_of_nonneg_right h1 hp.le
    · rw [abs_mul, abs_of_nonneg ha]
      exact mul_le_mul hap h2 (abs_nonneg _) hp.le
  have hη0 : 0 < η := by
    have hδ0 : 0 ≤ δ := le_trans (abs_nonneg _) h1
    by_contra h
    have : η * p ≤ 0 := mul_nonpos_of_nonpos_of_nonneg (not_lt.1 h) hp.le
    linarith
  calc _ ≤ δ * p + p * δ := h3
    _ = (4 * δ) * (p / 2) := by ring
    _ < (η * p) * (p / 2) := mul_lt_mul_of_pos_right hη (by linarith)
    _ = η * (p / 2 * p) := by ring
    _ ≤ η * (p' * p) := mul_le_mul_of_nonneg_left (mul_le_mul_of_nonneg_right hp' hp.le) hη0.le

section answers

variable {dims : List Nat} {ops : List EdgeOp} {N : Net} {prob : Nat → Nat → Config → Except Fault ℝ}

/-- The joint probabilities of tables that are close to the conditional distributions, where these matter. -/
theorem joint_close (hpos : ∀ d ∈ dims, 0 < d) (hne : dims ≠ []) (hops : ∀ op ∈ ops, OpInRange dims.length op)
    (hN : (Net.empty dims).run ops = .ok N) (cond : Nat → Assignment → ℝ)
    (hcond : ∀ (v : Nat) node, N.nodes[v]? = some node → ∀ a, InRange (fun j => dims.getD j 0) (v :: node.parents) a →
      prob v (a v) (configOf a node.parents) = .ok (cond v a) ∧ 0 ≤ cond v a ∧
        ∑ y ∈ Finset.range (dims.getD v 0), cond v (a.set v y) = 1)
    {ε : ℝ} (hε : 0 < ε) {L : Nat → Assignment → ℝ}
    (hL : ∀ v < dims.length, ∀ o : Outcome (fun j => dims.getD j 0) dims.length, 0 ≤ L v o.asg ∧ L v o.asg ≤ 1)
    (hclose : ∀ (v : Nat) node, N.nodes[v]? = some node → ∀ o : Outcome (fun j => dims.getD j 0) dims.length,
      0 < weight (fun j => dims.getD j 0) dims.length (fun a => ∏ u ∈ Finset.range dims.length, cond u a) (Agrees (observed o.asg node.parents)) →
      |L v o.asg - cond v o.asg| < ε) (o : Outcome (fun j => dims.getD j 0) dims.length) :
    |∏ v ∈ Finset.range dims.length, L v o.asg - ∏ v ∈ Finset.range dims.length, cond v o.asg| ≤ dims.length * ε := by
  obtain ⟨N0, h1, h2, h3, h4⟩ := run_shape hops hpos
  rw [hN] at h1
  cases h1
  obtain ⟨pts, hpts, hct, hv0, hj⟩ := cond_tables hpos hops hN cond hcond
  obtain ⟨l, _, hl⟩ := C16_genTopoOrd hops hN
  have hcard : ∀ i < N.nodes.length, 0 < dims.getD i 0 := fun i hi => (h3.dim i _ (List.getElem?_eq_getElem hi)).2
  have ho := Outcome.asg_lt o
  have hJ := jointOrder h4 hpts hct (h2 ▸ hl)
  -- the conditional distributions are between 0 and 1
  have hc01 : ∀ v < dims.length, 0 ≤ cond v o.asg ∧ cond v o.asg ≤ 1 := by
    intro v hv
    have hvN : v < N.nodes.length := by omega
    have hnode : N.nodes[v]? = some N.nodes[v] := List.getElem?_eq_getElem hvN
    have hin : InRange (fun j => dims.getD j 0) (v :: N.nodes[v].parents) o.asg := by
      intro p hp
      apply ho p
      rw [List.mem_range, ← h2]
      rcases List.mem_cons.1 hp with rfl | h
      · exact hvN
      · exact (h3.parents v _ hnode).2.1 p h
    obtain ⟨_, c1, c2⟩ := hcond v _ hnode _ hin
    refine ⟨c1, ?_⟩
    have hself : o.asg.set v (o.asg v) = o.asg := by
      funext w; unfold Assignment.set; split
      · next e => rw [e]
      · rfl
    rw [← c2]
    have := Finset.single_le_sum (f := fun y => cond v (o.asg.set v y)) (s := Finset.range (dims.getD v 0)) (fun y hy => (hcond v _ hnode _ (by
      intro p hp
      unfold Assignment.set
      split
      · next e => rw [e]; exact Finset.mem_range.1 hy
      · exact hin p hp)).2.1) (Finset.mem_range.2 (ho v (List.mem_range.2 hv)))
    simpa only [hself] using this
  -- after variables with positive probability, the values of the parents have positive probability
  have hprefix : ∀ q v r, l = q ++ v :: r → (∀ x ∈ q, cond x o.asg ≠ 0) → |L v o.asg - cond v o.asg| < ε := by
    intro q v r e hq
    have hvl : v < dims.length := (hl.2.1 v).1 (by rw [e]; simp)
    have hvN : v < N.nodes.length := by omega
    have hnode : N.nodes[v]? = some N.nodes[v] := List.getElem?_eq_getElem hvN
    apply hclose v _ hnode o
    have hw := hJ.prefix hpts.length hcard (c := o.asg) (by rw [h2]; exact ho) q.reverse (v :: r) (by rw [List.reverse_reverse]; exact e)
    have hqpos : 0 < (q.reverse.map (fun v => nodeFactor pts v o.asg)).prod := by
      apply List.prod_pos
      intro x hx
      obtain ⟨u, hu, rfl⟩ := List.mem_map.1 hx
      have huq : u ∈ q := by simpa using hu
      have hul : u < dims.length := (hl.2.1 u).1 (by rw [e]; simp [huq])
      have hup : u < pts.length := by rw [hpts.length]; omega
      have hTu : pts[u]? = some pts[u] := List.getElem?_eq_getElem hup
      rw [nodeFactor_eq hTu, hv0 u _ hTu _ ho]
      exact lt_of_le_of_ne (hc01 u hul).1 (Ne.symm (hq u huq))
    rw [← hw] at hqpos
    refine lt_of_lt_of_le hqpos ?_
    unfold weight
    rw [h2, sumOut_outcomes, sumOut_outcomes]
    apply Finset.sum_le_sum
    intro o' _
    have hP : 0 ≤ ∏ u ∈ Finset.range dims.length, cond u o'.asg := by
      refine Finset.prod_nonneg (fun u hu => ?_)
      have hu' : u < N.nodes.length := by have := Finset.mem_range.1 hu; omega
      have hn : N.nodes[u]? = some N.nodes[u] := List.getElem?_eq_getElem hu'
      refine (hcond u _ hn _ (fun p hp => Outcome.asg_lt o' p ?_)).2.1
      rw [List.mem_range, ← h2]
      rcases List.mem_cons.1 hp with rfl | h
      · exact hu'
      · exact (h3.parents u _ hn).2.1 p h
    rw [hj _ (Outcome.asg_lt o')]
    by_cases hag : Agrees (observed o.asg q.reverse) o'.asg
    · rw [if_pos hag, if_pos]
      intro e' he'
      obtain ⟨p, hp, rfl⟩ := List.mem_map.1 he'
      apply hag
      refine List.mem_map.2 ⟨p, ?_, rfl⟩
      rw [List.mem_reverse]
      exact hJ.pa q v r e p (by rw [pa_of_lt hvN]; exact hp)
    · rw [if_neg hag]
      split
      · exact hP
      · exact le_rfl
  have hn0 : (1 : ℝ) ≤ dims.length := by
    have : 0 < dims.length := List.length_pos_iff.2 hne
    exact_mod_cast this
  by_cases hz : ∃ u ∈ l, cond u o.asg = 0
  · obtain ⟨q, u, r, e, hu, hq⟩ := first_split hz
    have hul : u < dims.length := (hl.2.1 u).1 (by rw [e]; simp)
    have h5 := hprefix q u r e hq
    rw [hu, sub_zero] at h5
    have h6 : ∏ v ∈ Finset.range dims.length, cond v o.asg = 0 := Finset.prod_eq_zero (Finset.mem_range.2 hul) hu
    have h7 : ∏ v ∈ Finset.range dims.length, L v o.asg ≤ L u o.asg := by
      rw [← Finset.mul_prod_erase _ _ (Finset.mem_range.2 hul)]
      refine mul_le_of_le_one_right (hL u hul o).1 (Finset.prod_le_one (fun v hv => ?_) (fun v hv => ?_))
      · exact (hL v (Finset.mem_range.1 (Finset.mem_of_mem_erase hv)) o).1
      · exact (hL v (Finset.mem_range.1 (Finset.mem_of_mem_erase hv)) o).2
    rw [h6, sub_zero, abs_of_nonneg (Finset.prod_nonneg (fun v hv => (hL v (Finset.mem_range.1 hv) o).1))]
    have h8 : L u o.asg < ε := lt_of_le_of_lt (le_abs_self _) h5
    calc _ ≤ L u o.asg := h7
      _ ≤ 1 * ε := by linarith
      _ ≤ dims.length * ε := mul_le_mul_of_nonneg_right hn0 hε.le
  · apply prod_range_sub (fun v hv => hL v hv o) hc01
    intro v hv
    obtain ⟨q, r, e⟩ := List.append_of_mem ((hl.2.1 v).2 hv)
    exact (hprefix q v r e (fun x hx h => hz ⟨x, by rw [e]; simp [hx], h⟩)).le

/-- Stability of the answers: tables close enough to the conditional distributions of the network give close answers. -/
theorem answers_close (hpos : ∀ d ∈ dims, 0 < d) (hne : dims ≠ []) (hops : ∀ op ∈ ops, OpInRange dims.length op)
    (hN : (Net.empty dims).run ops = .ok N) (cond : Nat → Assignment → ℝ)
    (hcond : ∀ (v : Nat) node, N.nodes[v]? = some node → ∀ a, InRange (fun j => dims.getD j 0) (v :: node.parents) a →
      prob v (a v) (configOf a node.parents) = .ok (cond v a) ∧ 0 ≤ cond v a ∧
        ∑ y ∈ Finset.range (dims.getD v 0), cond v (a.set v y) = 1)
    {E : List (Nat × Nat)}
    (hE : 0 < weight (fun j => dims.getD j 0) dims.length (fun a => ∏ u ∈ Finset.range dims.length, cond u a) (Agrees E))
    {η : ℝ} (hη : 0 < η) :
    ∃ ε : ℝ, 0 < ε ∧ ∀ L : Nat → Assignment → ℝ,
      (∀ v < dims.length, ∀ o : Outcome (fun j => dims.getD j 0) dims.length, 0 ≤ L v o.asg ∧ L v o.asg ≤ 1) →
      (∀ (v : Nat) node, N.nodes[v]? = some node → ∀ o : Outcome (fun j => dims.getD j 0) dims.length,
        0 < weight (fun j => dims.getD j 0) dims.length (fun a => ∏ u ∈ Finset.range dims.length, cond u a) (Agrees (observed o.asg node.parents)) →
        |L v o.asg - cond v o.asg| < ε) →
      ∀ q x, |posterior (fun j => dims.getD j 0) dims.length (fun a => ∏ v ∈ Finset.range dims.length, L v a) E q x -
        posterior (fun j => dims.getD j 0) dims.length (fun a => ∏ v ∈ Finset.range dims.length, cond v a) E q x| < η := by
  obtain ⟨N0, h1, h2, h3, h4⟩ := run_shape hops hpos
  rw [hN] at h1
  cases h1
  have hn0 : (1 : ℝ) ≤ dims.length := by
    have : 0 < dims.length := List.length_pos_iff.2 hne
    exact_mod_cast this
  have hP : ∀ o : Outcome (fun j => dims.getD j 0) dims.length, 0 ≤ ∏ u ∈ Finset.range dims.length, cond u o.asg := by
    intro o
    refine Finset.prod_nonneg (fun u hu => ?_)
    have hu' : u < N.nodes.length := by have := Finset.mem_range.1 hu; omega
    have hn : N.nodes[u]? = some N.nodes[u] := List.getElem?_eq_getElem hu'
    refine (hcond u _ hn _ (fun p hp => Outcome.asg_lt o p ?_)).2.1
    rw [List.mem_range, ← h2]
    rcases List.mem_cons.1 hp with rfl | h
    · exact hu'
    · exact (h3.parents u _ hn).2.1 p h
  generalize hp : weight (fun j => dims.getD j 0) dims.length (fun a => ∏ u ∈ Finset.range dims.length, cond u a) (Agrees E) = p at hE
  let M : ℝ := (Fintype.card (Outcome (fun j => dims.getD j 0) dims.length) : ℝ) * dims.length + 1
  have hM : 0 < M := by positivity
  let δ : ℝ := min (p / 2) (η * p / 8)
  have hδ : 0 < δ := lt_min (by linarith) (by positivity)
  refine ⟨δ / M, by positivity, ?_⟩
  intro L hL hclose q x
  have hjc := joint_close hpos hne hops hN cond hcond (ε := δ / M) (by positivity) hL hclose
  have hwt : ∀ (ev : Assignment → Prop) [DecidablePred ev],
      |weight (fun j => dims.getD j 0) dims.length (fun a => ∏ v ∈ Finset.range dims.length, L v a) ev -
        weight (fun j => dims.getD j 0) dims.length (fun a => ∏ v ∈ Finset.range dims.length, cond v a) ev| ≤ δ := by
    intro ev _
    unfold weight
    rw [sumOut_outcomes, sumOut_outcomes, ← Finset.sum_sub_distrib]
    refine le_trans (Finset.abs_sum_le_sum_abs _ _) ?_
    refine le_trans (Finset.sum_le_sum (g := fun _ => (dims.length : ℝ) * (δ / M)) (fun o _ => ?_)) ?_
    · split
      · exact hjc o
      · rw [sub_zero, abs_zero]
        positivity
    · rw [Finset.sum_const, Finset.card_univ, nsmul_eq_mul, ← mul_assoc]
      calc (Fintype.card (Outcome (fun j => dims.getD j 0) dims.length) : ℝ) * dims.length * (δ / M) ≤ M * (δ / M) :=
            mul_le_mul_of_nonneg_right (by simp only [M]; linarith) (by positivity)
        _ = δ := by field_simp
  unfold posterior
  rw [hp]
  refine div_close (δ := δ) hE ?_ ?_ (hwt _) (by rw [← hp]; exact hwt _) (min_le_left _ _) ?_
  · unfold weight
    rw [sumOut_outcomes]
    exact Finset.sum_nonneg (fun o _ => by split; exacts [hP o, le_rfl])
  · rw [← hp]
    unfold weight
    rw [sumOut_outcomes, sumOut_outcomes]
    apply Finset.sum_le_sum
    intro o _
    by_cases h : Agrees E o.asg
    · rw [if_pos h]
      split
      · exact le_rfl
      · exact hP o
    · rw [if_neg h, if_neg (fun h' => h h'.1)]
  · have : δ ≤ η * p / 8 := min_le_right _ _
    have hηp : 0 < η * p := by positivity
    linarith

/-- The answer, from a junction tree built on the tables learned from `m` samples of `N`, for value `x` of node `q` given the evidence `E`
is closer than `η` to `y`. -/
def AnswerClose (N : Net) (card : Nat → Nat) (prob : Nat → Nat → Config → Except Fault ℝ) (alpha : Int) (rnd : Nat → Nat → Nat)
    (order : List (Nat × Nat) → List (Nat × Nat)) (cord : Nat → List Nat) (m : Nat)
    (draws : Nat → Nat → {u : ℝ // 0 < u ∧ u ≤ 1}) (E : List (Nat × Nat)) (q x : Nat) (y η : ℝ) : Prop :=
  ∃ samples N' pts J T z, generateSamples inversion N prob m draws = .ok (samples, N') ∧
    learnParams N (columnsOf N.nodes.length samples) N.nodes.length m alpha rnd [] = .ok pts ∧
    buildJunctionTree N card pts order cord = .ok J ∧ J.marginal E q = .ok (T, J) ∧ T.pot[x]? = some z ∧ |z - y| < η

/-- Sampling, learning and building the tree succeed, and the learned tables give every evidence a positive probability. -/
theorem learned_run (hpos : ∀ d ∈ dims, 0 < d) (hne : dims ≠ []) (hops : ∀ op ∈ ops, OpInRange dims.length op)
    (hN : (Net.empty dims).run ops = .ok N) (hwc : WeaklyConnected N) {order : List (Nat × Nat) → List (Nat × Nat)} {cord : Nat → List Nat}
    (horder : ∀ l, (order l).Perm l) (hcord : ∀ m, (cord m).Perm (List.range m)) (cond : Nat → Assignment → ℝ)
    (hcond : ∀ (v : Nat) node, N.nodes[v]? = some node → ∀ a, InRange (fun j => dims.getD j 0) (v :: node.parents) a →
      prob v (a v) (configOf a node.parents) = .ok (cond v a) ∧ 0 ≤ cond v a ∧
        ∑ y ∈ Finset.range (dims.getD v 0), cond v (a.set v y) = 1)
    {alpha : Int} (ha : 0 < alpha) (rnd : Nat → Nat → Nat) (m : Nat)
    (w : Fin m × Fin dims.length → ℝ) :
    ∃ samples N', ∃ pts : List (Table ℝ), ∃ J, generateSamples inversion N prob m (drawsOf w) = .ok (samples, N') ∧
      learnParams N (columnsOf N.nodes.length samples) N.nodes.length m alpha rnd [] = .ok pts ∧
      buildJunctionTree N (fun j => dims.getD j 0) pts order cord = .ok J ∧
      Columns (fun j => dims.getD j 0) dims.length (columnsOf N.nodes.length samples) (samples.map asg) ∧
      (∀ (i : Nat) s, N.nodes[i]? = some s →
        ∃ T, pts[i]? = some T ∧ IsFrequencyTable (fun i => dims.getD i 0) (samples.map asg) alpha i s.parents T) ∧
      NodeTables (fun i => dims.getD i 0) N pts ∧ (∀ T ∈ pts, ∀ x ∈ T.pot, 0 ≤ x) ∧
      ∀ E : List (Nat × Nat), (E.map Prod.fst).Nodup → (∀ e ∈ E, e.1 < dims.length ∧ e.2 < dims.getD e.1 0) →
        weight (fun i => dims.getD i 0) dims.length (joint pts) (Agrees E) ≠ 0 := by
  obtain ⟨N0, h1, h2, h3, h4⟩ := run_shape hops hpos
  rw [hN] at h1
  cases h1
  obtain ⟨ord, o1, hall⟩ := C55_samples hpos hne hops hN (weights_of_cond hpos hops hN cond hcond) C61_inversion_possible
  obtain ⟨samples, N', g1, g2, g3⟩ := hall m (drawsOf w)
  have hr : ∀ s ∈ samples, ∀ u < dims.length, asg s u < dims.getD u 0 := by
    intro s hs u hu
    obtain ⟨i, hi, rfl⟩ := List.getElem_of_mem hs
    exact ((g3 i _ (List.getElem?_eq_getElem hi)).2 u _ (List.getElem?_eq_getElem (by omega))).1
  have hcols : Columns (fun j => dims.getD j 0) dims.length (columnsOf N.nodes.length samples) (samples.map asg) := by
    constructor
    · intro u hu
      refine ⟨samples.map (fun s => s.getD u 0), ?_, ?_⟩
      · unfold columnsOf
        rw [List.getElem?_map, List.getElem?_range (by omega)]
        rfl
      · intro j r hj
        rw [List.getElem?_map] at hj ⊢
        cases e : samples[j]? with
        | none => rw [e] at hj; cases hj
        | some t => rw [e] at hj; cases hj; rfl
    · intro r hr' u hu
      obtain ⟨t, ht, rfl⟩ := List.mem_map.1 hr'
      exact hr t ht u hu
  obtain ⟨pts, l1, l2, l3, l4, l5⟩ := learned_tables (K := ℝ) hpos hops hN hcols ha rnd
  rw [List.length_map, g2, ← h2] at l1
  obtain ⟨J, _, _, _, _, _, _, _, b1, _⟩ := built_of_run (K := ℝ) hops hN hne hwc horder hcord l3
  exact ⟨samples, N', pts, J, g1, l1, b1, hcols, l2, l3, l4, l5⟩

/-- With more and more samples, the probability that a conditional probability under the learned tables differs from the true one by `η` or more
tends to 0. -/
theorem learned_close (hpos : ∀ d ∈ dims, 0 < d) (hne : dims ≠ []) (hops : ∀ op ∈ ops, OpInRange dims.length op)
    (hN : (Net.empty dims).run ops = .ok N) (hwc : WeaklyConnected N) (cond : Nat → Assignment → ℝ)
    (hcond : ∀ (v : Nat) node, N.nodes[v]? = some node → ∀ a, InRange (fun j => dims.getD j 0) (v :: node.parents) a →
      prob v (a v) (configOf a node.parents) = .ok (cond v a) ∧ 0 ≤ cond v a ∧
        ∑ y ∈ Finset.range (dims.getD v 0), cond v (a.set v y) = 1)
    {alpha : Int} (ha : 0 < alpha) (rnd : Nat → Nat → Nat)
    {E : List (Nat × Nat)}
    (hE : 0 < weight (fun j => dims.getD j 0) dims.length (fun a => ∏ u ∈ Finset.range dims.length, cond u a) (Agrees E)) {η : ℝ} (hη : 0 < η) :
    Filter.Tendsto (fun m : Nat => uniformDraws m dims.length
      {w | ¬ ∀ samples N' (pts : List (Table ℝ)), generateSamples inversion N prob m (drawsOf w) = .ok (samples, N') →
        learnParams N (columnsOf N.nodes.length samples) N.nodes.length m alpha rnd [] = .ok pts → ∀ q x,
        |posterior (fun j => dims.getD j 0) dims.length (joint pts) E q x -
          posterior (fun j => dims.getD j 0) dims.length (fun a => ∏ v ∈ Finset.range dims.length, cond v a) E q x| < η})
      Filter.atTop (nhds 0) := by
  obtain ⟨N0, h1, h2, h3, h4⟩ := run_shape hops hpos
  rw [hN] at h1
  cases h1
  obtain ⟨ε, hε, hstable⟩ := answers_close hpos hne hops hN cond hcond hE hη
  refine tendsto_of_tendsto_of_tendsto_of_le_of_le tendsto_const_nhds (C100_consistent hpos hne hops hN cond hcond ha rnd hε)
    (fun _ => zero_le) (fun m => measure_mono ?_)
  intro w hw
  by_contra hgood
  apply hw
  intro samples N' pts g1 l1' q x
  obtain ⟨samples', N'', pts', J, r1, r2, -, hcols, l2, hpts, -⟩ := learned_run hpos hne hops hN hwc (order := id) (cord := List.range)
    (fun l => List.Perm.refl l) (fun m => List.Perm.refl _) cond hcond ha rnd m w
  rw [g1] at r1
  cases r1
  rw [l1'] at r2
  cases r2
  have hlen : pts.length = dims.length := by rw [hpts.1, h2]
  have hj : ∀ a, joint pts a = ∏ v ∈ Finset.range dims.length, nodeFactor pts v a := by
    intro a
    rw [joint_eq_order (List.Perm.refl _), hlen, Finset.prod_range, ← List.prod_ofFn]
    congr 1
    apply List.ext_getElem
    · simp
    · intro i i1 i2; simp
  have hnf : ∀ v < dims.length, ∃ node T, N.nodes[v]? = some node ∧ pts[v]? = some T ∧
      IsFrequencyTable (fun j => dims.getD j 0) (samples.map asg) alpha v node.parents T := by
    intro v hv
    have hn : N.nodes[v]? = some (N.nodes[v]'(by omega)) := List.getElem?_eq_getElem _
    obtain ⟨T, k1, k2⟩ := l2 v _ hn
    exact ⟨_, T, hn, k1, k2⟩
  have := hstable (nodeFactor pts) ?_ ?_ q x
  · have e : (fun a => ∏ v ∈ Finset.range dims.length, nodeFactor pts v a) = joint pts := by funext a; exact (hj a).symm
    rw [e] at this
    exact this
  · intro v hv o
    obtain ⟨node, T, k1, k2, k3⟩ := hnf v hv
    rw [nodeFactor_eq k2]
    have := (frequencyTable_normalised ha (fun r hr' => hcols.lt r hr' v hv) k3).1 o.asg (by
      intro p hp
      apply Outcome.asg_lt o p
      rw [List.mem_range, ← h2]
      rcases List.mem_cons.1 hp with rfl | h
      · omega
      · exact (h3.parents v _ k1).2.1 p h)
    exact ⟨this.1.le, this.2.1⟩
  · intro v node hnode o hpo
    by_contra hcon
    apply hgood
    refine ⟨v, node, hnode, o, hpo, ?_⟩
    rintro ⟨samples', N'', pts', T', k1, k2, k3, k4⟩
    rw [g1] at k1
    cases k1
    rw [l1'] at k2
    cases k2
    rw [nodeFactor_eq k3] at hcon
    exact hcon k4

/-- C101.  Samples are drawn from a network, the parameters are learned from them for the same graph, and a junction tree built from the
learned tables is queried.  With more and more samples, the probability that its answer differs from the conditional probability in the
network the samples were drawn from by `η` or more tends to 0, for every evidence of positive probability. -/
theorem C101_answers (hpos : ∀ d ∈ dims, 0 < d) (hne : dims ≠ []) (hops : ∀ op ∈ ops, OpInRange dims.length op)
    (hN : (Net.empty dims).run ops = .ok N) (hwc : WeaklyConnected N) {order : List (Nat × Nat) → List (Nat × Nat)} {cord : Nat → List Nat}
    (horder : ∀ l, (order l).Perm l) (hcord : ∀ m, (cord m).Perm (List.range m)) (cond : Nat → Assignment → ℝ)
    (hcond : ∀ (v : Nat) node, N.nodes[v]? = some node → ∀ a, InRange (fun j => dims.getD j 0) (v :: node.parents) a →
      prob v (a v) (configOf a node.parents) = .ok (cond v a) ∧ 0 ≤ cond v a ∧
        ∑ y ∈ Finset.range (dims.getD v 0), cond v (a.set v y) = 1)
    {alpha : Int} (ha : 0 < alpha) (rnd : Nat → Nat → Nat)
    {E : List (Nat × Nat)} (hEn : (E.map Prod.fst).Nodup) (hEr : ∀ e ∈ E, e.1 < dims.length ∧ e.2 < dims.getD e.1 0)
    (hE : 0 < weight (fun j => dims.getD j 0) dims.length (fun a => ∏ u ∈ Finset.range dims.length, cond u a) (Agrees E))
    {q x : Nat} (hq : q < dims.length) (hqE : q ∉ E.map Prod.fst) (hx : x < dims.getD q 0) {η : ℝ} (hη : 0 < η) :
    Filter.Tendsto (fun m : Nat => uniformDraws m dims.length
      {w | ¬ AnswerClose N (fun j => dims.getD j 0) prob alpha rnd order cord m (drawsOf w) E q x
        (posterior (fun j => dims.getD j 0) dims.length (fun a => ∏ v ∈ Finset.range dims.length, cond v a) E q x) η})
      Filter.atTop (nhds 0) := by
  refine tendsto_of_tendsto_of_tendsto_of_le_of_le tendsto_const_nhds (learned_close hpos hne hops hN hwc cond hcond ha rnd hE hη)
    (fun _ => zero_le) (fun m => measure_mono ?_)
  intro w hw hgood
  apply hw
  obtain ⟨samples, N', pts, J, r1, r2, r3, -, -, r4, r5, r6⟩ := learned_run hpos hne hops hN hwc horder hcord cond hcond ha rnd m w
  obtain ⟨J', T, t1, t2, -, -, t3⟩ := C42_posterior hops hN hne hwc horder hcord r4 r5 hEn (fun e he => (hEr e he).1) (r6 E hEn hEr) hq hqE
  rw [r3] at t1
  cases t1
  exact ⟨samples, N', pts, J, T, _, r1, r2, r3, t2, t3 x hx, hgood samples N' pts r1 r2 q x⟩

end answers

/-- For two variables, the second one copying the first with probability 3/4: the learned network's answer for
P(node 1 = 0 | node 0 = 0) tends to 3/4. -/
example : ∃ N, (Net.empty [2, 2]).run [.addDirected 0 1] = .ok N ∧ ∀ η : ℝ, 0 < η →
    Filter.Tendsto (fun m : Nat => uniformDraws m 2
      {w | ¬ AnswerClose N (fun j => [2, 2].getD j 0) coinProb 1 (fun _ _ => 0) id List.range m (drawsOf w) [(0, 0)] 1 0 (3 / 4) η})
      Filter.atTop (nhds 0) := by
  obtain ⟨N, h1, hw, _, h2⟩ := coin_ok
  refine ⟨N, h1, fun η hη => ?_⟩
  have := C101_answers (dims := [2, 2]) (by simp) (by simp) (by simp [OpInRange]) h1 hw (order := id) (cord := List.range)
    (fun _ => List.Perm.refl _) (fun _ => List.Perm.refl _) coinCond h2 (alpha := 1) one_pos (fun _ _ => 0) (E := [(0, 0)]) (by simp) (by simp)
    (by
      simp [weight, sumOut, List.range_succ, Agrees, coinCond, Finset.sum_range_succ, Finset.prod_range_succ, Assignment.set]
      norm_num) (q := 1) (x := 0) (by simp) (by simp) (by simp) hη
  have e : posterior (fun j => [2, 2].getD j 0) [2, 2].length (fun a => ∏ v ∈ Finset.range [2, 2].length, coinCond v a) [(0, 0)] 1 0 = 3 / 4 := by
    simp [posterior, weight, sumOut, List.range_succ, Agrees, coinCond, Finset.sum_range_succ, Finset.prod_range_succ, Assignment.set]
    norm_num
  rw [e] at this
  exact this

end FastPGM
