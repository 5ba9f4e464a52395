import Verif.Props.RandomAnswers
import Verif.Props.Detection
import Verif.Props.Coherence
import Verif.Spec.Classification

/-!
C105, C106: classification with a network whose parameters are learned from more and more samples.
-/

namespace FastPGM

open Spec MeasureTheory

/-! ### Classifiers -/

theorem allBut_fst (n q : Nat) (a : Assignment) : (allBut n q a).map Prod.fst = (List.range n).filter (fun v => v ≠ q) := by
  unfold allBut
  rw [List.map_map]
  exact List.map_id _

theorem allBut_nodup (n q : Nat) (a : Assignment) : ((allBut n q a).map Prod.fst).Nodup := by
  rw [allBut_fst]
  exact List.nodup_range.filter _

theorem allBut_not_mem (n q : Nat) (a : Assignment) : q ∉ (allBut n q a).map Prod.fst := by
  rw [allBut_fst]
  simp

theorem allBut_lt {card : Nat → Nat} {n q : Nat} {a : Assignment} (ha : InRange card (List.range n) a) :
    ∀ e ∈ allBut n q a, e.1 < n ∧ e.2 < card e.1 := by
  intro e he
  obtain ⟨v, hv, rfl⟩ := List.mem_map.1 he
  have hv' := (List.mem_filter.1 hv).1
  exact ⟨List.mem_range.1 hv', ha v hv'⟩

theorem agrees_allBut {n q : Nat} {a b : Assignment} : Agrees (allBut n q a) b ↔ allBut n q b = allBut n q a := by
  unfold allBut
  rw [List.map_inj_left]
  constructor
  · intro h v hv
    rw [h (v, a v) (List.mem_map.2 ⟨v, hv, rfl⟩)]
  · intro h e he
    obtain ⟨v, hv, rfl⟩ := List.mem_map.1 he
    exact (Prod.mk.inj (h v hv)).2

section classifiers

variable {card : Nat → Nat} {n q : Nat} {p : Assignment → ℝ}

/-- All evidence that can occur. -/
def evidences (card : Nat → Nat) (n q : Nat) : Finset (List (Nat × Nat)) :=
  Finset.univ.image (fun o : Outcome card n => allBut n q o.asg)

theorem sum_evidences (f : List (Nat × Nat) → Assignment → ℝ) :
    ∑ E ∈ evidences card n q, ∑ o : Outcome card n, (if Agrees E o.asg then f E o.asg else 0) =
      ∑ o : Outcome card n, f (allBut n q o.asg) o.asg := by
  rw [Finset.sum_comm]
  refine Finset.sum_congr rfl (fun o _ => ?_)
  rw [Finset.sum_eq_single (allBut n q o.asg)]
  · rw [if_pos (agrees_allBut.2 rfl)]
  · intro E hE hne
    obtain ⟨o', _, rfl⟩ := Finset.mem_image.1 hE
    rw [if_neg (fun h => hne (agrees_allBut.1 h).symm)]
  · intro h
    exact absurd (Finset.mem_image.2 ⟨o, Finset.mem_univ _, rfl⟩) h

theorem hitRate_eq (label : List (Nat × Nat) → Nat) :
    hitRate card n p q label = ∑ E ∈ evidences card n q, weight card n p (fun a => Agrees E a ∧ a q = label E) := by
  unfold hitRate weight
  rw [sumOut_outcomes, ← sum_evidences (fun E a => if a q = label E then p a else 0)]
  refine Finset.sum_congr rfl (fun E _ => ?_)
  rw [sumOut_outcomes]
  refine Finset.sum_congr rfl (fun o _ => ?_)
  by_cases h : Agrees E o.asg <;> simp [h]

theorem weight_nonneg' (hp : ∀ o : Outcome card n, 0 ≤ p o.asg) (e : Assignment → Prop) [DecidablePred e] : 0 ≤ weight card n p e := by
  unfold weight
  rw [sumOut_outcomes]
  exact Finset.sum_nonneg (fun o _ => by split; exacts [hp o, le_rfl])

/-- A classifier whose label is, for every evidence of positive probability, at most `η` less probable than any other is at most `η` less
accurate than any other. -/
theorem C105_labels_suffice (hp : ∀ o : Outcome card n, 0 ≤ p o.asg) (hp1 : ∑ o : Outcome card n, p o.asg = 1) (hq : q < n)
    {label : List (Nat × Nat) → Nat} {η : ℝ} (hη : 0 ≤ η)
    (h : ∀ E ∈ evidences card n q, 0 < weight card n p (Agrees E) → ∀ x < card q, posterior card n p E q x ≤ posterior card n p E q (label E) + η)
    (other : List (Nat × Nat) → Nat) : hitRate card n p q other ≤ hitRate card n p q label + η := by
  have hw1 : ∑ E ∈ evidences card n q, weight card n p (Agrees E) = 1 := by
    rw [← hp1, ← sum_evidences (fun _ a => p a)]
    refine Finset.sum_congr rfl (fun E _ => ?_)
    unfold weight
    rw [sumOut_outcomes]
  rw [hitRate_eq, hitRate_eq, ← mul_one η, ← hw1, Finset.mul_sum, ← Finset.sum_add_distrib]
  refine Finset.sum_le_sum (fun E hE => ?_)
  have hwn := weight_nonneg' (card := card) (n := n) hp
  by_cases hx : other E < card q
  · rcases eq_or_lt_of_le (hwn (Agrees E)) with h0 | h0
    · have hz : weight card n p (fun a => Agrees E a ∧ a q = other E) ≤ weight card n p (Agrees E) := by
        rw [← weight_cases (e := Agrees E) hq]
        exact Finset.single_le_sum (f := fun x => weight card n p (fun a => Agrees E a ∧ a q = x)) (fun x _ => hwn _) (Finset.mem_range.2 hx)
      have := hwn (fun a => Agrees E a ∧ a q = label E)
      rw [← h0] at hz ⊢
      linarith
    · have := mul_le_mul_of_nonneg_right (h E hE h0 _ hx) h0.le
      unfold posterior at this
      rw [add_mul, div_mul_cancel₀ _ h0.ne', div_mul_cancel₀ _ h0.ne'] at this
      exact this
  · have hz : weight card n p (fun a => Agrees E a ∧ a q = other E) = 0 := by
      unfold weight
      rw [sumOut_outcomes]
      refine Finset.sum_eq_zero (fun o _ => if_neg ?_)
      rintro ⟨-, h2⟩
      have := Outcome.asg_lt o q (List.mem_range.2 hq)
      omega
    rw [hz]
    exact add_nonneg (hwn _) (mul_nonneg hη (hwn _))

end classifiers

/-! ### Learned classifiers -/

section learned

variable {dims : List Nat} {ops : List EdgeOp} {N : Net} {prob : Nat → Nat → Config → Except Fault ℝ}

/-- The label that a junction tree built on the tables learned from `m` samples of `N` predicts for node `q` given the evidence `E` is legal and,
under the distribution `p`, at most `η` less probable than any other value. -/
def LabelNear (N : Net) (card : Nat → Nat) (prob : Nat → Nat → Config → Except Fault ℝ) (alpha : Int) (rnd : Nat → Nat → Nat)
    (order : List (Nat × Nat) → List (Nat × Nat)) (cord : Nat → List Nat) (m : Nat)
    (draws : Nat → Nat → {u : ℝ // 0 < u ∧ u ≤ 1}) (p : Assignment → ℝ) (E : List (Nat × Nat)) (q : Nat) (η : ℝ) : Prop :=
  ∃ samples N', ∃ pts : List (Table ℝ), ∃ J label, generateSamples inversion N prob m draws = .ok (samples, N') ∧
    learnParams N (columnsOf N.nodes.length samples) N.nodes.length m alpha rnd [] = .ok pts ∧
    buildJunctionTree N card pts order cord = .ok J ∧ J.predict E q = .ok (label, J) ∧ label < card q ∧
    ∀ x < card q, posterior card N.nodes.length p E q x ≤ posterior card N.nodes.length p E q label + η

/-- C105.  The predicted label is nearly the most probable one in the end: for every evidence of positive probability, the probability that the
label predicted with the network learned from `m` samples is by more than `η` less probable than another one tends to 0. -/
theorem C105_label (hpos : ∀ d ∈ dims, 0 < d) (hne : dims ≠ []) (hops : ∀ op ∈ ops, OpInRange dims.length op)
    (hN : (Net.empty dims).run ops = .ok N) (hwc : WeaklyConnected N) {order : List (Nat × Nat) → List (Nat × Nat)} {cord : Nat → List Nat}
    (horder : ∀ l, (order l).Perm l) (hcord : ∀ m, (cord m).Perm (List.range m)) (cond : Nat → Assignment → ℝ)
    (hcond : ∀ (v : Nat) node, N.nodes[v]? = some node → ∀ a, InRange (fun j => dims.getD j 0) (v :: node.parents) a →
      prob v (a v) (configOf a node.parents) = .ok (cond v a) ∧ 0 ≤ cond v a ∧
        ∑ y ∈ Finset.range (dims.getD v 0), cond v (a.set v y) = 1)
    {alpha : Int} (ha : 0 < alpha) (rnd : Nat → Nat → Nat)
    {E : List (Nat × Nat)} (hEn : (E.map Prod.fst).Nodup) (hEr : ∀ e ∈ E, e.1 < dims.length ∧ e.2 < dims.getD e.1 0)
    (hE : 0 < weight (fun j => dims.getD j 0) dims.length (fun a => ∏ u ∈ Finset.range dims.length, cond u a) (Agrees E))
    {q : Nat} (hq : q < dims.length) (hqE : q ∉ E.map Prod.fst) {η : ℝ} (hη : 0 < η) :
    Filter.Tendsto (fun m : Nat => uniformDraws m dims.length
      {w | ¬ LabelNear N (fun j => dims.getD j 0) prob alpha rnd order cord m (drawsOf w)
        (fun a => ∏ v ∈ Finset.range dims.length, cond v a) E q η}) Filter.atTop (nhds 0) := by
  refine tendsto_of_tendsto_of_tendsto_of_le_of_le tendsto_const_nhds (learned_close hpos hne hops hN hwc cond hcond ha rnd hE (half_pos hη))
    (fun _ => zero_le) (fun m => measure_mono ?_)
  intro w hw hgood
  apply hw
  obtain ⟨samples, N', pts, J, r1, r2, r3, -, -, r4, r5, r6⟩ := learned_run hpos hne hops hN hwc horder hcord cond hcond ha rnd m w
  obtain ⟨J', label, t1, t2, t3, t4, -⟩ := C42_predict hops hN hne hwc horder hcord r4 r5 hEn (fun e he => (hEr e he).1) (r6 E hEn hEr) hq hqE
  rw [r3] at t1
  cases t1
  refine ⟨samples, N', pts, J, label, r1, r2, r3, t2, t3, fun x hx => ?_⟩
  have h1 := hgood samples N' pts r1 r2 q x
  have h2 := hgood samples N' pts r1 r2 q label
  rw [(netInv_of_run hops hN).2]
  rw [abs_lt] at h1 h2
  linarith [t4 x hx, h1.1, h2.2]

theorem exists_margin {f : Nat → ℝ} {c : ℝ} (s : Finset Nat) (h : ∀ x ∈ s, f x < c) : ∃ η > 0, ∀ x ∈ s, f x + η < c := by
  induction s using Finset.induction_on with
  | empty => exact ⟨1, one_pos, by simp⟩
  | insert a s _ ih =>
    obtain ⟨η, h1, h2⟩ := ih (fun x hx => h x (Finset.mem_insert_of_mem hx))
    have h3 := h a (Finset.mem_insert_self a s)
    refine ⟨min η ((c - f a) / 2), lt_min h1 (by linarith), fun x hx => ?_⟩
    rcases Finset.mem_insert.1 hx with rfl | hx
    · have := min_le_right η ((c - f x) / 2)
      linarith
    · have := min_le_left η ((c - f a) / 2)
      linarith [h2 x hx]

/-- The label that a junction tree built on the tables learned from `m` samples of `N` predicts for node `q` given the evidence `E`. -/
def Predicted (N : Net) (card : Nat → Nat) (prob : Nat → Nat → Config → Except Fault ℝ) (alpha : Int) (rnd : Nat → Nat → Nat)
    (order : List (Nat × Nat) → List (Nat × Nat)) (cord : Nat → List Nat) (m : Nat)
    (draws : Nat → Nat → {u : ℝ // 0 < u ∧ u ≤ 1}) (E : List (Nat × Nat)) (q label : Nat) : Prop :=
  ∃ samples N', ∃ pts : List (Table ℝ), ∃ J, generateSamples inversion N prob m draws = .ok (samples, N') ∧
    learnParams N (columnsOf N.nodes.length samples) N.nodes.length m alpha rnd [] = .ok pts ∧
    buildJunctionTree N card pts order cord = .ok J ∧ J.predict E q = .ok (label, J)

/-- C105.  If one value is more probable than all others, it is the predicted label in the end. -/
theorem C105_best_label (hpos : ∀ d ∈ dims, 0 < d) (hne : dims ≠ []) (hops : ∀ op ∈ ops, OpInRange dims.length op)
    (hN : (Net.empty dims).run ops = .ok N) (hwc : WeaklyConnected N) {order : List (Nat × Nat) → List (Nat × Nat)} {cord : Nat → List Nat}
    (horder : ∀ l, (order l).Perm l) (hcord : ∀ m, (cord m).Perm (List.range m)) (cond : Nat → Assignment → ℝ)
    (hcond : ∀ (v : Nat) node, N.nodes[v]? = some node → ∀ a, InRange (fun j => dims.getD j 0) (v :: node.parents) a →
      prob v (a v) (configOf a node.parents) = .ok (cond v a) ∧ 0 ≤ cond v a ∧
        ∑ y ∈ Finset.range (dims.getD v 0), cond v (a.set v y) = 1)
    {alpha : Int} (ha : 0 < alpha) (rnd : Nat → Nat → Nat)
    {E : List (Nat × Nat)} (hEn : (E.map Prod.fst).Nodup) (hEr : ∀ e ∈ E, e.1 < dims.length ∧ e.2 < dims.getD e.1 0)
    (hE : 0 < weight (fun j => dims.getD j 0) dims.length (fun a => ∏ u ∈ Finset.range dims.length, cond u a) (Agrees E))
    {q best : Nat} (hq : q < dims.length) (hqE : q ∉ E.map Prod.fst) (hb : best < dims.getD q 0)
    (hbest : ∀ x < dims.getD q 0, x ≠ best →
      posterior (fun j => dims.getD j 0) dims.length (fun a => ∏ u ∈ Finset.range dims.length, cond u a) E q x <
        posterior (fun j => dims.getD j 0) dims.length (fun a => ∏ u ∈ Finset.range dims.length, cond u a) E q best) :
    Filter.Tendsto (fun m : Nat => uniformDraws m dims.length
      {w | ¬ Predicted N (fun j => dims.getD j 0) prob alpha rnd order cord m (drawsOf w) E q best}) Filter.atTop (nhds 0) := by
  obtain ⟨η, hη, hgap⟩ := exists_margin ((Finset.range (dims.getD q 0)).erase best) (fun x hx =>
    hbest x (Finset.mem_range.1 (Finset.mem_of_mem_erase hx)) (Finset.ne_of_mem_erase hx))
  refine tendsto_of_tendsto_of_tendsto_of_le_of_le tendsto_const_nhds
    (C105_label hpos hne hops hN hwc horder hcord cond hcond ha rnd hEn hEr hE hq hqE hη) (fun _ => zero_le) (fun m => measure_mono ?_)
  rintro w hw ⟨samples, N', pts, J, label, r1, r2, r3, r4, r5, r6⟩
  apply hw
  obtain rfl : label = best := by
    by_contra h
    have h1 := r6 best hb
    have h2 := hgap label (Finset.mem_erase.2 ⟨h, Finset.mem_range.2 r5⟩)
    rw [(netInv_of_run hops hN).2] at h1
    linarith
  exact ⟨samples, N', pts, J, r1, r2, r3, r4⟩

/-- A junction tree built on the tables learned from `m` samples of `N` predicts a label of node `q` for all values of the other nodes, and under
the distribution `p` no classifier is by more than `η` more accurate. -/
def NearBest (N : Net) (card : Nat → Nat) (prob : Nat → Nat → Config → Except Fault ℝ) (alpha : Int) (rnd : Nat → Nat → Nat)
    (order : List (Nat × Nat) → List (Nat × Nat)) (cord : Nat → List Nat) (m : Nat)
    (draws : Nat → Nat → {u : ℝ // 0 < u ∧ u ≤ 1}) (p : Assignment → ℝ) (q : Nat) (η : ℝ) : Prop :=
  ∃ samples N', ∃ pts : List (Table ℝ), ∃ J label, generateSamples inversion N prob m draws = .ok (samples, N') ∧
    learnParams N (columnsOf N.nodes.length samples) N.nodes.length m alpha rnd [] = .ok pts ∧
    buildJunctionTree N card pts order cord = .ok J ∧
    (∀ a, InRange card (List.range N.nodes.length) a → J.predict (allBut N.nodes.length q a) q = .ok (label (allBut N.nodes.length q a), J)) ∧
    ∀ other, hitRate card N.nodes.length p q other ≤ hitRate card N.nodes.length p q label + η

/-- C105.  The learned classifier is nearly the best in the end: the probability that the accuracy of the network learned from `m` samples, on
data that follow the distribution of the network the samples are drawn from, is by more than `η` lower than that of some classifier tends to 0. -/
theorem C105_accuracy (hpos : ∀ d ∈ dims, 0 < d) (hne : dims ≠ []) (hops : ∀ op ∈ ops, OpInRange dims.length op)
    (hN : (Net.empty dims).run ops = .ok N) (hwc : WeaklyConnected N) {order : List (Nat × Nat) → List (Nat × Nat)} {cord : Nat → List Nat}
    (horder : ∀ l, (order l).Perm l) (hcord : ∀ m, (cord m).Perm (List.range m)) (cond : Nat → Assignment → ℝ)
    (hcond : ∀ (v : Nat) node, N.nodes[v]? = some node → ∀ a, InRange (fun j => dims.getD j 0) (v :: node.parents) a →
      prob v (a v) (configOf a node.parents) = .ok (cond v a) ∧ 0 ≤ cond v a ∧
        ∑ y ∈ Finset.range (dims.getD v 0), cond v (a.set v y) = 1)
    {alpha : Int} (ha : 0 < alpha) (rnd : Nat → Nat → Nat) {q : Nat} (hq : q < dims.length) {η : ℝ} (hη : 0 < η) :
    Filter.Tendsto (fun m : Nat => uniformDraws m dims.length
      {w | ¬ NearBest N (fun j => dims.getD j 0) prob alpha rnd order cord m (drawsOf w)
        (fun a => ∏ v ∈ Finset.range dims.length, cond v a) q η}) Filter.atTop (nhds 0) := by
  classical
  obtain ⟨hP, hP1, -⟩ := law_ok hpos hops hN cond hcond
  have hlen := (netInv_of_run hops hN).2
  set card : Nat → Nat := fun j => dims.getD j 0 with hcard
  set p : Assignment → ℝ := fun a => ∏ v ∈ Finset.range dims.length, cond v a with hp
  set S := (evidences card dims.length q).filter (fun E => 0 < weight card dims.length p (Agrees E)) with hS
  have hsum : Filter.Tendsto (fun m : Nat => ∑ E ∈ S, uniformDraws m dims.length
      {w | ¬ LabelNear N card prob alpha rnd order cord m (drawsOf w) p E q η}) Filter.atTop (nhds 0) := by
    rw [← Finset.sum_const_zero (s := S)]
    refine tendsto_finsetSum _ (fun E hE => ?_)
    obtain ⟨h1, h2⟩ := Finset.mem_filter.1 hE
    obtain ⟨o, -, rfl⟩ := Finset.mem_image.1 h1
    exact C105_label hpos hne hops hN hwc horder hcord cond hcond ha rnd (allBut_nodup _ _ _) (allBut_lt (Outcome.asg_lt o)) h2 hq
      (allBut_not_mem _ _ _) hη
  refine tendsto_of_tendsto_of_tendsto_of_le_of_le tendsto_const_nhds hsum (fun _ => zero_le) (fun m => ?_)
  refine le_trans (measure_mono ?_) (measure_biUnion_finset_le S _)
  intro w hw
  by_contra hgood
  apply hw
  have hgood : ∀ E ∈ S, LabelNear N card prob alpha rnd order cord m (drawsOf w) p E q η := by
    intro E hE
    by_contra h
    exact hgood (Set.mem_biUnion hE h)
  obtain ⟨samples, N', pts, J, r1, r2, r3, -, -, r4, r5, r6⟩ := learned_run hpos hne hops hN hwc horder hcord cond hcond ha rnd m w
  have hpred : ∀ E : List (Nat × Nat), (E.map Prod.fst).Nodup → (∀ e ∈ E, e.1 < dims.length ∧ e.2 < dims.getD e.1 0) → q ∉ E.map Prod.fst →
      ∃ label, J.predict E q = .ok (label, J) := by
    intro E hEn hEr hqE
    obtain ⟨J', label, t1, t2, -⟩ := C42_predict hops hN hne hwc horder hcord r4 r5 hEn (fun e he => (hEr e he).1) (r6 E hEn hEr) hq hqE
    rw [r3] at t1
    cases t1
    exact ⟨label, t2⟩
  let label : List (Nat × Nat) → Nat := fun E => if h : ∃ l, J.predict E q = .ok (l, J) then h.choose else 0
  have hlabel : ∀ E l, J.predict E q = .ok (l, J) → label E = l := by
    intro E l h
    have he : ∃ l, J.predict E q = .ok (l, J) := ⟨l, h⟩
    have h1 := h.symm.trans he.choose_spec
    simp only [Except.ok.injEq, Prod.mk.injEq, and_true] at h1
    simp only [label, dif_pos he]
    exact h1.symm
  refine ⟨samples, N', pts, J, label, r1, r2, r3, ?_, ?_⟩
  · intro a har
    rw [hlen] at har ⊢
    obtain ⟨l, hl⟩ := hpred (allBut dims.length q a) (allBut_nodup _ _ _) (allBut_lt har) (allBut_not_mem _ _ _)
    rw [hlabel _ _ hl]
    exact hl
  · rw [hlen]
    refine C105_labels_suffice hP hP1 hq hη.le (fun E hE h0 => ?_)
    obtain ⟨samples', N'', pts', J', l, k1, k2, k3, k4, k5, k6⟩ := hgood E (Finset.mem_filter.2 ⟨hE, h0⟩)
    rw [r1] at k1
    cases k1
    rw [r2] at k2
    cases k2
    rw [r3] at k3
    cases k3
    rw [hlabel _ _ k4]
    rw [hlen] at k6
    exact k6

/-- The accuracy that the junction tree `J` reaches on a test set of `m` samples of `N`, node `q` being predicted from all others, is closer than
`δ` to `r`. -/
def Reported (N : Net) (prob : Nat → Nat → Config → Except Fault ℝ) (J : JTree ℝ) (m : Nat) (draws : Nat → Nat → {u : ℝ // 0 < u ∧ u ≤ 1})
    (q : Nat) (r δ : ℝ) : Prop :=
  ∃ samples N' labels acc, generateSamples inversion N prob m draws = .ok (samples, N') ∧
    J.predictAll (samples.map (fun s => allBut N.nodes.length q (asg s))) q = .ok (labels, J) ∧
    accuracy (samples.map (fun s => asg s q)) labels = .ok acc ∧ |acc - r| < δ

/-- C106.  The reported accuracy estimates the true one: for a test set of `m ≥ 20` samples of a network, the accuracy reported for a junction tree
deviates from the probability that its label is right by `δ` or more with probability at most `1 / (4 m δ²)`. -/
theorem C106_reported (hpos : ∀ d ∈ dims, 0 < d) (hne : dims ≠ []) (hops : ∀ op ∈ ops, OpInRange dims.length op)
    (hN : (Net.empty dims).run ops = .ok N) (cond : Nat → Assignment → ℝ)
    (hcond : ∀ (v : Nat) node, N.nodes[v]? = some node → ∀ a, InRange (fun j => dims.getD j 0) (v :: node.parents) a →
      prob v (a v) (configOf a node.parents) = .ok (cond v a) ∧ 0 ≤ cond v a ∧
        ∑ y ∈ Finset.range (dims.getD v 0), cond v (a.set v y) = 1)
    {M : Net} {card : Nat → Nat} {pts : List (Table ℝ)} {order : List (Nat × Nat) → List (Nat × Nat)} {cord : Nat → List Nat} {J : JTree ℝ}
    (hJ : buildJunctionTree M card pts order cord = .ok J) {q : Nat} (hq : q < dims.length) {label : List (Nat × Nat) → Nat}
    (hlabel : ∀ a, InRange (fun j => dims.getD j 0) (List.range dims.length) a →
      J.predict (allBut dims.length q a) q = .ok (label (allBut dims.length q a), J)) {δ : ℝ} (hδ : 0 < δ) {m : Nat} (hm : 20 ≤ m) :
    uniformDraws m dims.length {w | ¬ Reported N prob J m (drawsOf w) q
        (hitRate (fun j => dims.getD j 0) dims.length (fun a => ∏ u ∈ Finset.range dims.length, cond u a) q label) δ} ≤
      ENNReal.ofReal (1 / (4 * m * δ ^ 2)) := by
  classical
  obtain ⟨hP, hP1, -⟩ := law_ok hpos hops hN cond hcond
  have hlen := (netInv_of_run hops hN).2
  set r := hitRate (fun j => dims.getD j 0) dims.length (fun a => ∏ u ∈ Finset.range dims.length, cond u a) q label with hr
  let B : Outcome (fun j => dims.getD j 0) dims.length → Prop := fun o => o.asg q = label (allBut dims.length q o.asg)
  have hB : ∑ o, (if B o then law dims cond o else 0) = r := by
    rw [hr]
    unfold hitRate weight
    rw [sumOut_outcomes]
    rfl
  refine le_trans (le_trans (measure_mono ?_) (samples_bound hpos hne hops hN cond hcond
    (bad := fun s : Fin m → Outcome (fun j => dims.getD j 0) dims.length => δ ≤ |(∑ i, if B (s i) then (1 : ℝ) else 0) / m - r|)))
    (ENNReal.ofReal_le_ofReal (frequency_event hP hP1 (B := B) hB hδ (by omega)))
  rintro w hw ⟨samples, N', s, g1, glen, gs, -, -, -, g3⟩
  apply hw
  have hall : ∀ t ∈ samples, ∃ i, ∀ u < dims.length, asg t u = (s i).asg u := by
    intro t ht
    obtain ⟨i, hi, rfl⟩ := List.getElem_of_mem ht
    obtain ⟨t', h1, -, h2⟩ := gs ⟨i, by omega⟩
    rw [List.getElem?_eq_getElem hi] at h1
    cases h1
    exact ⟨_, h2⟩
  have hrange : ∀ t ∈ samples, InRange (fun j => dims.getD j 0) (List.range dims.length) (asg t) := by
    intro t ht v hv
    obtain ⟨i, hi⟩ := hall t ht
    rw [hi v (List.mem_range.1 hv)]
    exact Outcome.asg_lt (s i) v hv
  have hpred : J.predictAll (samples.map (fun s => allBut dims.length q (asg s))) q =
      .ok (samples.map (fun t => label (allBut dims.length q (asg t))), J) := by
    rw [(C43_predictAll hJ _ q).1 (by rw [List.length_map, glen]; exact hm)]
    have : (samples.map (fun s => allBut dims.length q (asg s))).mapM (fun E => do return (← J.predict E q).1) =
        (.ok ((samples.map (fun s => allBut dims.length q (asg s))).map label) : Except Fault _) := by
      apply mapM_ok
      intro E hE
      obtain ⟨t, ht, rfl⟩ := List.mem_map.1 hE
      rw [hlabel _ (hrange t ht)]
      rfl
    rw [this, List.map_map]
    rfl
  have hacc := C48_accuracy (K := ℝ) (samples.map (fun s => asg s q)) (samples.map (fun t => label (allBut dims.length q (asg t)))) (by
    intro h
    rw [List.map_eq_nil_iff] at h
    rw [h] at glen
    simp at glen
    omega) (by simp)
  refine ⟨samples, N', _, _, g1, by rw [hlen]; exact hpred, hacc, ?_⟩
  have hcount : ((((List.range (samples.map (fun s => asg s q)).length).filter (fun i => (samples.map (fun s => asg s q))[i]? =
      (samples.map (fun t => label (allBut dims.length q (asg t))))[i]?)).length : Nat) : ℝ) = ∑ i, if B (s i) then (1 : ℝ) else 0 := by
    rw [List.length_map, glen]
    have e : ∀ (p : Nat → Prop) [DecidablePred p], ((((List.range m).filter (fun i => p i)).length : Nat) : ℝ) =
        ∑ i : Fin m, if p i then (1 : ℝ) else 0 := by
      intro p _
      have : ((List.range m).filter (fun i => p i)).length = ((Finset.range m).filter p).card := rfl
      rw [this, ← Finset.sum_boole, Finset.sum_range]
    rw [e]
    refine Finset.sum_congr rfl (fun i _ => ?_)
    congr 1
    obtain ⟨t, h1, -, h2⟩ := gs i
    rw [List.getElem?_map, List.getElem?_map, h1]
    have h3 : allBut dims.length q (asg t) = allBut dims.length q (s i).asg := by
      unfold allBut
      apply List.map_congr_left
      intro v hv
      rw [h2 v (List.mem_range.1 (List.mem_filter.1 hv).1)]
    simp only [Option.map_some, Option.some.injEq, eq_iff_iff, B]
    rw [h2 q hq, h3]
  rw [hcount, List.length_map, glen]
  exact not_le.1 g3

/-- A junction tree built on the tables learned from `m` samples of `N`, tested on `k ≥ 20` fresh samples, reaches an accuracy at most `η + δ`
below that of any classifier under the distribution `p`, except with probability at most `1 / (4 k δ²)`. -/
def TestedWell (N : Net) (card : Nat → Nat) (prob : Nat → Nat → Config → Except Fault ℝ) (alpha : Int) (rnd : Nat → Nat → Nat)
    (order : List (Nat × Nat) → List (Nat × Nat)) (cord : Nat → List Nat) (m : Nat)
    (draws : Nat → Nat → {u : ℝ // 0 < u ∧ u ≤ 1}) (p : Assignment → ℝ) (q : Nat) (η : ℝ) : Prop :=
  ∃ samples N', ∃ pts : List (Table ℝ), ∃ J, generateSamples inversion N prob m draws = .ok (samples, N') ∧
    learnParams N (columnsOf N.nodes.length samples) N.nodes.length m alpha rnd [] = .ok pts ∧
    buildJunctionTree N card pts order cord = .ok J ∧
    ∀ k, 20 ≤ k → ∀ δ : ℝ, 0 < δ → uniformDraws k N.nodes.length {w | ¬ ∃ tests N' labels acc,
      generateSamples inversion N prob k (drawsOf w) = .ok (tests, N') ∧
      J.predictAll (tests.map (fun s => allBut N.nodes.length q (asg s))) q = .ok (labels, J) ∧
      accuracy (tests.map (fun s => asg s q)) labels = .ok acc ∧
      ∀ other, hitRate card N.nodes.length p q other < acc + η + δ} ≤ ENNReal.ofReal (1 / (4 * k * δ ^ 2))

/-- C106.  Training and testing: the probability that the network learned from `m` samples does not reach, on a test set, nearly the accuracy of
the best classifier tends to 0. -/
theorem C106_train_and_test (hpos : ∀ d ∈ dims, 0 < d) (hne : dims ≠ []) (hops : ∀ op ∈ ops, OpInRange dims.length op)
    (hN : (Net.empty dims).run ops = .ok N) (hwc : WeaklyConnected N) {order : List (Nat × Nat) → List (Nat × Nat)} {cord : Nat → List Nat}
    (horder : ∀ l, (order l).Perm l) (hcord : ∀ m, (cord m).Perm (List.range m)) (cond : Nat → Assignment → ℝ)
    (hcond : ∀ (v : Nat) node, N.nodes[v]? = some node → ∀ a, InRange (fun j => dims.getD j 0) (v :: node.parents) a →
      prob v (a v) (configOf a node.parents) = .ok (cond v a) ∧ 0 ≤ cond v a ∧
        ∑ y ∈ Finset.range (dims.getD v 0), cond v (a.set v y) = 1)
    {alpha : Int} (ha : 0 < alpha) (rnd : Nat → Nat → Nat) {q : Nat} (hq : q < dims.length) {η : ℝ} (hη : 0 < η) :
    Filter.Tendsto (fun m : Nat => uniformDraws m dims.length
      {w | ¬ TestedWell N (fun j => dims.getD j 0) prob alpha rnd order cord m (drawsOf w)
        (fun a => ∏ v ∈ Finset.range dims.length, cond v a) q η}) Filter.atTop (nhds 0) := by
  have hlen := (netInv_of_run hops hN).2
  refine tendsto_of_tendsto_of_tendsto_of_le_of_le tendsto_const_nhds
    (C105_accuracy hpos hne hops hN hwc horder hcord cond hcond ha rnd hq hη) (fun _ => zero_le) (fun m => measure_mono ?_)
  rintro w hw ⟨samples, N', pts, J, label, r1, r2, r3, r4, r5⟩
  apply hw
  refine ⟨samples, N', pts, J, r1, r2, r3, fun k hk δ hδ => ?_⟩
  rw [hlen] at r4 r5
  have := C106_reported hpos hne hops hN cond hcond r3 hq r4 hδ hk
  rw [hlen]
  refine le_trans (measure_mono ?_) this
  rintro w' hw' ⟨tests, N'', labels, acc, k1, k2, k3, k4⟩
  rw [hlen] at k2
  refine hw' ⟨tests, N'', labels, acc, k1, k2, k3, fun other => ?_⟩
  have h1 := r5 other
  have h2 := (abs_lt.1 k4).1
  linarith

end learned

/-! ### The hypotheses can be met -/

/-- Two variables, the second one copying the first with probability 3/4: in the end value 1 of the second is predicted from value 1 of the
first. -/
example : ∃ N, (Net.empty [2, 2]).run [.addDirected 0 1] = .ok N ∧
    Filter.Tendsto (fun m : Nat => uniformDraws m 2
      {w | ¬ Predicted N (fun j => [2, 2].getD j 0) coinProb 1 (fun _ _ => 0) id List.range m (drawsOf w) [(0, 1)] 1 1})
      Filter.atTop (nhds 0) := by
  obtain ⟨N, h1, hw, _, h2⟩ := coin_ok
  refine ⟨N, h1, ?_⟩
  refine C105_best_label (dims := [2, 2]) (by simp) (by simp) (by simp [OpInRange]) h1 hw (order := id) (cord := List.range)
    (fun _ => List.Perm.refl _) (fun _ => List.Perm.refl _) coinCond h2 (alpha := 1) one_pos (fun _ _ => 0) (E := [(0, 1)]) (by simp) (by simp)
    (by
      simp [weight, sumOut, List.range_succ, Agrees, coinCond, Finset.sum_range_succ, Finset.prod_range_succ, Assignment.set]
      norm_num) (q := 1) (best := 1) (by simp) (by simp) (by simp) ?_
  intro x hx hne
  obtain rfl : x = 0 := by
    simp at hx
    omega
  simp [posterior, weight, sumOut, List.range_succ, Agrees, coinCond, Finset.sum_range_succ, Finset.prod_range_succ, Assignment.set]
  norm_num

/-- In the end the accuracy of the learned network is at least 3/4 - 1/100, that of copying the first variable being 3/4. -/
example : ∃ N, (Net.empty [2, 2]).run [.addDirected 0 1] = .ok N ∧
    hitRate (fun j => [2, 2].getD j 0) 2 (fun a => ∏ v ∈ Finset.range 2, coinCond v a) 1 (fun E => (E.map Prod.snd).sum) = 3 / 4 ∧
    Filter.Tendsto (fun m : Nat => uniformDraws m 2
      {w | ¬ NearBest N (fun j => [2, 2].getD j 0) coinProb 1 (fun _ _ => 0) id List.range m (drawsOf w)
        (fun a => ∏ v ∈ Finset.range 2, coinCond v a) 1 (1 / 100)}) Filter.atTop (nhds 0) := by
  obtain ⟨N, h1, hw, _, h2⟩ := coin_ok
  refine ⟨N, h1, ?_, ?_⟩
  · simp [hitRate, allBut, weight, sumOut, List.range_succ, coinCond, Finset.sum_range_succ, Finset.prod_range_succ, Assignment.set]
    norm_num
  · exact C105_accuracy (dims := [2, 2]) (by simp) (by simp) (by simp [OpInRange]) h1 hw (order := id) (cord := List.range)
      (fun _ => List.Perm.refl _) (fun _ => List.Perm.refl _) coinCond h2 (alpha := 1) one_pos (fun _ _ => 0) (q := 1) (by simp) (by norm_num)

/-- Training and testing it. -/
example : ∃ N, (Net.empty [2, 2]).run [.addDirected 0 1] = .ok N ∧
    Filter.Tendsto (fun m : Nat => uniformDraws m 2
      {w | ¬ TestedWell N (fun j => [2, 2].getD j 0) coinProb 1 (fun _ _ => 0) id List.range m (drawsOf w)
        (fun a => ∏ v ∈ Finset.range 2, coinCond v a) 1 (1 / 100)}) Filter.atTop (nhds 0) := by
  obtain ⟨N, h1, hw, _, h2⟩ := coin_ok
  exact ⟨N, h1, C106_train_and_test (dims := [2, 2]) (by simp) (by simp) (by simp [OpInRange]) h1 hw (order := id) (cord := List.range)
    (fun _ => List.Perm.refl _) (fun _ => List.Perm.refl _) coinCond h2 (alpha := 1) one_pos (fun _ _ => 0) (q := 1) (by simp) (by norm_num)⟩

end FastPGM
