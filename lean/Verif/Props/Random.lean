import Verif.Lemmas.Random
import Verif.Props.Sampler
import Verif.Props.Joint

/-!
C99, C100: the samples are independent draws from the joint distribution; parameters learned from them approach those of the network.
-/

namespace FastPGM

open Spec MeasureTheory

section samples

variable {dims : List Nat} {ops : List EdgeOp} {N : Net} {prob : Nat → Nat → Config → Except Fault ℝ}

theorem drawsOf_val {m n : Nat} {w : Fin m × Fin n → ℝ} (i : Fin m) (t : Fin n) (h : 0 < w (i, t) ∧ w (i, t) ≤ 1) :
    (drawsOf w i t).1 = w (i, t) := by
  unfold drawsOf
  rw [dif_pos ⟨i.2, t.2, h⟩]

theorem order_length {n : Nat} {R : Nat → Nat → Prop} {ord : List Nat} (ho : IsTopologicalOrder n R ord) : ord.Perm (List.range n) :=
  (List.perm_ext_iff_of_nodup ho.1 List.nodup_range).2 (fun v => by rw [ho.2.1, List.mem_range])

/-- Going through the variables in a topological order, every variable is visited once. -/
theorem prod_order {n : Nat} {R : Nat → Nat → Prop} {ord : List Nat} (ho : IsTopologicalOrder n R ord) {M : Type} [CommMonoid M] (f : Nat → M) :
    ∏ t : Fin n, f (ord.getD t 0) = ∏ v ∈ Finset.range n, f v := by
  have hp := order_length ho
  have hl : ord.length = n := by rw [hp.length_eq, List.length_range]
  subst hl
  have e1 : ∏ t : Fin ord.length, f (ord.getD t 0) = (ord.map f).prod := by
    rw [← List.prod_ofFn]
    congr 1
    apply List.ext_getElem
    · simp
    · intro i h1 h2
      simp at h1
      simp
  rw [e1, (hp.map f).prod_eq, Finset.prod_range, ← List.prod_ofFn]
  congr 1
  apply List.ext_getElem
  · simp
  · intro i h1 h2
    simp

/-- The random numbers for which the samples are the given ones. -/
def samplesAre (N : Net) (prob : Nat → Nat → Config → Except Fault ℝ) {m n : Nat} (xs : Fin m → Assignment) : Set (Fin m × Fin n → ℝ) :=
  {w | ∃ samples N', generateSamples inversion N prob m (drawsOf w) = .ok (samples, N') ∧ samples.length = m ∧
    ∀ i : Fin m, ∃ s, samples[i.1]? = some s ∧ ∀ v < n, s[v]? = some (xs i v)}

/-- C99.  If the random numbers are independent and uniform, the samples are independent draws from the joint distribution of the network:
the probability that the `m` samples are `xs 0, …, xs (m-1)` is the product of their joint probabilities, each of them the product over the
nodes of P(value | values of the parents). -/
theorem C99_law (hpos : ∀ d ∈ dims, 0 < d) (hne : dims ≠ []) (hops : ∀ op ∈ ops, OpInRange dims.length op)
    (hN : (Net.empty dims).run ops = .ok N) (cond : Nat → Assignment → ℝ)
    (hcond : ∀ (v : Nat) node, N.nodes[v]? = some node → ∀ a, InRange (fun j => dims.getD j 0) (v :: node.parents) a →
      prob v (a v) (configOf a node.parents) = .ok (cond v a) ∧ 0 ≤ cond v a ∧
        ∑ y ∈ Finset.range (dims.getD v 0), cond v (a.set v y) = 1)
    (m : Nat) (xs : Fin m → Assignment) (hxs : ∀ i, InRange (fun j => dims.getD j 0) (List.range dims.length) (xs i)) :
    uniformDraws m dims.length (samplesAre N prob xs) = ENNReal.ofReal (∏ i, ∏ v ∈ Finset.range dims.length, cond v (xs i)) := by
  obtain ⟨N0, h1, h2, h3, h4⟩ := run_shape hops hpos
  rw [hN] at h1
  cases h1
  obtain ⟨ord, o1, hall⟩ := C61_box hpos hne hops hN cond hcond
  have hperm := order_length o1
  have hl : ord.length = dims.length := by rw [hperm.length_eq, List.length_range]
  have hord : ∀ t : Fin dims.length, ord.getD t 0 < dims.length ∧ ord.idxOf (ord.getD t 0) = t := by
    intro t
    have ht : t.1 < ord.length := by rw [hl]; exact t.2
    rw [List.getD_eq_getElem?_getD, List.getElem?_eq_getElem ht, Option.getD_some]
    exact ⟨(o1.2.1 _).1 (List.getElem_mem ht), o1.1.idxOf_getElem _ ht⟩
  -- facts about the conditional distributions
  have hc : ∀ v < dims.length, ∀ x : Assignment, InRange (fun j => dims.getD j 0) (List.range dims.length) x →
      0 ≤ cond v x ∧ 0 ≤ ∑ y ∈ Finset.range (x v), cond v (x.set v y) ∧
        ∑ y ∈ Finset.range (x v), cond v (x.set v y) + cond v x ≤ 1 := by
    intro v hv x hx
    have hvN : v < N.nodes.length := by omega
    have hnode : N.nodes[v]? = some N.nodes[v] := List.getElem?_eq_getElem hvN
    have hin : ∀ y < dims.getD v 0, InRange (fun j => dims.getD j 0) (v :: N.nodes[v].parents) (x.set v y) := by
      intro y hy p hp
      unfold Assignment.set
      split
      · next e => rw [e]; exact hy
      · next e =>
        rcases List.mem_cons.1 hp with h | h
        · exact absurd h e
        · exact hx p (List.mem_range.2 (by have := (h3.parents v _ hnode).2.1 p h; omega))
    have hxv : x v < dims.getD v 0 := hx v (List.mem_range.2 hv)
    have hself : x.set v (x v) = x := by
      funext w; unfold Assignment.set; split
      · next e => rw [e]
      · rfl
    have hnn : ∀ y < dims.getD v 0, 0 ≤ cond v (x.set v y) := fun y hy => (hcond v _ hnode _ (hin y hy)).2.1
    refine ⟨by have := hnn _ hxv; rwa [hself] at this, ?_, ?_⟩
    · exact Finset.sum_nonneg (fun y hy => hnn y (by have := Finset.mem_range.1 hy; omega))
    · have h5 := (hcond v _ hnode _ (hin (x v) hxv)).2.2
      rw [hself] at h5
      rw [← h5]
      have e : ∑ y ∈ Finset.range (x v), cond v (x.set v y) + cond v x = ∑ y ∈ Finset.range (x v + 1), cond v (x.set v y) := by
        rw [Finset.sum_range_succ, hself]
      rw [e]
      exact Finset.sum_le_sum_of_subset_of_nonneg (Finset.range_mono hxv) (fun y hy _ => hnn y (Finset.mem_range.1 hy))
  -- the box
  let low : Fin m × Fin dims.length → ℝ := fun p => ∑ y ∈ Finset.range (xs p.1 (ord.getD p.2 0)), cond (ord.getD p.2 0) ((xs p.1).set (ord.getD p.2 0) y)
  let high : Fin m × Fin dims.length → ℝ := fun p => low p + cond (ord.getD p.2 0) (xs p.1)
  have hset : samplesAre N prob xs ∩ Set.univ.pi (fun _ : Fin m × Fin dims.length => Set.Ioc (0 : ℝ) 1) =
      Set.univ.pi (fun p => Set.Ioc (low p) (high p)) := by
    ext w
    constructor
    · rintro ⟨⟨samples, N', g1, g2, g3⟩, hw⟩ ⟨i, t⟩ _
      obtain ⟨samples', N'', k1, k2, k3⟩ := hall m (drawsOf w)
      rw [g1] at k1
      cases k1
      obtain ⟨s, s1, s2⟩ := g3 i
      obtain ⟨l, rfl, l1, l2⟩ := (k3 i s s1 (xs i) (hxs i)).1 s2 _ (hord t).1
      rw [(hord t).2, drawsOf_val i t (hw (i, t) trivial)] at l1 l2
      exact ⟨l1, l2⟩
    · intro hw
      have hcube : w ∈ Set.univ.pi (fun _ : Fin m × Fin dims.length => Set.Ioc (0 : ℝ) 1) := by
        rintro ⟨i, t⟩ _
        obtain ⟨w1, w2⟩ := hw (i, t) trivial
        obtain ⟨c1, c2, c3⟩ := hc _ (hord t).1 (xs i) (hxs i)
        exact ⟨lt_of_le_of_lt c2 w1, le_trans w2 c3⟩
      refine ⟨?_, hcube⟩
      obtain ⟨samples, N', k1, k2, k3⟩ := hall m (drawsOf w)
      refine ⟨samples, N', k1, k2, fun i => ?_⟩
      have hi : i.1 < samples.length := by rw [k2]; exact i.2
      refine ⟨_, List.getElem?_eq_getElem hi, ?_⟩
      rw [k3 i _ (List.getElem?_eq_getElem hi) (xs i) (hxs i)]
      intro v hv
      have ht : ord.idxOf v < dims.length := by rw [← hl]; exact List.idxOf_lt_length_iff.2 ((o1.2.1 v).2 hv)
      have hv' : ord.getD (ord.idxOf v) 0 = v := by
        have ht' : ord.idxOf v < ord.length := by rw [hl]; exact ht
        rw [List.getD_eq_getElem?_getD, List.getElem?_eq_getElem ht', Option.getD_some, List.getElem_idxOf]
      obtain ⟨w1, w2⟩ := hw (i, ⟨ord.idxOf v, ht⟩) trivial
      refine ⟨_, rfl, ?_⟩
      have hd := drawsOf_val (w := w) i ⟨ord.idxOf v, ht⟩ (hcube (i, ⟨ord.idxOf v, ht⟩) trivial)
      simp only [low, high, hv'] at w1 w2
      simp only at hd
      rw [hd]
      exact ⟨w1, w2⟩
  have hμ : uniformDraws m dims.length = (volume : Measure (Fin m × Fin dims.length → ℝ)).restrict (Set.univ.pi (fun _ => Set.Ioc (0 : ℝ) 1)) := by
    unfold uniformDraws
    rw [volume_pi, Measure.restrict_pi_pi]
  rw [hμ, Measure.restrict_apply' (MeasurableSet.univ_pi (fun _ => measurableSet_Ioc)), hset, Real.volume_pi_Ioc]
  have hdiff : ∀ p, high p - low p = cond (ord.getD p.2 0) (xs p.1) := fun p => by simp only [high]; ring
  simp only [hdiff]
  rw [Fintype.prod_prod_type, ENNReal.ofReal_prod_of_nonneg]
  · refine Finset.prod_congr rfl (fun i _ => ?_)
    rw [prod_order o1 (fun v => ENNReal.ofReal (cond v (xs i))), ENNReal.ofReal_prod_of_nonneg]
    intro v hv
    exact (hc v (Finset.mem_range.1 hv) (xs i) (hxs i)).1
  · intro i _
    exact Finset.prod_nonneg (fun v hv => (hc v (Finset.mem_range.1 hv) (xs i) (hxs i)).1)

/-- The tables of a network with the given conditional distributions. -/
theorem cond_tables (hpos : ∀ d ∈ dims, 0 < d) (hops : ∀ op ∈ ops, OpInRange dims.length op)
    (hN : (Net.empty dims).run ops = .ok N) (cond : Nat → Assignment → ℝ)
    (hcond : ∀ (v : Nat) node, N.nodes[v]? = some node → ∀ a, InRange (fun j => dims.getD j 0) (v :: node.parents) a →
      prob v (a v) (configOf a node.parents) = .ok (cond v a) ∧ 0 ≤ cond v a ∧
        ∑ y ∈ Finset.range (dims.getD v 0), cond v (a.set v y) = 1) :
    ∃ pts : List (Table ℝ), NodeTables (fun j => dims.getD j 0) N pts ∧ ConditionalTables (fun j => dims.getD j 0) pts ∧
      (∀ (v : Nat) T, pts[v]? = some T → ∀ a, InRange (fun j => dims.getD j 0) (List.range dims.length) a → value T a = cond v a) ∧
      ∀ a, InRange (fun j => dims.getD j 0) (List.range dims.length) a → joint pts a = ∏ v ∈ Finset.range dims.length, cond v a := by
  obtain ⟨N0, h1, h2, h3, h4⟩ := run_shape hops hpos
  rw [hN] at h1
  cases h1
  obtain ⟨cpts, c1, c2, c3⟩ := sampleTables_ok h3 (weights_of_cond hpos hops hN cond hcond)
  have key : ∀ v, ∃ T, v < N.nodes.length → cpts[v]? = some T ∧ WellFormed (fun j => dims.getD j 0) T ∧ T.vars = v :: N.pa v := by
    intro v
    by_cases hv : v < N.nodes.length
    · obtain ⟨T, t1, t2, t3, _⟩ := c2.get v hv
      exact ⟨T, fun _ => ⟨t1, t2, t3⟩⟩
    · exact ⟨⟨[], [], [], 0, []⟩, fun h => absurd h hv⟩
  choose Tf hTf using key
  have hget : ∀ v T, (tab N.nodes.length Tf)[v]? = some T → v < N.nodes.length ∧ T = Tf v := by
    intro v T h
    rw [tab_get?] at h
    by_cases hv : v < N.nodes.length
    · rw [if_pos hv] at h; exact ⟨hv, (Option.some.inj h).symm⟩
    · rw [if_neg hv] at h; cases h
  have hval : ∀ v < N.nodes.length, ∀ a, InRange (fun j => dims.getD j 0) (v :: N.pa v) a → value (Tf v) a = cond v a := by
    intro v hv a ha
    have hnode : N.nodes[v]? = some N.nodes[v] := List.getElem?_eq_getElem hv
    have e1 := c3 v _ (hTf v hv).1 a ha
    have hpa : N.pa v = N.nodes[v].parents := pa_of_lt hv
    rw [hpa] at e1 ha
    rw [(hcond v _ hnode a ha).1] at e1
    exact (Except.ok.inj e1).symm
  have hsub : ∀ v < N.nodes.length, ∀ a, InRange (fun j => dims.getD j 0) (List.range dims.length) a →
      InRange (fun j => dims.getD j 0) (v :: N.pa v) a := by
    intro v hv a ha p hp
    apply ha p
    rw [List.mem_range, ← h2]
    rcases List.mem_cons.1 hp with rfl | h
    · exact hv
    · exact c2.lt v hv p h
  refine ⟨tab N.nodes.length Tf, ⟨by simp, ?_, ?_⟩, ?_, ?_, ?_⟩
  · intro T hT
    obtain ⟨v, hv, rfl⟩ := List.mem_map.1 hT
    exact (hTf v (List.mem_range.1 hv)).2.1
  · intro v T hT u
    obtain ⟨hv, rfl⟩ := hget v T hT
    rw [(hTf v hv).2.2, List.mem_cons, parentOf_iff]
  · intro v T hT a ha
    obtain ⟨hv, rfl⟩ := hget v T hT
    rw [(hTf v hv).2.2] at ha
    have hnode : N.nodes[v]? = some N.nodes[v] := List.getElem?_eq_getElem hv
    have hpa : N.pa v = N.nodes[v].parents := pa_of_lt hv
    rw [← (hcond v _ hnode a (hpa ▸ ha)).2.2]
    refine Finset.sum_congr rfl (fun y hy => hval v hv _ ?_)
    intro p hp
    unfold Assignment.set
    split
    · next e => rw [e]; exact Finset.mem_range.1 hy
    · exact ha p hp
  · intro v T hT a ha
    obtain ⟨hv, rfl⟩ := hget v T hT
    exact hval v hv a (hsub v hv a ha)
  · intro a ha
    unfold joint tab
    rw [List.map_map, ← h2, Finset.prod_range, ← List.prod_ofFn]
    congr 1
    apply List.ext_getElem
    · simp
    · intro i i1 i2
      simp only [List.length_ofFn] at i2
      simpa using hval i i2 a (hsub i i2 a ha)

theorem countP_ofFn {A : Type} {m : Nat} (f : Fin m → A) (p : A → Bool) :
    (((List.ofFn f).countP p : Nat) : ℝ) = ∑ i, if p (f i) then (1 : ℝ) else 0 := by
  induction m with
  | zero => simp
  | succ m ih =>
    rw [List.ofFn_succ, List.countP_cons, Fin.sum_univ_succ, ← ih (fun i => f i.succ)]
    push_cast
    rw [add_comm]

/-- The samples stored column by column. -/
def columnsOf (n : Nat) (samples : List (List Nat)) : List (List Nat) := (List.range n).map (fun v => samples.map (fun s => s.getD v 0))

/-- The entry for the values `c` of the table learned, with the given prior counts, for node `v` of `N` from `m` samples of `N` is closer
than `ε` to `θ`. -/
def LearnedClose (N : Net) (prob : Nat → Nat → Config → Except Fault ℝ) (alpha : Int) (rnd : Nat → Nat → Nat) (m : Nat)
    (draws : Nat → Nat → {u : ℝ // 0 < u ∧ u ≤ 1}) (v : Nat) (c : Assignment) (θ ε : ℝ) : Prop :=
  ∃ samples N' pts T, generateSamples inversion N prob m draws = .ok (samples, N') ∧
    learnParams N (columnsOf N.nodes.length samples) N.nodes.length m alpha rnd [] = .ok pts ∧ pts[v]? = some T ∧ |value T c - θ| < ε

/-- C100.  Parameters learned, for the same graph, from samples of a network approach the parameters of the network.  If `q > 0` is the
probability that the parents of node `v` have their values in `c`, the learned entry differs by `ε` or more from P(v = c v | parents as in c)
with probability at most (4 + 16/ε²) / (m q), for all numbers `m` of samples from some size on. -/
theorem C100_deviation (hpos : ∀ d ∈ dims, 0 < d) (hne : dims ≠ []) (hops : ∀ op ∈ ops, OpInRange dims.length op)
    (hN : (Net.empty dims).run ops = .ok N) (cond : Nat → Assignment → ℝ)
    (hcond : ∀ (v : Nat) node, N.nodes[v]? = some node → ∀ a, InRange (fun j => dims.getD j 0) (v :: node.parents) a →
      prob v (a v) (configOf a node.parents) = .ok (cond v a) ∧ 0 ≤ cond v a ∧
        ∑ y ∈ Finset.range (dims.getD v 0), cond v (a.set v y) = 1)
    {v : Nat} {node : NodeS} (hnode : N.nodes[v]? = some node) {c : Assignment}
    (hc : InRange (fun j => dims.getD j 0) (List.range dims.length) c) {q : ℝ} (hq0 : 0 < q)
    (hq : weight (fun j => dims.getD j 0) dims.length (fun a => ∏ u ∈ Finset.range dims.length, cond u a) (Agrees (observed c node.parents)) = q)
    {alpha : Int} (ha : 0 < alpha) (rnd : Nat → Nat → Nat) {ε : ℝ} (hε : 0 < ε) {m : Nat}
    (hm : 4 * (alpha : ℝ) * (dims.getD v 0 : ℝ) ≤ ε * m * q) :
    uniformDraws m dims.length {w | ¬ LearnedClose N prob alpha rnd m (drawsOf w) v c (cond v c) ε} ≤
      ENNReal.ofReal ((4 + 16 / ε ^ 2) / (m * q)) := by
  obtain ⟨N0, h1, h2, h3, h4⟩ := run_shape hops hpos
  rw [hN] at h1
  cases h1
  obtain ⟨pts0, hpts, hct, hv0, hj⟩ := cond_tables hpos hops hN cond hcond
  have hvN : v < N.nodes.length := (List.getElem?_eq_some_iff.1 hnode).1
  have hps : ∀ p ∈ v :: node.parents, p < dims.length := by
    intro p hp
    rw [← h2]
    rcases List.mem_cons.1 hp with rfl | h
    · exact hvN
    · exact (h3.parents v _ hnode).2.1 p h
  let P : Outcome (fun j => dims.getD j 0) dims.length → ℝ := fun o => ∏ u ∈ Finset.range dims.length, cond u o.asg
  have hjw : ∀ (ev : Assignment → Prop) [DecidablePred ev], weight (fun j => dims.getD j 0) dims.length (joint pts0) ev =
      weight (fun j => dims.getD j 0) dims.length (fun a => ∏ u ∈ Finset.range dims.length, cond u a) ev := by
    intro ev _
    unfold weight
    apply sumOut_congr
    intro b hb _
    rw [hj b (fun u hu => hb u hu)]
  have hw : ∀ (ev : Assignment → Prop) [DecidablePred ev],
      weight (fun j => dims.getD j 0) dims.length (fun a => ∏ u ∈ Finset.range dims.length, cond u a) ev =
        ∑ o : Outcome (fun j => dims.getD j 0) dims.length, if ev o.asg then P o else 0 := by
    intro ev _
    unfold weight
    rw [sumOut_outcomes]
  have hcnn : ∀ u < dims.length, ∀ a, InRange (fun j => dims.getD j 0) (List.range dims.length) a → 0 ≤ cond u a := by
    intro u hu a ha'
    have huN : u < N.nodes.length := by omega
    have hn : N.nodes[u]? = some N.nodes[u] := List.getElem?_eq_getElem huN
    refine (hcond u _ hn a ?_).2.1
    intro p hp
    apply ha' p
    rw [List.mem_range, ← h2]
    rcases List.mem_cons.1 hp with rfl | h
    · exact huN
    · exact (h3.parents u _ hn).2.1 p h
  have hP : ∀ o, 0 ≤ P o := fun o => Finset.prod_nonneg (fun u hu => hcnn u (Finset.mem_range.1 hu) _ (Outcome.asg_lt o))
  have hP1 : ∑ o, P o = 1 := by
    have := C63_total hops hN hpts hct
    rw [hjw, hw] at this
    simpa using this
  have hT : ∃ T0, pts0[v]? = some T0 := ⟨_, List.getElem?_eq_getElem (by rw [hpts.length]; exact hvN)⟩
  obtain ⟨T0, hT0⟩ := hT
  have hB := C63_conditional hops hN hpts hct hT0 hnode hc
  rw [hv0 v T0 hT0 c hc, hjw, hjw, hq, hw] at hB
  rw [hw] at hq
  have hd1 : 1 ≤ (dims.getD v 0 : ℝ) := by
    have := (h3.dim v _ hnode).2
    exact_mod_cast this
  have hθ0 : 0 ≤ cond v c := hcnn v (by omega) c hc
  have hθ1 : cond v c ≤ 1 := by
    have hin : InRange (fun j => dims.getD j 0) (v :: node.parents) c := fun p hp => hc p (List.mem_range.2 (hps p hp))
    rw [← (hcond v node hnode c hin).2.2]
    have hself : c.set v (c v) = c := by
      funext w; unfold Assignment.set; split
      · next e => rw [e]
      · rfl
    have := Finset.single_le_sum (f := fun y => cond v (c.set v y)) (s := Finset.range (dims.getD v 0)) (fun y hy => (hcond v node hnode _ (by
      intro p hp
      unfold Assignment.set
      split
      · next e => rw [e]; exact Finset.mem_range.1 hy
      · exact hin p hp)).2.1) (Finset.mem_range.2 (hc v (List.mem_range.2 (by omega))))
    simpa only [hself] using this
  have hdev := frequency_deviation hP hP1 (B := fun o => Agrees (observed c (v :: node.parents)) o.asg)
    (C := fun o => Agrees (observed c node.parents) o.asg) (fun o h e he => h e (List.mem_cons_of_mem _ he)) hq0 hq hB hθ0 hθ1
    (α := (alpha : ℝ)) (d := (dims.getD v 0 : ℝ)) (by exact_mod_cast ha) hd1 hε m hm
  refine le_trans ?_ (ENNReal.ofReal_le_ofReal hdev)
  -- every bad point belongs to a bad list of outcomes
  let bad : (Fin m → Outcome (fun j => dims.getD j 0) dims.length) → Prop := fun s =>
    ε ≤ |((∑ i, if Agrees (observed c (v :: node.parents)) (s i).asg then (1 : ℝ) else 0) + (alpha : ℝ)) /
      ((∑ i, if Agrees (observed c node.parents) (s i).asg then (1 : ℝ) else 0) + (alpha : ℝ) * (dims.getD v 0 : ℝ)) - cond v c|
  have hcover : {w | ¬ LearnedClose N prob alpha rnd m (drawsOf w) v c (cond v c) ε} ⊆
      ⋃ s ∈ Finset.univ.filter bad, samplesAre N prob (n := dims.length) (fun i => (s i).asg) := by
    intro w hw'
    obtain ⟨ord, o1, hall⟩ := C55_samples hpos hne hops hN (weights_of_cond hpos hops hN cond hcond) C61_inversion_possible
    obtain ⟨samples, N', g1, g2, g3⟩ := hall m (drawsOf w)
    subst g2
    have hr : ∀ (i : Fin samples.length), (samples[i]).length = dims.length ∧ ∀ u < dims.length, asg samples[i] u < dims.getD u 0 := by
      intro i
      obtain ⟨k1, k2⟩ := g3 i _ (List.getElem?_eq_getElem i.2)
      exact ⟨k1, fun u hu => (k2 u _ (List.getElem?_eq_getElem (by omega))).1⟩
    let s : Fin samples.length → Outcome (fun j => dims.getD j 0) dims.length := fun i u => ⟨asg samples[i] u, (hr i).2 u u.2⟩
    have hs : ∀ i, ∀ u < dims.length, (s i).asg u = asg samples[i] u := by
      intro i u hu
      show (if h : u < dims.length then _ else 0) = _
      rw [dif_pos hu]
    rw [Set.mem_iUnion₂]
    refine ⟨s, ?_, samples, N', g1, rfl, fun i => ⟨_, List.getElem?_eq_getElem i.2, fun u hu => ?_⟩⟩
    · rw [Finset.mem_filter]
      refine ⟨Finset.mem_univ _, ?_⟩
      by_contra hb
      apply hw'
      -- the columns and the learned tables
      have hcols : Columns (fun j => dims.getD j 0) N.nodes.length (columnsOf N.nodes.length samples) (samples.map asg) := by
        constructor
        · intro u hu
          refine ⟨samples.map (fun s => s.getD u 0), ?_, ?_⟩
          · unfold columnsOf
            rw [List.getElem?_map, List.getElem?_range hu]
            rfl
          · intro j r hj
            rw [List.getElem?_map] at hj ⊢
            cases e : samples[j]? with
            | none => rw [e] at hj; cases hj
            | some t => rw [e] at hj; cases hj; rfl
        · intro r hr' u hu
          obtain ⟨t, ht, rfl⟩ := List.mem_map.1 hr'
          obtain ⟨i, hi, rfl⟩ := List.getElem_of_mem ht
          exact (hr ⟨i, hi⟩).2 u (by omega)
      obtain ⟨new, l1, l2, l3⟩ := C22_learned (K := ℝ) h3 hcols ha.le (fun e => absurd e ha.ne') rnd []
      obtain ⟨T, t1, t2, t3, t4⟩ := l3 v node hnode
      refine ⟨samples, N', new, T, g1, by simpa using l1, t1, ?_⟩
      rw [t4 c (fun p hp => hc p (List.mem_range.2 (hps p hp)))]
      have hcount : ∀ vs : List Nat, (∀ p ∈ vs, p < dims.length) →
          ((countSame (samples.map asg) vs c : Nat) : ℝ) = ∑ i, if Agrees (observed c vs) (s i).asg then (1 : ℝ) else 0 := by
        intro vs hvs
        have e : samples.map asg = List.ofFn (fun i : Fin samples.length => asg samples[i]) := by
          apply List.ext_getElem
          · simp
          · intro i i1 i2; simp
        unfold countSame
        rw [e, countP_ofFn]
        refine Finset.sum_congr rfl (fun i _ => ?_)
        congr 1
        rw [List.all_eq_true, eq_iff_iff]
        constructor
        · intro h e he
          obtain ⟨p, hp, rfl⟩ := List.mem_map.1 he
          have := h p hp
          rw [beq_iff_eq] at this
          rw [hs i p (hvs p hp)]
          exact this
        · intro h p hp
          rw [beq_iff_eq, ← hs i p (hvs p hp)]
          exact h (p, c p) (List.mem_map.2 ⟨p, hp, rfl⟩)
      rw [hcount _ hps, hcount _ (fun p hp => hps p (List.mem_cons_of_mem _ hp))]
      exact not_le.1 hb
    · show _ = some ((s i).asg u)
      rw [hs i u hu]
      have : u < (samples[i.1]).length := by have := (hr i).1; simp only [Fin.getElem_fin] at this; rw [this]; exact hu
      rw [List.getElem?_eq_getElem this, Fin.getElem_fin]
      unfold asg
      rw [getD_of_lt this]
  calc _ ≤ uniformDraws m dims.length (⋃ s ∈ Finset.univ.filter bad, samplesAre N prob (n := dims.length) (fun i => (s i).asg)) := measure_mono hcover
    _ ≤ ∑ s ∈ Finset.univ.filter bad, uniformDraws m dims.length (samplesAre N prob (n := dims.length) (fun i => (s i).asg)) :=
        measure_biUnion_finset_le _ _
    _ = ∑ s ∈ Finset.univ.filter bad, ENNReal.ofReal (∏ i, P (s i)) :=
        Finset.sum_congr rfl (fun s _ => C99_law hpos hne hops hN cond hcond m _ (fun i => Outcome.asg_lt (s i)))
    _ = ENNReal.ofReal (∑ s ∈ Finset.univ.filter bad, ∏ i, P (s i)) :=
        (ENNReal.ofReal_sum_of_nonneg (fun s _ => Finset.prod_nonneg (fun i _ => hP (s i)))).symm
    _ = _ := by
        congr 1
        unfold expect
        rw [Finset.sum_filter]
        refine Finset.sum_congr rfl (fun s _ => ?_)
        by_cases h : bad s
        · rw [if_pos h]
          exact ((congrArg _ (if_pos h)).trans (mul_one _)).symm
        · rw [if_neg h]
          exact ((congrArg _ (if_neg h)).trans (mul_zero _)).symm

/-- C100: with more and more samples, the probability that all learned entries (whose parents' values have positive probability) are
closer than `ε` to the parameters of the network tends to 1. -/
theorem C100_consistent (hpos : ∀ d ∈ dims, 0 < d) (hne : dims ≠ []) (hops : ∀ op ∈ ops, OpInRange dims.length op)
    (hN : (Net.empty dims).run ops = .ok N) (cond : Nat → Assignment → ℝ)
    (hcond : ∀ (v : Nat) node, N.nodes[v]? = some node → ∀ a, InRange (fun j => dims.getD j 0) (v :: node.parents) a →
      prob v (a v) (configOf a node.parents) = .ok (cond v a) ∧ 0 ≤ cond v a ∧
        ∑ y ∈ Finset.range (dims.getD v 0), cond v (a.set v y) = 1)
    {alpha : Int} (ha : 0 < alpha) (rnd : Nat → Nat → Nat) {ε : ℝ} (hε : 0 < ε) :
    Filter.Tendsto (fun m : Nat => uniformDraws m dims.length
      {w | ∃ v node, N.nodes[v]? = some node ∧ ∃ o : Outcome (fun j => dims.getD j 0) dims.length,
        0 < weight (fun j => dims.getD j 0) dims.length (fun a => ∏ u ∈ Finset.range dims.length, cond u a) (Agrees (observed o.asg node.parents)) ∧
        ¬ LearnedClose N prob alpha rnd m (drawsOf w) v o.asg (cond v o.asg) ε}) Filter.atTop (nhds 0) := by
  have hlen : N.nodes.length = dims.length := (netInv_of_run hops hN).2
  -- one entry
  let F : Fin dims.length × Outcome (fun j => dims.getD j 0) dims.length → Nat → ENNReal := fun p m => uniformDraws m dims.length
    {w | ∃ node, N.nodes[p.1.1]? = some node ∧
      0 < weight (fun j => dims.getD j 0) dims.length (fun a => ∏ u ∈ Finset.range dims.length, cond u a) (Agrees (observed p.2.asg node.parents)) ∧
      ¬ LearnedClose N prob alpha rnd m (drawsOf w) p.1 p.2.asg (cond p.1 p.2.asg) ε}
  have hF : ∀ p, Filter.Tendsto (F p) Filter.atTop (nhds 0) := by
    rintro ⟨v, o⟩
    have hn : N.nodes[v.1]? = some N.nodes[v.1] := List.getElem?_eq_getElem (by rw [hlen]; exact v.2)
    by_cases hq0 : 0 < weight (fun j => dims.getD j 0) dims.length (fun a => ∏ u ∈ Finset.range dims.length, cond u a)
        (Agrees (observed o.asg N.nodes[v.1].parents))
    · generalize hq : weight (fun j => dims.getD j 0) dims.length (fun a => ∏ u ∈ Finset.range dims.length, cond u a)
        (Agrees (observed o.asg N.nodes[v.1].parents)) = q at hq0
      have hbound : Filter.Tendsto (fun m : Nat => ENNReal.ofReal ((4 + 16 / ε ^ 2) / (m * q))) Filter.atTop (nhds 0) := by
        rw [← ENNReal.ofReal_zero]
        apply ENNReal.tendsto_ofReal
        apply Filter.Tendsto.div_atTop tendsto_const_nhds
        exact Filter.Tendsto.atTop_mul_const hq0 tendsto_natCast_atTop_atTop
      refine tendsto_of_tendsto_of_tendsto_of_le_of_le' tendsto_const_nhds hbound (Filter.Eventually.of_forall (fun _ => zero_le)) ?_
      have hev : ∀ᶠ m : Nat in Filter.atTop, 4 * (alpha : ℝ) * (dims.getD v 0 : ℝ) ≤ ε * m * q := by
        have : Filter.Tendsto (fun m : Nat => ε * (m : ℝ) * q) Filter.atTop Filter.atTop :=
          Filter.Tendsto.atTop_mul_const hq0 (Filter.Tendsto.const_mul_atTop hε tendsto_natCast_atTop_atTop)
        exact this.eventually_ge_atTop _
      filter_upwards [hev] with m hm
      refine le_trans (measure_mono ?_) (C100_deviation hpos hne hops hN cond hcond hn (Outcome.asg_lt o) hq0 hq ha rnd hε hm)
      rintro w ⟨_, _, _, h⟩
      exact h
    · have : F (v, o) = fun _ => 0 := by
        funext m
        have he : {w : Fin m × Fin dims.length → ℝ | ∃ node, N.nodes[v.1]? = some node ∧
            0 < weight (fun j => dims.getD j 0) dims.length (fun a => ∏ u ∈ Finset.range dims.length, cond u a) (Agrees (observed o.asg node.parents)) ∧
            ¬ LearnedClose N prob alpha rnd m (drawsOf w) v o.asg (cond v o.asg) ε} = ∅ := by
          ext w
          simp only [Set.mem_setOf_eq, Set.mem_empty_iff_false, iff_false]
          rintro ⟨node, h1, h2, _⟩
          rw [hn] at h1
          cases h1
          exact hq0 h2
        show uniformDraws m dims.length _ = 0
        rw [he, measure_empty]
      rw [this]
      exact tendsto_const_nhds
  have hsum : Filter.Tendsto (fun m => ∑ p, F p m) Filter.atTop (nhds 0) := by
    have := tendsto_finset_sum Finset.univ (fun p _ => hF p)
    simpa using this
  refine tendsto_of_tendsto_of_tendsto_of_le_of_le tendsto_const_nhds hsum (fun _ => zero_le) (fun m => ?_)
  refine le_trans (measure_mono ?_) (measure_biUnion_finset_le Finset.univ _)
  rintro w ⟨v, node, h1, o, h2, h3⟩
  have hv : v < dims.length := by rw [← hlen]; exact (List.getElem?_eq_some_iff.1 h1).1
  rw [Set.mem_iUnion₂]
  exact ⟨(⟨v, hv⟩, o), Finset.mem_univ _, node, h1, h2, h3⟩

end samples

/-! ### An example: node 0 is uniform, node 1 copies node 0 with probability 3/4. -/

/-- Conditional distributions of the example. -/
noncomputable def coinProb (v x : Nat) (u : Config) : Except Fault ℝ :=
  if v = 0 then .ok (1 / 2) else .ok (if u = [(0, x)] then 3 / 4 else 1 / 4)

/-- The same as functions of an assignment. -/
noncomputable def coinCond : Nat → Assignment → ℝ := fun v a => if v = 0 then 1 / 2 else if a 0 = a 1 then 3 / 4 else 1 / 4

theorem coin_ok : ∃ N, (Net.empty [2, 2]).run [.addDirected 0 1] = .ok N ∧ WeaklyConnected N ∧ (∃ node, N.nodes[1]? = some node ∧ node.parents = [0]) ∧
    ∀ (v : Nat) node, N.nodes[v]? = some node → ∀ a, InRange (fun j => [2, 2].getD j 0) (v :: node.parents) a →
      coinProb v (a v) (configOf a node.parents) = .ok (coinCond v a) ∧ 0 ≤ coinCond v a ∧
        ∑ y ∈ Finset.range ([2, 2].getD v 0), coinCond v (a.set v y) = 1 := by
  refine ⟨_, rfl, ?_, ⟨_, rfl, rfl⟩, ?_⟩
  · have base : ∀ i, i < 2 → ∀ N : Net, (Net.empty [2, 2]).run [.addDirected 0 1] = .ok N → Relation.ReflTransGen (Linked N) 0 i := by
      intro i hi N hN
      have h01 : Linked N 0 1 := Or.inl (by cases hN; exact ⟨_, rfl, by decide⟩)
      match i, hi with
      | 0, _ => exact .refl
      | 1, _ => exact .single h01
    intro i j hi hj
    exact (conn_symm (fun _ _ h => h.symm) (base i hi _ rfl)).trans (base j hj _ rfl)
  intro v node hnode a ha
  match v with
  | 0 =>
    refine ⟨rfl, by norm_num [coinCond], ?_⟩
    simp [coinCond]
  | 1 =>
    cases hnode
    refine ⟨?_, ?_, ?_⟩
    · show coinProb 1 (a 1) [(0, a 0)] = _
      unfold coinProb coinCond
      by_cases h : a 0 = a 1 <;> simp [h]
    · unfold coinCond
      simp only [one_ne_zero, if_false]
      split <;> norm_num
    · have := ha 0 (by decide)
      have h01 : a 0 = 0 ∨ a 0 = 1 := by
        simp at this
        omega
      rcases h01 with h | h <;> (simp [coinCond, Finset.sum_range_succ, Assignment.set, h]; norm_num)
  | n + 2 => cases hnode

/-- The probability that two samples are (0, 1) and (1, 1) is 1/8 · 3/8. -/
example : ∃ N, (Net.empty [2, 2]).run [.addDirected 0 1] = .ok N ∧
    uniformDraws 2 2 (samplesAre N coinProb (fun i v => if i = 0 ∧ v = 0 then 0 else 1)) = ENNReal.ofReal (3 / 64) := by
  obtain ⟨N, h1, _, _, h2⟩ := coin_ok
  refine ⟨N, h1, ?_⟩
  have := C99_law (dims := [2, 2]) (by simp) (by simp) (by simp [OpInRange]) h1 coinCond h2 2
    (fun i v => if i = 0 ∧ v = 0 then 0 else 1) (by
      intro i v hv
      have : v = 0 ∨ v = 1 := by
        simp at hv
        omega
      rcases this with rfl | rfl
      · simp only []
        split <;> decide
      · simp)
  refine this.trans ?_
  congr 1
  simp [coinCond, Finset.prod_range_succ, Fin.prod_univ_succ]
  norm_num

/-- From a million samples, P(node 1 = 0 | node 0 = 0) is learned up to 1/10 except with probability 1604/500000. -/
example : ∃ N, (Net.empty [2, 2]).run [.addDirected 0 1] = .ok N ∧
    uniformDraws 1000000 2 {w | ¬ LearnedClose N coinProb 1 (fun _ _ => 0) 1000000 (drawsOf w) 1 (fun _ => 0) (3 / 4) (1 / 10)} ≤
      ENNReal.ofReal (1604 / 500000) := by
  obtain ⟨N, h1, _, ⟨node, h3, h4⟩, h2⟩ := coin_ok
  refine ⟨N, h1, ?_⟩
  have := C100_deviation (dims := [2, 2]) (by simp) (by simp) (by simp [OpInRange]) h1 coinCond h2 (v := 1) h3 (c := fun _ => 0) (by
      intro v hv
      have : v = 0 ∨ v = 1 := by
        simp at hv
        omega
      rcases this with rfl | rfl <;> simp) (q := 1 / 2) (by norm_num) (by
      rw [h4]
      simp [weight, sumOut, List.range_succ, Agrees, observed, coinCond, Finset.sum_range_succ, Finset.prod_range_succ, Assignment.set]
      norm_num) (alpha := 1) (by norm_num) (fun _ _ => 0) (ε := 1 / 10) (by norm_num) (m := 1000000) (by norm_num)
  have e : coinCond 1 (fun _ => 0) = 3 / 4 := by simp [coinCond]
  rw [e] at this
  refine this.trans (ENNReal.ofReal_le_ofReal ?_)
  norm_num

/-- All parameters of this network are recovered in the limit. -/
example : ∃ N, (Net.empty [2, 2]).run [.addDirected 0 1] = .ok N ∧ ∀ ε : ℝ, 0 < ε →
    Filter.Tendsto (fun m : Nat => uniformDraws m 2
      {w | ∃ v node, N.nodes[v]? = some node ∧ ∃ o : Outcome (fun j => [2, 2].getD j 0) 2,
        0 < weight (fun j => [2, 2].getD j 0) 2 (fun a => ∏ u ∈ Finset.range 2, coinCond u a) (Agrees (observed o.asg node.parents)) ∧
        ¬ LearnedClose N coinProb 1 (fun _ _ => 0) m (drawsOf w) v o.asg (coinCond v o.asg) ε}) Filter.atTop (nhds 0) := by
  obtain ⟨N, h1, _, _, h2⟩ := coin_ok
  exact ⟨N, h1, fun ε hε => C100_consistent (dims := [2, 2]) (by simp) (by simp) (by simp [OpInRange]) h1 coinCond h2 one_pos _ hε⟩

end FastPGM
