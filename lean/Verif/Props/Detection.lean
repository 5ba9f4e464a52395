import Verif.Lemmas.Detect
import Verif.Spec.Consistency
import Verif.Props.Random
import Verif.Props.Dependence

/-!
C102: what the independence test says about samples of a network.
-/

namespace FastPGM

open Spec MeasureTheory

/-! ### The data -/

/-- C102.  The statistic grows in proportion to the number of instances and the square of the dependence shown by any combination of
values. -/
theorem C102_lower_bound {card : Nat → Nat} {numVars : Nat} {cols : List (List Nat)} {rows : List Assignment} {x y : Nat} {z : List Nat}
    (hc : Columns card numVars cols rows) (hv : ∀ v ∈ z ++ [x, y], v < numVars) (hn : (z ++ [x, y]).Nodup) (hm : rows ≠ [])
    {a : Assignment} (ha : InRange card (z ++ [x, y]) a) :
    rows.length / 2 * ((countSame rows (z ++ [x, y]) a / rows.length) * (countSame rows z a / rows.length) -
        (countSame rows (z ++ [x]) a / rows.length) * (countSame rows (z ++ [y]) a / rows.length) : ℝ) ^ 2 ≤
      gSquare Real.log card rows x y z := by
  have hr : ∀ v ∈ z ++ [x, y], ∀ r ∈ rows, r v < card v := fun v hm r h => hc.lt r h v (hv v hm)
  obtain ⟨hz, h2, h3⟩ := List.nodup_append.1 hn
  have hx : x ∉ z := fun h => h3 x h x (by simp) rfl
  have hy : y ∉ z := fun h => h3 y h y (by simp) rfl
  have hxy : x ≠ y := by simpa using h2
  have key := gSquare_ge hx hy hxy (hr x (by simp)) (hr y (by simp)) ha
  have m0 : (0 : ℝ) < rows.length := by exact_mod_cast List.length_pos_iff.2 hm
  set m : ℝ := (rows.length : ℝ)
  rw [← mul_le_mul_iff_of_pos_left (show 0 < 2 * m ^ 3 by positivity)]
  refine le_trans (le_of_eq ?_) key
  field_simp

section samples

variable {dims : List Nat} {ops : List EdgeOp} {N : Net} {prob : Nat → Nat → Config → Except Fault ℝ}

/-- The joint distribution on the finitely many outcomes. -/
noncomputable def law (dims : List Nat) (cond : Nat → Assignment → ℝ) (o : Outcome (fun j => dims.getD j 0) dims.length) : ℝ :=
  ∏ u ∈ Finset.range dims.length, cond u o.asg

/-- The joint distribution is a distribution. -/
theorem law_ok (hpos : ∀ d ∈ dims, 0 < d) (hops : ∀ op ∈ ops, OpInRange dims.length op)
    (hN : (Net.empty dims).run ops = .ok N) (cond : Nat → Assignment → ℝ)
    (hcond : ∀ (v : Nat) node, N.nodes[v]? = some node → ∀ a, InRange (fun j => dims.getD j 0) (v :: node.parents) a →
      prob v (a v) (configOf a node.parents) = .ok (cond v a) ∧ 0 ≤ cond v a ∧
        ∑ y ∈ Finset.range (dims.getD v 0), cond v (a.set v y) = 1) :
    (∀ o, 0 ≤ law dims cond o) ∧ ∑ o, law dims cond o = 1 ∧
      ∀ vs c, marginal (fun j => dims.getD j 0) dims.length (fun a => ∏ u ∈ Finset.range dims.length, cond u a) vs c =
        ∑ o, if Agrees (observed c vs) o.asg then law dims cond o else 0 := by
  obtain ⟨N0, h1, h2, h3, h4⟩ := run_shape hops hpos
  rw [hN] at h1
  cases h1
  obtain ⟨pts0, hpts, hct, hv0, hj⟩ := cond_tables hpos hops hN cond hcond
  have hw : ∀ (ev : Assignment → Prop) [DecidablePred ev],
      weight (fun j => dims.getD j 0) dims.length (fun a => ∏ u ∈ Finset.range dims.length, cond u a) ev =
        ∑ o, if ev o.asg then law dims cond o else 0 := by
    intro ev _
    unfold weight
    rw [sumOut_outcomes]
    rfl
  refine ⟨fun o => Finset.prod_nonneg (fun u hu => ?_), ?_, fun vs c => hw _⟩
  · have huN : u < N.nodes.length := by have := Finset.mem_range.1 hu; omega
    have hn : N.nodes[u]? = some N.nodes[u] := List.getElem?_eq_getElem huN
    refine (hcond u _ hn _ ?_).2.1
    intro p hp
    apply Outcome.asg_lt o p
    rw [List.mem_range, ← h2]
    rcases List.mem_cons.1 hp with rfl | h
    · exact huN
    · exact (h3.parents u _ hn).2.1 p h
  · have := C63_total hops hN hpts hct
    have e : weight (fun j => dims.getD j 0) dims.length (joint pts0) (fun _ => True) =
        weight (fun j => dims.getD j 0) dims.length (fun a => ∏ u ∈ Finset.range dims.length, cond u a) (fun _ => True) := by
      unfold weight
      apply sumOut_congr
      intro b hb _
      rw [hj b (fun u hu => hb u hu)]
    rw [e, hw] at this
    simpa using this

/-- If the samples have a property for all lists of outcomes that are possible and not bad, it holds except with the probability of a bad
list. -/
theorem samples_bound (hpos : ∀ d ∈ dims, 0 < d) (hne : dims ≠ []) (hops : ∀ op ∈ ops, OpInRange dims.length op)
    (hN : (Net.empty dims).run ops = .ok N) (cond : Nat → Assignment → ℝ)
    (hcond : ∀ (v : Nat) node, N.nodes[v]? = some node → ∀ a, InRange (fun j => dims.getD j 0) (v :: node.parents) a →
      prob v (a v) (configOf a node.parents) = .ok (cond v a) ∧ 0 ≤ cond v a ∧
        ∑ y ∈ Finset.range (dims.getD v 0), cond v (a.set v y) = 1)
    {m : Nat} (bad : (Fin m → Outcome (fun j => dims.getD j 0) dims.length) → Prop) [DecidablePred bad] :
    uniformDraws m dims.length {w | ¬ ∃ samples N' s, generateSamples inversion N prob m (drawsOf w) = .ok (samples, N') ∧ samples.length = m ∧
        (∀ i : Fin m, ∃ t, samples[i.1]? = some t ∧ t.length = dims.length ∧ ∀ u < dims.length, asg t u = (s i).asg u) ∧
        Columns (fun j => dims.getD j 0) dims.length (columnsOf dims.length samples) (samples.map asg) ∧
        (∀ vs c, (∀ p ∈ vs, p < dims.length) →
          ((countSame (samples.map asg) vs c : Nat) : ℝ) = ∑ i : Fin m, if Agrees (observed c vs) (Outcome.asg (s i)) then (1 : ℝ) else 0) ∧
        (∀ i, law dims cond (s i) ≠ 0) ∧ ¬ bad s} ≤
      ENNReal.ofReal (expect (law dims cond) m (fun s => if bad s then 1 else 0)) := by
  classical
  obtain ⟨hP, hP1, _⟩ := law_ok hpos hops hN cond hcond
  have hlen : N.nodes.length = dims.length := (netInv_of_run hops hN).2
  let bad' : (Fin m → Outcome (fun j => dims.getD j 0) dims.length) → Prop := fun s => bad s ∨ ∃ i, law dims cond (s i) = 0
  have hcover : {w | ¬ ∃ samples N' s, generateSamples inversion N prob m (drawsOf w) = .ok (samples, N') ∧ samples.length = m ∧
        (∀ i : Fin m, ∃ t, samples[i.1]? = some t ∧ t.length = dims.length ∧ ∀ u < dims.length, asg t u = (s i).asg u) ∧
        Columns (fun j => dims.getD j 0) dims.length (columnsOf dims.length samples) (samples.map asg) ∧
        (∀ vs c, (∀ p ∈ vs, p < dims.length) →
          ((countSame (samples.map asg) vs c : Nat) : ℝ) = ∑ i : Fin m, if Agrees (observed c vs) (Outcome.asg (s i)) then (1 : ℝ) else 0) ∧
        (∀ i, law dims cond (s i) ≠ 0) ∧ ¬ bad s} ⊆
      ⋃ s ∈ Finset.univ.filter bad', samplesAre N prob (n := dims.length) (fun i => (s i).asg) := by
    intro w hw'
    obtain ⟨ord, o1, hall⟩ := C55_samples hpos hne hops hN (weights_of_cond hpos hops hN cond hcond) C61_inversion_possible
    obtain ⟨samples, N', g1, g2, g3⟩ := hall m (drawsOf w)
    subst g2
    have hr : ∀ (i : Fin samples.length), (samples[i]).length = dims.length ∧ ∀ u < dims.length, asg samples[i] u < dims.getD u 0 := by
      intro i
      obtain ⟨k1, k2⟩ := g3 i _ (List.getElem?_eq_getElem i.2)
      exact ⟨k1, fun u hu => (k2 u _ (List.getElem?_eq_getElem (by omega))).1⟩
    let s : Fin samples.length → Outcome (fun j => dims.getD j 0) dims.length := fun i u => ⟨asg samples[i] u, (hr i).2 u u.2⟩
    have hs : ∀ i, ∀ u < dims.length, (s i).asg u = asg samples[i] u := by
      intro i u hu
      show (if h : u < dims.length then _ else 0) = _
      rw [dif_pos hu]
    rw [Set.mem_iUnion₂]
    refine ⟨s, ?_, samples, N', g1, rfl, fun i => ⟨_, List.getElem?_eq_getElem i.2, fun u hu => ?_⟩⟩
    · rw [Finset.mem_filter]
      refine ⟨Finset.mem_univ _, ?_⟩
      by_contra hb
      apply hw'
      have hcols : Columns (fun j => dims.getD j 0) dims.length (columnsOf dims.length samples) (samples.map asg) := by
        constructor
        · intro u hu
          refine ⟨samples.map (fun s => s.getD u 0), ?_, ?_⟩
          · unfold columnsOf
            rw [List.getElem?_map, List.getElem?_range hu]
            rfl
          · intro j r hj
            rw [List.getElem?_map] at hj ⊢
            cases e : samples[j]? with
            | none => rw [e] at hj; cases hj
            | some t => rw [e] at hj; cases hj; rfl
        · intro r hr' u hu
          obtain ⟨t, ht, rfl⟩ := List.mem_map.1 hr'
          obtain ⟨i, hi, rfl⟩ := List.getElem_of_mem ht
          exact (hr ⟨i, hi⟩).2 u (by omega)
      refine ⟨samples, N', s, g1, rfl,
        fun i => ⟨_, List.getElem?_eq_getElem i.2, (hr i).1, fun u hu => (hs i u hu).symm⟩, hcols, ?_, fun i hi => hb (Or.inr ⟨i, hi⟩), fun h => hb (Or.inl h)⟩
      intro vs c hvs
      have e : samples.map asg = List.ofFn (fun i : Fin samples.length => asg samples[i]) := by
        apply List.ext_getElem
        · simp
        · intro i i1 i2; simp
      unfold countSame
      rw [e, countP_ofFn]
      refine Finset.sum_congr rfl (fun i _ => ?_)
      congr 1
      rw [List.all_eq_true, eq_iff_iff]
      constructor
      · intro h e he
        obtain ⟨p, hp, rfl⟩ := List.mem_map.1 he
        have := h p hp
        rw [beq_iff_eq] at this
        rw [hs i p (hvs p hp)]
        exact this
      · intro h p hp
        rw [beq_iff_eq, ← hs i p (hvs p hp)]
        exact h (p, c p) (List.mem_map.2 ⟨p, hp, rfl⟩)
    · show _ = some ((s i).asg u)
      rw [hs i u hu]
      have : u < (samples[i.1]).length := by have := (hr i).1; simp only [Fin.getElem_fin] at this; rw [this]; exact hu
      rw [List.getElem?_eq_getElem this, Fin.getElem_fin]
      unfold asg
      rw [getD_of_lt this]
  calc _ ≤ uniformDraws m dims.length (⋃ s ∈ Finset.univ.filter bad', samplesAre N prob (n := dims.length) (fun i => (s i).asg)) := measure_mono hcover
    _ ≤ ∑ s ∈ Finset.univ.filter bad', uniformDraws m dims.length (samplesAre N prob (n := dims.length) (fun i => (s i).asg)) :=
        measure_biUnion_finset_le _ _
    _ = ∑ s ∈ Finset.univ.filter bad', ENNReal.ofReal (∏ i, law dims cond (s i)) :=
        Finset.sum_congr rfl (fun s _ => C99_law hpos hne hops hN cond hcond m _ (fun i => Outcome.asg_lt (s i)))
    _ = ENNReal.ofReal (∑ s ∈ Finset.univ.filter bad', ∏ i, law dims cond (s i)) :=
        (ENNReal.ofReal_sum_of_nonneg (fun s _ => Finset.prod_nonneg (fun i _ => hP (s i)))).symm
    _ = _ := by
        congr 1
        unfold expect
        rw [Finset.sum_filter]
        refine Finset.sum_congr rfl (fun s _ => ?_)
        by_cases h0 : ∃ i, law dims cond (s i) = 0
        · have hz : ∏ i, law dims cond (s i) = 0 := by
            obtain ⟨i, hi⟩ := h0
            exact Finset.prod_eq_zero (Finset.mem_univ i) hi
          rw [hz, zero_mul, ite_self]
        · by_cases h : bad s
          · rw [if_pos (show bad' s from Or.inl h)]
            exact ((congrArg _ (if_pos h)).trans (mul_one _)).symm
          · rw [if_neg (show ¬ bad' s from fun h' => h'.elim h h0)]
            exact ((congrArg _ (if_neg h)).trans (mul_zero _)).symm

/-- The probability that one of finitely many things happens. -/
theorem expect_exists_le {A ι : Type} [Fintype A] {P : A → ℝ} (hP : ∀ a, 0 ≤ P a) {m : Nat} (t : Finset ι) (B : ι → (Fin m → A) → Prop)
    [∀ i, DecidablePred (B i)] [DecidablePred (fun s => ∃ i ∈ t, B i s)] :
    expect P m (fun s => if ∃ i ∈ t, B i s then 1 else 0) ≤ ∑ i ∈ t, expect P m (fun s => if B i s then 1 else 0) := by
  rw [← expect_sum]
  apply expect_mono hP
  intro s
  split
  · next h =>
    obtain ⟨i, hi, hb⟩ := h
    have := Finset.single_le_sum (f := fun i => if B i s then (1 : ℝ) else 0) (fun j _ => by split <;> norm_num) hi
    simp only [hb, if_true] at this
    exact this
  · exact Finset.sum_nonneg (fun j _ => by split <;> norm_num)

theorem sumOut_value {card : Nat → Nat} (us : List Nat) (k : ℝ) (a : Assignment) : sumOut card us (fun _ => k) a = (us.map card).prod * k := by
  induction us generalizing a with
  | nil => simp [sumOut]
  | cons u us ih =>
    simp only [sumOut, ih, List.map_cons, List.prod_cons]
    rw [Finset.sum_const, Finset.card_range, nsmul_eq_mul]
    push_cast
    ring

/-- There are at most as many degrees of freedom as combinations of values. -/
theorem degrees_le (card : Nat → Nat) (rows : List Assignment) (x y : Nat) (z : List Nat) :
    degrees card rows x y z ≤ ((z ++ [x, y]).map card).prod := by
  have ho : ∀ v a, observedValues card rows v z a ≤ card v := fun v a => by
    unfold observedValues
    exact le_trans (Finset.card_filter_le _ _) (by rw [Finset.card_range])
  have : (degrees card rows x y z : ℝ) ≤ (((z ++ [x, y]).map card).prod : Nat) := by
    unfold degrees
    rw [sumOut_cast]
    refine le_trans (sumOut_mono (g := fun _ => ((card x * card y : Nat) : ℝ)) (fun a => ?_) _) (le_of_eq ?_)
    · have h1 := ho x a
      have h2 := ho y a
      exact_mod_cast Nat.mul_le_mul (by omega) (by omega)
    · rw [sumOut_value, List.map_append, List.prod_append]
      push_cast
      simp
  exact_mod_cast this

/-- The share of the `m` samples of `N` in which the variables `vs` have their values in `c` is closer than `δ` to `p`. -/
def FrequencyClose (N : Net) (prob : Nat → Nat → Config → Except Fault ℝ) (m : Nat) (draws : Nat → Nat → {u : ℝ // 0 < u ∧ u ≤ 1})
    (vs : List Nat) (c : Assignment) (p δ : ℝ) : Prop :=
  ∃ samples N', generateSamples inversion N prob m draws = .ok (samples, N') ∧ |(countSame (samples.map asg) vs c : ℝ) / m - p| < δ

/-- C102.  The share of the samples that show given values deviates from the probability of the values by `δ` or more with probability at
most `1 / (4 m δ²)`. -/
theorem C102_frequency (hpos : ∀ d ∈ dims, 0 < d) (hne : dims ≠ []) (hops : ∀ op ∈ ops, OpInRange dims.length op)
    (hN : (Net.empty dims).run ops = .ok N) (cond : Nat → Assignment → ℝ)
    (hcond : ∀ (v : Nat) node, N.nodes[v]? = some node → ∀ a, InRange (fun j => dims.getD j 0) (v :: node.parents) a →
      prob v (a v) (configOf a node.parents) = .ok (cond v a) ∧ 0 ≤ cond v a ∧
        ∑ y ∈ Finset.range (dims.getD v 0), cond v (a.set v y) = 1)
    {vs : List Nat} (hvs : ∀ p ∈ vs, p < dims.length) (c : Assignment) {δ : ℝ} (hδ : 0 < δ) {m : Nat} (hm : 0 < m) :
    uniformDraws m dims.length {w | ¬ FrequencyClose N prob m (drawsOf w) vs c
        (marginal (fun j => dims.getD j 0) dims.length (fun a => ∏ u ∈ Finset.range dims.length, cond u a) vs c) δ} ≤
      ENNReal.ofReal (1 / (4 * m * δ ^ 2)) := by
  classical
  obtain ⟨hP, hP1, hmg⟩ := law_ok hpos hops hN cond hcond
  refine le_trans (le_trans (measure_mono ?_) (samples_bound hpos hne hops hN cond hcond
    (bad := fun s : Fin m → Outcome (fun j => dims.getD j 0) dims.length => δ ≤ |(∑ i, if Agrees (observed c vs) (s i).asg then (1 : ℝ) else 0) / m -
      marginal (fun j => dims.getD j 0) dims.length (fun a => ∏ u ∈ Finset.range dims.length, cond u a) vs c|)))
    (ENNReal.ofReal_le_ofReal (frequency_event hP hP1 (B := fun o => Agrees (observed c vs) o.asg) (hmg vs c).symm hδ hm))
  rintro w hw ⟨samples, N', s, g1, -, -, -, g2, -, g3⟩
  refine hw ⟨samples, N', g1, ?_⟩
  rw [g2 vs c hvs]
  exact not_le.1 g3

/-- The test declares `x` and `y` dependent given `z` on the basis of `m` samples of `N`. -/
def Detected (N : Net) (prob : Nat → Nat → Config → Except Fault ℝ) (pchisq : ℝ → Nat → Option ℝ) (alpha : ℝ) (dims : List Nat) (m : Nat)
    (draws : Nat → Nat → {u : ℝ // 0 < u ∧ u ≤ 1}) (x y : Nat) (z : List Nat) : Prop :=
  ∃ samples N' res, generateSamples inversion N prob m draws = .ok (samples, N') ∧
    independenceResult Real.log pchisq alpha dims (columnsOf dims.length samples) m x y z 1 = .ok res ∧ res.indep = false

theorem product_close {a b c d : ℝ} {δ : ℝ} (ha : |a - b| ≤ δ) (hc : |c - d| ≤ δ) (hc0 : 0 ≤ c) (hc1 : c ≤ 1) (hb0 : 0 ≤ b) (hb1 : b ≤ 1) :
    |a * c - b * d| ≤ 2 * δ := by
  have e : a * c - b * d = (a - b) * c + b * (c - d) := by ring
  rw [e]
  refine le_trans (abs_add_le _ _) ?_
  rw [abs_mul, abs_mul, abs_of_nonneg hc0, abs_of_nonneg hb0]
  have h1 : |a - b| * c ≤ |a - b| := mul_le_of_le_one_right (abs_nonneg _) hc1
  have h2 : b * |c - d| ≤ |c - d| := mul_le_of_le_one_left (abs_nonneg _) hb1
  linarith

theorem dims_get (v : Nat) (hv : v < dims.length) : dims[v]? = some (dims.getD v 0) := by
  rw [List.getD_eq_getElem?_getD, List.getElem?_eq_getElem hv, Option.getD_some]

/-- C102.  Dependence is detected: if P(x,y,z) P(z) and P(x,z) P(y,z) differ by `D > 0` for some values, and a statistic of `m D² / 8` is
significant, the test on `m` samples declares `x` and `y` dependent given `z` except with probability at most 64 / (m D²). -/
theorem C102_detected (hpos : ∀ d ∈ dims, 0 < d) (hne : dims ≠ []) (hops : ∀ op ∈ ops, OpInRange dims.length op)
    (hN : (Net.empty dims).run ops = .ok N) (cond : Nat → Assignment → ℝ)
    (hcond : ∀ (v : Nat) node, N.nodes[v]? = some node → ∀ a, InRange (fun j => dims.getD j 0) (v :: node.parents) a →
      prob v (a v) (configOf a node.parents) = .ok (cond v a) ∧ 0 ≤ cond v a ∧
        ∑ y ∈ Finset.range (dims.getD v 0), cond v (a.set v y) = 1)
    {x y : Nat} {z : List Nat} (hv : ∀ v ∈ z ++ [x, y], v < dims.length) (hn : (z ++ [x, y]).Nodup) {p : List Nat → Assignment → ℝ}
    (hp : p = marginal (fun j => dims.getD j 0) dims.length (fun a => ∏ u ∈ Finset.range dims.length, cond u a))
    {a : Assignment} (ha : InRange (fun j => dims.getD j 0) (z ++ [x, y]) a) {D : ℝ} (hD0 : 0 < D)
    (hD : D ≤ |p (z ++ [x, y]) a * p z a - p (z ++ [x]) a * p (z ++ [y]) a|) {pchisq : ℝ → Nat → Option ℝ} {alpha : ℝ} {m : Nat} (hm : 0 < m)
    (hsig : ∀ g df, 0 < df → df ≤ ((z ++ [x, y]).map (fun j => dims.getD j 0)).prod → m * D ^ 2 / 8 ≤ g →
      ∀ q, pchisq g df = some q → 1 - q ≤ alpha) :
    uniformDraws m dims.length {w | ¬ Detected N prob pchisq alpha dims m (drawsOf w) x y z} ≤ ENNReal.ofReal (64 / (m * D ^ 2)) := by
  classical
  obtain ⟨hP, hP1, hmg⟩ := law_ok hpos hops hN cond hcond
  have m0 : (0 : ℝ) < m := by exact_mod_cast hm
  have hcardpos : ∀ v < dims.length, 0 < dims.getD v 0 := by
    intro v hv
    rw [List.getD_eq_getElem?_getD, List.getElem?_eq_getElem hv, Option.getD_some]
    exact hpos _ (List.getElem_mem hv)
  let sets : Finset (List Nat) := {z ++ [x, y], z, z ++ [x], z ++ [y]}
  have hsets : ∀ vs ∈ sets, ∀ v ∈ vs, v < dims.length := by
    intro vs hvs v hm
    simp only [sets, Finset.mem_insert, Finset.mem_singleton] at hvs
    apply hv
    rcases hvs with rfl | rfl | rfl | rfl
    · exact hm
    · exact List.mem_append_left _ hm
    · rcases List.mem_append.1 hm with h | h
      · exact List.mem_append_left _ h
      · exact List.mem_append_right _ (by simp_all)
    · rcases List.mem_append.1 hm with h | h
      · exact List.mem_append_left _ h
      · exact List.mem_append_right _ (by simp_all)
  have hp01 : ∀ vs, 0 ≤ p vs a ∧ p vs a ≤ 1 := by
    intro vs
    rw [hp, hmg, ← hP1]
    exact ⟨Finset.sum_nonneg (fun o _ => by split <;> simp [hP o]), Finset.sum_le_sum (fun o _ => by split <;> simp [hP o])⟩
  let B : List Nat → (Fin m → Outcome (fun j => dims.getD j 0) dims.length) → Prop :=
    fun vs s => D / 8 ≤ |(∑ i, if Agrees (observed a vs) (s i).asg then (1 : ℝ) else 0) / m - p vs a|
  have hbound : expect (law dims cond) m (fun s => if ∃ vs ∈ sets, B vs s then 1 else 0) ≤ 64 / (m * D ^ 2) := by
    refine le_trans (expect_exists_le hP sets B) ?_
    have h1 : ∀ vs ∈ sets, expect (law dims cond) m (fun s => if B vs s then 1 else 0) ≤ 1 / (4 * m * (D / 8) ^ 2) := by
      intro vs _
      exact frequency_event hP hP1 (B := fun o => Agrees (observed a vs) o.asg) (by rw [hp]; exact (hmg vs a).symm) (by linarith) hm
    refine le_trans (Finset.sum_le_sum h1) ?_
    rw [Finset.sum_const, nsmul_eq_mul]
    have h2 : (sets.card : ℝ) ≤ 4 := by
      have : sets.card ≤ 4 := Finset.card_le_four
      exact_mod_cast this
    refine le_trans (mul_le_mul_of_nonneg_right h2 (by positivity)) (le_of_eq ?_)
    field_simp
    norm_num
  refine le_trans (le_trans (measure_mono ?_) (samples_bound hpos hne hops hN cond hcond (bad := fun s => ∃ vs ∈ sets, B vs s)))
    (ENNReal.ofReal_le_ofReal hbound)
  rintro w hw ⟨samples, N', s, g1, glen, -, gc, g2, -, g3⟩
  apply hw
  -- the frequencies
  have hclose : ∀ vs ∈ sets, |(countSame (samples.map asg) vs a : ℝ) / m - p vs a| ≤ D / 8 := by
    intro vs hvs
    rw [g2 vs a (hsets vs hvs)]
    by_contra hc
    exact g3 ⟨vs, hvs, (not_le.1 hc).le⟩
  have hlen : (samples.map asg).length = m := by rw [List.length_map, glen]
  have hf01 : ∀ vs, 0 ≤ (countSame (samples.map asg) vs a : ℝ) / m ∧ (countSame (samples.map asg) vs a : ℝ) / m ≤ 1 := by
    intro vs
    refine ⟨by positivity, div_le_one_of_le₀ ?_ m0.le⟩
    have : countSame (samples.map asg) vs a ≤ m := by rw [← hlen]; exact List.countP_le_length
    exact_mod_cast this
  have hlow := C102_lower_bound gc hv hn (by intro e; rw [e] at hlen; simp at hlen; omega) ha
  rw [hlen] at hlow
  have k1 := product_close (hclose (z ++ [x, y]) (by simp [sets])) (hclose z (by simp [sets])) (hf01 z).1 (hf01 z).2 (hp01 _).1 (hp01 _).2
  have k2 := product_close (hclose (z ++ [x]) (by simp [sets])) (hclose (z ++ [y]) (by simp [sets])) (hf01 _).1 (hf01 _).2 (hp01 _).1 (hp01 _).2
  set f1 : ℝ := (countSame (samples.map asg) (z ++ [x, y]) a : ℝ) / m
  set f2 : ℝ := (countSame (samples.map asg) z a : ℝ) / m
  set f3 : ℝ := (countSame (samples.map asg) (z ++ [x]) a : ℝ) / m
  set f4 : ℝ := (countSame (samples.map asg) (z ++ [y]) a : ℝ) / m
  have hgap : D / 2 ≤ |f1 * f2 - f3 * f4| := by
    have e : p (z ++ [x, y]) a * p z a - p (z ++ [x]) a * p (z ++ [y]) a =
        (f1 * f2 - f3 * f4) - (f1 * f2 - p (z ++ [x, y]) a * p z a) + (f3 * f4 - p (z ++ [x]) a * p (z ++ [y]) a) := by ring
    rw [e] at hD
    have t1 := abs_add_le ((f1 * f2 - f3 * f4) - (f1 * f2 - p (z ++ [x, y]) a * p z a)) (f3 * f4 - p (z ++ [x]) a * p (z ++ [y]) a)
    have t2 := abs_sub (f1 * f2 - f3 * f4) (f1 * f2 - p (z ++ [x, y]) a * p z a)
    linarith
  have hG : m * D ^ 2 / 8 ≤ gSquare Real.log (fun j => dims.getD j 0) (samples.map asg) x y z := by
    refine le_trans ?_ hlow
    have hsq : (D / 2) ^ 2 ≤ (f1 * f2 - f3 * f4) ^ 2 := by
      rw [← sq_abs (f1 * f2 - f3 * f4)]
      exact pow_le_pow_left₀ (by linarith) hgap 2
    have : (m : ℝ) * D ^ 2 / 8 = m / 2 * (D / 2) ^ 2 := by ring
    rw [this]
    exact mul_le_mul_of_nonneg_left hsq (by positivity)
  obtain ⟨res, r1, r2, -⟩ := C27_statistic Real.log pchisq alpha gc (dims := dims) (fun v hv => dims_get v hv) hv hn
  rw [hlen] at r1
  refine ⟨samples, N', res, g1, r1, ?_⟩
  rw [Bool.eq_false_iff]
  intro hi
  obtain ⟨s1, s2, -, -, s5⟩ := C88_statistic gc hv hn ⟨hcardpos x (hv x (by simp)), hcardpos y (hv y (by simp))⟩
  have hG0 : 0 < gSquare Real.log (fun j => dims.getD j 0) (samples.map asg) x y z := lt_of_lt_of_le (by positivity) hG
  have hdf : 0 < degrees (fun j => dims.getD j 0) (samples.map asg) x y z := by
    rcases Nat.eq_zero_or_pos (degrees (fun j => dims.getD j 0) (samples.map asg) x y z) with h | h
    · exact absurd (s2.2 (s5 h)) hG0.ne'
    · exact h
  rcases r2.1 hi with h | ⟨q, q1, q2⟩
  · omega
  · have := hsig _ _ hdf (degrees_le _ _ x y z) hG q q1
    linarith

end samples

/-- Four instances of two equal binary variables: the statistic is at least 4 / 2 · (1 / 4)². -/
example : (4 : ℝ) / 2 * (1 / 4) ^ 2 ≤ gSquare Real.log (fun _ => 2) [fun _ => 0, fun _ => 0, fun _ => 1, fun _ => 1] 0 1 [] := by
  have hc : Columns (fun _ => 2) 2 [[0, 0, 1, 1], [0, 0, 1, 1]] [fun _ => 0, fun _ => 0, fun _ => 1, fun _ => 1] := by
    constructor
    · intro v hv
      obtain rfl | rfl : v = 0 ∨ v = 1 := by omega
      · exact ⟨_, rfl, by rintro (_ | _ | _ | _ | j) r hr <;> simp at hr <;> subst hr <;> rfl⟩
      · exact ⟨_, rfl, by rintro (_ | _ | _ | _ | j) r hr <;> simp at hr <;> subst hr <;> rfl⟩
    · intro r hr v hv
      simp only [List.mem_cons, List.not_mem_nil, or_false] at hr
      rcases hr with rfl | rfl | rfl | rfl <;> dsimp only <;> omega
  have := C102_lower_bound (x := 0) (y := 1) (z := []) hc (by simp) (by simp) (by simp) (a := fun _ => 0) (fun _ _ => by norm_num)
  refine le_trans (le_of_eq ?_) this
  simp [countSame]
  norm_num

/-- The share of equal outcomes 0, 0 among a million samples of the copying network deviates from 3/8 by 1/100 or more with probability at most
1/400. -/
example : ∃ N, (Net.empty [2, 2]).run [.addDirected 0 1] = .ok N ∧
    uniformDraws 1000000 2 {w | ¬ FrequencyClose N coinProb 1000000 (drawsOf w) [0, 1] (fun _ => 0) (3 / 8) (1 / 100)} ≤ ENNReal.ofReal (1 / 400) := by
  obtain ⟨N, h1, _, _, h2⟩ := coin_ok
  refine ⟨N, h1, ?_⟩
  have := C102_frequency (dims := [2, 2]) (by simp) (by simp) (by simp [OpInRange]) h1 coinCond h2 (vs := [0, 1]) (by simp) (fun _ => 0)
    (δ := 1 / 100) (by norm_num) (m := 1000000) (by norm_num)
  have e : marginal (fun j => [2, 2].getD j 0) [2, 2].length (fun a => ∏ u ∈ Finset.range [2, 2].length, coinCond u a) [0, 1] (fun _ => 0) = 3 / 8 := by
    simp [marginal, weight, sumOut, List.range_succ, Agrees, observed, coinCond, Finset.sum_range_succ, Finset.prod_range_succ, Assignment.set]
    norm_num
  rw [e] at this
  refine le_trans this (ENNReal.ofReal_le_ofReal ?_)
  norm_num

end FastPGM
