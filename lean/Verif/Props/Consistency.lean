import Verif.Props.Detection
import Verif.Props.Irrelevant
import Verif.Props.Orientation
import Verif.Props.Skeleton

/-!
C102, C103: graphs learned from more and more samples of a network.
-/

namespace FastPGM

open Spec MeasureTheory

/-! ### Markov property -/

/-- C103.  Nodes that are d-separated in the graph are independent in the joint distribution. -/
theorem C103_markov {K : Type} [Field K] {dims : List Nat} {ops : List EdgeOp} {N : Net} {card : Nat → Nat} {pts : List (Table K)}
    (hops : ∀ op ∈ ops, OpInRange dims.length op) (hN : (Net.empty dims).run ops = .ok N) (hpts : NodeTables card N pts)
    (hcond : ConditionalTables card pts) {x y : Nat} {z : List Nat} (hv : ∀ v ∈ z ++ [x, y], v < dims.length) (hn : (z ++ [x, y]).Nodup)
    (hsep : DSeparated (ParentOf N) z x y) : CondIndependent card dims.length (joint pts) x y z := by
  classical
  obtain ⟨hinv, hlen⟩ := netInv_of_run hops hN
  obtain ⟨l, _, hl⟩ := C16_genTopoOrd hops hN
  rw [← hlen] at hl
  obtain ⟨hz, h2, h3⟩ := List.nodup_append.1 hn
  have hx : x ∉ z := fun h => h3 x h x (by simp) rfl
  have hxy : x ≠ y := by simpa using h2
  have hacyc : ¬ Cyclic (ParentOf N) := by
    have : ParentOf N = ChildOf N := by
      funext a b
      exact propext (parentOf_iff_childOf hinv.wf)
    rw [this]
    exact not_cyclic_of_order hl
  intro a _
  have hfst : (observed a z).map Prod.fst = z := by
    unfold observed
    rw [List.map_map]
    exact List.map_id z
  obtain ⟨H, G, h⟩ := sumOut_separated (card := card) hinv hpts hcond hl (E := observed a z) (q := x) (W := [y])
    (by rw [hfst]; exact hz) (by
      intro e he
      obtain ⟨v, hv', rfl⟩ := List.mem_map.1 he
      rw [hlen]
      exact hv v (by simp [hv'])) (by rw [hlen]; exact hv x (by simp)) (by rw [hfst]; exact hx) (by
      intro w hw
      rw [List.mem_singleton] at hw
      rw [hlen, hw]
      exact hv y (by simp)) (by simpa using hxy) (by
      intro w hw
      rw [List.mem_singleton] at hw
      rw [hw, hfst]
      exact (dSeparated_iff hacyc hxy).1 hsep)
  have f1 : DependsOn (fun _ : Assignment => (1 : K)) [x] := fun _ _ _ => rfl
  have fx : DependsOn (fun b : Assignment => if b x = a x then (1 : K) else 0) [x] := fun a b hab => by simp only [hab x (by simp)]
  have g1 : DependsOn (fun _ : Assignment => (1 : K)) [y] := fun _ _ _ => rfl
  have gy : DependsOn (fun b : Assignment => if b y = a y then (1 : K) else 0) [y] := fun a b hab => by simp only [hab y (by simp)]
  have happ : ∀ (vs : List Nat) b, Agrees (observed a (z ++ vs)) b ↔ Agrees (observed a z) b ∧ ∀ v ∈ vs, b v = a v := by
    intro vs b
    unfold Agrees observed
    simp only [List.map_append, List.mem_append, List.mem_map]
    constructor
    · intro h'
      exact ⟨fun e he => h' e (Or.inl he), fun v hv' => h' (v, a v) (Or.inr ⟨v, hv', rfl⟩)⟩
    · rintro ⟨h', h''⟩ e (he | ⟨v, hv', rfl⟩)
      · exact h' e he
      · exact h'' v hv'
  have w1 : marginal card dims.length (joint pts) (z ++ [x, y]) a = H (fun b => if b x = a x then 1 else 0) * G (fun b => if b y = a y then 1 else 0) := by
    rw [← h _ _ fx gy, ← hlen]
    unfold marginal weight
    congr 1
    funext b
    by_cases k1 : Agrees (observed a z) b <;> by_cases k2 : b x = a x <;> by_cases k3 : b y = a y <;> simp [happ, k1, k2, k3]
  have w2 : marginal card dims.length (joint pts) z a = H (fun _ => 1) * G (fun _ => 1) := by
    rw [← h _ _ f1 g1, ← hlen]
    unfold marginal weight
    congr 1
    funext b
    by_cases k1 : Agrees (observed a z) b <;> simp [k1]
  have w3 : marginal card dims.length (joint pts) (z ++ [x]) a = H (fun b => if b x = a x then 1 else 0) * G (fun _ => 1) := by
    rw [← h _ _ fx g1, ← hlen]
    unfold marginal weight
    congr 1
    funext b
    by_cases k1 : Agrees (observed a z) b <;> by_cases k2 : b x = a x <;> simp [happ, k1, k2]
  have w4 : marginal card dims.length (joint pts) (z ++ [y]) a = H (fun _ => 1) * G (fun b => if b y = a y then 1 else 0) := by
    rw [← h _ _ f1 gy, ← hlen]
    unfold marginal weight
    congr 1
    funext b
    by_cases k1 : Agrees (observed a z) b <;> by_cases k3 : b y = a y <;> simp [happ, k1, k3]
  rw [w1, w2, w3, w4]
  ring

/-! ### An upper bound of the statistic -/

/-- One cell: the part of the statistic that does not cancel is at most `2 (O N - R C)² / (N R C)`. -/
theorem cellExcess_le {rows : List Assignment} {x y : Nat} {z : List Nat} (a : Assignment) :
    cellExcess rows x y z a * ((countSame rows z a : ℝ) * (countSame rows (z ++ [x]) a : ℝ) * (countSame rows (z ++ [y]) a : ℝ)) ≤
      2 * ((countSame rows (z ++ [x, y]) a : ℝ) * (countSame rows z a : ℝ) -
        (countSame rows (z ++ [x]) a : ℝ) * (countSame rows (z ++ [y]) a : ℝ)) ^ 2 := by
  have ho := cell_nonzero (rows := rows) (x := x) (y := y) (z := z) a
  have hr := row_nonzero (rows := rows) (x := x) (z := z) a
  have hc := row_nonzero (rows := rows) (x := y) (z := z) a
  unfold cellExcess
  generalize countSame rows (z ++ [x, y]) a = o at *
  generalize countSame rows (z ++ [x]) a = r at *
  generalize countSame rows (z ++ [y]) a = c at *
  generalize countSame rows z a = n at *
  by_cases h0 : n = 0 ∨ r = 0 ∨ c = 0
  · have : (n : ℝ) * (r : ℝ) * (c : ℝ) = 0 := by
      rcases h0 with rfl | rfl | rfl <;> simp
    rw [this, mul_zero]
    positivity
  · push Not at h0
    obtain ⟨hn, hr0, hc0⟩ := h0
    have r0 : (0 : ℝ) < r := by exact_mod_cast Nat.pos_of_ne_zero hr0
    have c0 : (0 : ℝ) < c := by exact_mod_cast Nat.pos_of_ne_zero hc0
    have n0 : (0 : ℝ) < n := by exact_mod_cast Nat.pos_of_ne_zero hn
    have hg : gTerm Real.log o r c n ≤ 2 * o * ((o : ℝ) / ((c : ℝ) * (r : ℝ) / (n : ℝ)) - 1) := by
      unfold gTerm
      by_cases h : o = 0
      · simp [h]
      · rw [if_neg h]
        have o0 : (0 : ℝ) < o := by exact_mod_cast Nat.pos_of_ne_zero h
        have := Real.log_le_sub_one_of_pos (x := (o : ℝ) / ((c : ℝ) * (r : ℝ) / (n : ℝ))) (by positivity)
        exact mul_le_mul_of_nonneg_left this (by positivity)
    have h1 : gTerm Real.log o r c n - 2 * ((o : ℝ) - (r : ℝ) * (c : ℝ) / (n : ℝ)) ≤
        2 * o * ((o : ℝ) / ((c : ℝ) * (r : ℝ) / (n : ℝ)) - 1) - 2 * ((o : ℝ) - (r : ℝ) * (c : ℝ) / (n : ℝ)) := by linarith
    refine le_trans (mul_le_mul_of_nonneg_right h1 (by positivity)) (le_of_eq ?_)
    field_simp

theorem cellExcess_empty {rows : List Assignment} {x y : Nat} {z : List Nat} {a : Assignment}
    (h : countSame rows z a = 0 ∨ countSame rows (z ++ [x]) a = 0 ∨ countSame rows (z ++ [y]) a = 0) : cellExcess rows x y z a = 0 := by
  have ho := cell_nonzero (rows := rows) (x := x) (y := y) (z := z) a
  have o0 : countSame rows (z ++ [x, y]) a = 0 := by
    by_contra hc
    obtain ⟨h1, h2, h3⟩ := ho hc
    rcases h with h | h | h
    · exact h3 h
    · exact h1 h
    · exact h2 h
  unfold cellExcess gTerm
  rw [o0, if_pos rfl]
  rcases h with h | h | h <;> simp [h]

theorem sumOut_le_const {card : Nat → Nat} {us : List Nat} {f : Assignment → ℝ} {k : ℝ} {a : Assignment}
    (h : ∀ b, InRange card us b → (∀ v, v ∉ us → b v = a v) → f b ≤ k) : sumOut card us f a ≤ (us.map card).prod * k := by
  have e : sumOut card us f a = sumOut card us (fun b => min (f b) k) a := by
    apply sumOut_congr
    intro b hb hb'
    exact (min_eq_left (h b hb hb')).symm
  rw [e, ← sumOut_value us k a]
  exact sumOut_mono (fun b => min_le_right _ _) a

/-- C103.  If, for all values, the frequencies are closer than `δ` to probabilities under which `x` and `y` are independent given `z`, the
statistic is at most proportional to `m δ²`.  All probabilities are 0 or at least `q`; what is impossible does not occur. -/
theorem C103_upper_bound {card : Nat → Nat} {numVars : Nat} {cols : List (List Nat)} {rows : List Assignment} {x y : Nat} {z : List Nat}
    (hc : Columns card numVars cols rows) (hv : ∀ v ∈ z ++ [x, y], v < numVars) (hn : (z ++ [x, y]).Nodup)
    (hpos : ∀ v < numVars, 0 < card v) {p : List Nat → Assignment → ℝ} {q δ : ℝ} (hq0 : 0 < q) (hδ : δ ≤ q / 2) (hm : rows ≠ [])
    (hp : ∀ a, InRange card (List.range numVars) a → (∀ v, numVars ≤ v → a v = 0) →
      p (z ++ [x, y]) a * p z a = p (z ++ [x]) a * p (z ++ [y]) a ∧
      ∀ vs ∈ [z ++ [x, y], z, z ++ [x], z ++ [y]], 0 ≤ p vs a ∧ p vs a ≤ 1 ∧ (p vs a = 0 ∨ q ≤ p vs a) ∧ (p vs a = 0 → countSame rows vs a = 0) ∧
        |(countSame rows vs a : ℝ) / rows.length - p vs a| ≤ δ) :
    gSquare Real.log card rows x y z ≤ ((z ++ [x, y]).map card).prod * (256 * (rows.length * δ ^ 2) / q ^ 3) := by
  have hr : ∀ v ∈ z ++ [x, y], ∀ r ∈ rows, r v < card v := fun v hm r h => hc.lt r h v (hv v hm)
  obtain ⟨hz, h2, h3⟩ := List.nodup_append.1 hn
  have hx : x ∉ z := fun h => h3 x h x (by simp) rfl
  have hy : y ∉ z := fun h => h3 y h y (by simp) rfl
  have hxy : x ≠ y := by simpa using h2
  have m0 : (0 : ℝ) < rows.length := by exact_mod_cast List.length_pos_iff.2 hm
  rw [gSquare_excess hx hy hxy (hr x (by simp)) (hr y (by simp))]
  apply sumOut_le_const
  intro a ha ha'
  have hrange : InRange card (List.range numVars) a := by
    intro v hv'
    by_cases h : v ∈ z ++ [x, y]
    · exact ha v h
    · rw [ha' v h]
      exact hpos v (List.mem_range.1 hv')
  obtain ⟨hind, hall⟩ := hp a hrange (fun v hv' => ha' v (fun h => absurd (hv v h) (by omega)))
  obtain ⟨-, o1, -, -, o5⟩ := hall (z ++ [x, y]) (by simp)
  obtain ⟨n0, n1, n2, n3, n5⟩ := hall z (by simp)
  obtain ⟨r0, r1, r2, r3, r5⟩ := hall (z ++ [x]) (by simp)
  obtain ⟨c0, c1, c2, c3, c5⟩ := hall (z ++ [y]) (by simp)
  have hK : 0 ≤ 256 * (rows.length * δ ^ 2) / q ^ 3 := by positivity
  rcases n2 with h | hn2
  · rw [cellExcess_empty (Or.inl (n3 h))]; exact hK
  rcases r2 with h | hr2
  · rw [cellExcess_empty (Or.inr (Or.inl (r3 h)))]; exact hK
  rcases c2 with h | hc2
  · rw [cellExcess_empty (Or.inr (Or.inr (c3 h)))]; exact hK
  have key := cellExcess_le (rows := rows) (x := x) (y := y) (z := z) a
  have hex := cellExcess_nonneg (rows := rows) (x := x) (y := y) (z := z) a
  have hf01 : ∀ vs, 0 ≤ (countSame rows vs a : ℝ) / rows.length ∧ (countSame rows vs a : ℝ) / rows.length ≤ 1 := by
    intro vs
    refine ⟨by positivity, div_le_one_of_le₀ ?_ m0.le⟩
    have : countSame rows vs a ≤ rows.length := List.countP_le_length
    exact_mod_cast this
  have k1 := product_close o5 n5 (hf01 z).1 (hf01 z).2 (hall (z ++ [x, y]) (by simp)).1 o1
  have k2 := product_close r5 c5 (hf01 (z ++ [y])).1 (hf01 (z ++ [y])).2 r0 r1
  have e1 : ∀ vs, (countSame rows vs a : ℝ) = rows.length * ((countSame rows vs a : ℝ) / rows.length) := fun vs => by field_simp
  set m : ℝ := (rows.length : ℝ)
  rw [e1 (z ++ [x, y]), e1 z, e1 (z ++ [x]), e1 (z ++ [y])] at key
  set f1 : ℝ := (countSame rows (z ++ [x, y]) a : ℝ) / m
  set f2 : ℝ := (countSame rows z a : ℝ) / m
  set f3 : ℝ := (countSame rows (z ++ [x]) a : ℝ) / m
  set f4 : ℝ := (countSame rows (z ++ [y]) a : ℝ) / m
  have b2 : q / 2 ≤ f2 := by have := abs_le.1 n5; linarith
  have b3 : q / 2 ≤ f3 := by have := abs_le.1 r5; linarith
  have b4 : q / 2 ≤ f4 := by have := abs_le.1 c5; linarith
  have hgap : |f1 * f2 - f3 * f4| ≤ 4 * δ := by
    have e : f1 * f2 - f3 * f4 = (f1 * f2 - p (z ++ [x, y]) a * p z a) - (f3 * f4 - p (z ++ [x]) a * p (z ++ [y]) a) := by
      rw [hind]; ring
    rw [e]
    refine le_trans (abs_sub _ _) ?_
    linarith
  have hsq : (f1 * f2 - f3 * f4) ^ 2 ≤ (4 * δ) ^ 2 := by
    rw [← sq_abs (f1 * f2 - f3 * f4)]
    exact pow_le_pow_left₀ (abs_nonneg _) hgap 2
  have hden : m ^ 3 * (q / 2) ^ 3 ≤ m * f2 * (m * f3) * (m * f4) := by
    have : m * f2 * (m * f3) * (m * f4) = m ^ 3 * (f2 * f3 * f4) := by ring
    rw [this]
    apply mul_le_mul_of_nonneg_left _ (by positivity)
    have h4 : (q / 2) * (q / 2) ≤ f2 * f3 := mul_le_mul b2 b3 (by linarith) (by linarith)
    have h5 : (q / 2) * (q / 2) * (q / 2) ≤ f2 * f3 * f4 := mul_le_mul h4 b4 (by linarith) (le_trans (by positivity) h4)
    calc (q / 2) ^ 3 = (q / 2) * (q / 2) * (q / 2) := by ring
      _ ≤ _ := h5
  have h6 : cellExcess rows x y z a * (m ^ 3 * (q / 2) ^ 3) ≤ 2 * (m ^ 4 * (4 * δ) ^ 2) := by
    refine le_trans (mul_le_mul_of_nonneg_left hden hex) (le_trans key ?_)
    have : (m * f1 * (m * f2) - m * f3 * (m * f4)) ^ 2 = m ^ 4 * (f1 * f2 - f3 * f4) ^ 2 := by ring
    rw [this]
    exact mul_le_mul_of_nonneg_left (mul_le_mul_of_nonneg_left hsq (by positivity)) (by norm_num)
  rw [le_div_iff₀ (by positivity)]
  have h7 : cellExcess rows x y z a * (m ^ 3 * (q / 2) ^ 3) = (cellExcess rows x y z a * q ^ 3) * (m ^ 3 / 8) := by ring
  have h8 : 2 * (m ^ 4 * (4 * δ) ^ 2) = (256 * (m * δ ^ 2)) * (m ^ 3 / 8) := by ring
  rw [h7, h8] at h6
  exact le_of_mul_le_mul_right h6 (by positivity)

section samples

variable {dims : List Nat} {ops : List EdgeOp} {N : Net} {prob : Nat → Nat → Config → Except Fault ℝ}

/-- The test declares `x` and `y` independent given `z` on the basis of `m` samples of `N`. -/
def Accepted (N : Net) (prob : Nat → Nat → Config → Except Fault ℝ) (pchisq : ℝ → Nat → Option ℝ) (alpha : ℝ) (dims : List Nat) (m : Nat)
    (draws : Nat → Nat → {u : ℝ // 0 < u ∧ u ≤ 1}) (x y : Nat) (z : List Nat) : Prop :=
  ∃ samples N' res, generateSamples inversion N prob m draws = .ok (samples, N') ∧
    independenceResult Real.log pchisq alpha dims (columnsOf dims.length samples) m x y z 1 = .ok res ∧ res.indep = true

theorem card_outcome (dims : List Nat) : Fintype.card (Outcome (fun j => dims.getD j 0) dims.length) = dims.prod := by
  rw [Fintype.card_pi]
  simp only [Fintype.card_fin]
  rw [← List.prod_ofFn]
  congr 1
  apply List.ext_getElem
  · simp
  · intro i i1 i2
    simp

/-- An assignment of legal values that is 0 elsewhere is an outcome. -/
theorem outcome_of {card : Nat → Nat} {n : Nat} {a : Assignment} (ha : InRange card (List.range n) a) (h0 : ∀ v, n ≤ v → a v = 0) :
    ∃ o : Outcome card n, o.asg = a := by
  refine ⟨fun v => ⟨a v, ha v (List.mem_range.2 v.2)⟩, ?_⟩
  funext v
  unfold Outcome.asg
  split
  · rfl
  · next h => exact (h0 v (by omega)).symm

/-- C103.  Independence is accepted: let `x` and `y` be independent given `z`, all positive probabilities of values of the variables be at
least `q`, and `κ ≤ m q² / 4`.  If a statistic of `256 C κ / q³`, `C` being the number of combinations of values of the variables tested, is not
significant, the test on `m` samples declares `x` and `y` independent given `z` except with probability at most `Ω / κ`, `Ω` being the number
of combinations of values of all variables. -/
theorem C103_accepted (hpos : ∀ d ∈ dims, 0 < d) (hne : dims ≠ []) (hops : ∀ op ∈ ops, OpInRange dims.length op)
    (hN : (Net.empty dims).run ops = .ok N) (cond : Nat → Assignment → ℝ)
    (hcond : ∀ (v : Nat) node, N.nodes[v]? = some node → ∀ a, InRange (fun j => dims.getD j 0) (v :: node.parents) a →
      prob v (a v) (configOf a node.parents) = .ok (cond v a) ∧ 0 ≤ cond v a ∧
        ∑ y ∈ Finset.range (dims.getD v 0), cond v (a.set v y) = 1)
    {x y : Nat} {z : List Nat} (hv : ∀ v ∈ z ++ [x, y], v < dims.length) (hn : (z ++ [x, y]).Nodup)
    (hind : CondIndependent (fun j => dims.getD j 0) dims.length (fun a => ∏ u ∈ Finset.range dims.length, cond u a) x y z)
    {q κ : ℝ} (hq0 : 0 < q)
    (hq : ∀ o : Outcome (fun j => dims.getD j 0) dims.length, ∀ vs ∈ [z ++ [x, y], z, z ++ [x], z ++ [y]],
      marginal (fun j => dims.getD j 0) dims.length (fun a => ∏ u ∈ Finset.range dims.length, cond u a) vs o.asg = 0 ∨
        q ≤ marginal (fun j => dims.getD j 0) dims.length (fun a => ∏ u ∈ Finset.range dims.length, cond u a) vs o.asg)
    {pchisq : ℝ → Nat → Option ℝ} {alpha : ℝ} {m : Nat} (hm : 0 < m) (hκ0 : 0 < κ) (hκ : κ ≤ m * q ^ 2 / 4)
    (hacc : ∀ g df, 0 < df → df ≤ ((z ++ [x, y]).map (fun j => dims.getD j 0)).prod → 0 ≤ g →
      g ≤ ((z ++ [x, y]).map (fun j => dims.getD j 0)).prod * (256 * κ / q ^ 3) → ∃ r, pchisq g df = some r ∧ alpha < 1 - r) :
    uniformDraws m dims.length {w | ¬ Accepted N prob pchisq alpha dims m (drawsOf w) x y z} ≤ ENNReal.ofReal (dims.prod / κ) := by
  classical
  obtain ⟨hP, hP1, hmg⟩ := law_ok hpos hops hN cond hcond
  set p := marginal (fun j => dims.getD j 0) dims.length (fun a => ∏ u ∈ Finset.range dims.length, cond u a) with hp
  have m0 : (0 : ℝ) < m := by exact_mod_cast hm
  have hcardpos : ∀ v < dims.length, 0 < dims.getD v 0 := by
    intro v hv
    rw [List.getD_eq_getElem?_getD, List.getElem?_eq_getElem hv, Option.getD_some]
    exact hpos _ (List.getElem_mem hv)
  -- the deviation of the frequencies
  set δ : ℝ := Real.sqrt (κ / m) with hδ
  have hδ0 : 0 < δ := Real.sqrt_pos.2 (by positivity)
  have hδ2 : m * δ ^ 2 = κ := by
    rw [hδ, Real.sq_sqrt (by positivity)]
    field_simp
  have hδq : δ ≤ q / 2 := by
    rw [hδ, ← Real.sqrt_sq (show 0 ≤ q / 2 by linarith)]
    apply Real.sqrt_le_sqrt
    rw [div_le_iff₀ m0]
    linarith
  let sets : List (List Nat) := [z ++ [x, y], z, z ++ [x], z ++ [y]]
  have hsets : ∀ vs ∈ sets, ∀ v ∈ vs, v < dims.length := by
    intro vs hvs v hm
    simp only [sets, List.mem_cons, List.not_mem_nil, or_false] at hvs
    apply hv
    rcases hvs with rfl | rfl | rfl | rfl
    · exact hm
    · exact List.mem_append_left _ hm
    · rcases List.mem_append.1 hm with h | h
      · exact List.mem_append_left _ h
      · exact List.mem_append_right _ (by simp_all)
    · rcases List.mem_append.1 hm with h | h
      · exact List.mem_append_left _ h
      · exact List.mem_append_right _ (by simp_all)
  let B : List Nat × Outcome (fun j => dims.getD j 0) dims.length → (Fin m → Outcome (fun j => dims.getD j 0) dims.length) → Prop :=
    fun e s => δ ≤ |(∑ i, if Agrees (observed e.2.asg e.1) (s i).asg then (1 : ℝ) else 0) / m - p e.1 e.2.asg|
  let I : Finset (List Nat × Outcome (fun j => dims.getD j 0) dims.length) := sets.toFinset ×ˢ Finset.univ
  have hbound : expect (law dims cond) m (fun s => if ∃ e ∈ I, B e s then 1 else 0) ≤ dims.prod / κ := by
    refine le_trans (expect_exists_le hP I B) ?_
    have h1 : ∀ e ∈ I, expect (law dims cond) m (fun s => if B e s then 1 else 0) ≤ 1 / (4 * m * δ ^ 2) := by
      intro e _
      exact frequency_event hP hP1 (B := fun o => Agrees (observed e.2.asg e.1) o.asg) (hmg e.1 e.2.asg).symm hδ0 hm
    refine le_trans (Finset.sum_le_sum h1) ?_
    rw [Finset.sum_const, nsmul_eq_mul]
    have h2 : (I.card : ℝ) ≤ 4 * dims.prod := by
      have h3 : I.card ≤ 4 * dims.prod := by
        simp only [I]
        rw [Finset.card_product, Finset.card_univ, card_outcome]
        exact Nat.mul_le_mul_right _ (List.toFinset_card_le sets)
      exact_mod_cast h3
    refine le_trans (mul_le_mul_of_nonneg_right h2 (by positivity)) (le_of_eq ?_)
    rw [mul_assoc 4 (m : ℝ) (δ ^ 2), hδ2]
    field_simp
  refine le_trans (le_trans (measure_mono ?_) (samples_bound hpos hne hops hN cond hcond (bad := fun s => ∃ e ∈ I, B e s)))
    (ENNReal.ofReal_le_ofReal hbound)
  rintro w hw ⟨samples, N', s, g1, glen, -, gc, g2, gpos, g3⟩
  apply hw
  have hlen : (samples.map asg).length = m := by rw [List.length_map, glen]
  have hup := C103_upper_bound (x := x) (y := y) (z := z) gc hv hn hcardpos (p := p) hq0 hδq
    (by intro e; rw [e] at hlen; simp at hlen; omega) (by
    intro a ha ha0
    obtain ⟨o, rfl⟩ := outcome_of ha ha0
    refine ⟨hind _ ha, fun vs hvs => ⟨?_, ?_, hq o vs hvs, ?_, ?_⟩⟩
    · rw [hmg]
      exact Finset.sum_nonneg (fun o _ => by split <;> simp [hP o])
    · rw [hmg, ← hP1]
      exact Finset.sum_le_sum (fun o _ => by split <;> simp [hP o])
    · intro h0
      rw [hmg, Finset.sum_eq_zero_iff_of_nonneg (fun o _ => by split <;> simp [hP o])] at h0
      have : (countSame (samples.map asg) vs o.asg : ℝ) = 0 := by
        rw [g2 vs _ (hsets vs hvs)]
        refine Finset.sum_eq_zero (fun i _ => ?_)
        by_cases h : Agrees (observed o.asg vs) (s i).asg
        · have := h0 (s i) (Finset.mem_univ _)
          rw [if_pos h] at this
          exact absurd this (gpos i)
        · rw [if_neg h]
      exact_mod_cast this
    · rw [hlen, g2 vs _ (hsets vs hvs)]
      by_contra hc
      exact g3 ⟨(vs, o), Finset.mem_product.2 ⟨List.mem_toFinset.2 hvs, Finset.mem_univ _⟩, (not_le.1 hc).le⟩)
  rw [hlen, hδ2] at hup
  obtain ⟨res, r1, r2, -⟩ := C27_statistic Real.log pchisq alpha gc (dims := dims) (fun v hv => dims_get v hv) hv hn
  rw [hlen] at r1
  refine ⟨samples, N', res, g1, r1, r2.2 ?_⟩
  obtain ⟨s1, -, -, -, -⟩ := C88_statistic gc hv hn ⟨hcardpos x (hv x (by simp)), hcardpos y (hv y (by simp))⟩
  rcases Nat.eq_zero_or_pos (degrees (fun j => dims.getD j 0) (samples.map asg) x y z) with h | h
  · exact Or.inl h
  · exact Or.inr (hacc _ _ h (degrees_le _ _ x y z) s1 hup)

/-- The columns of the samples are data over the variables of the network. -/
theorem sample_columns (hpos : ∀ d ∈ dims, 0 < d) (hne : dims ≠ []) (hops : ∀ op ∈ ops, OpInRange dims.length op)
    (hN : (Net.empty dims).run ops = .ok N) (cond : Nat → Assignment → ℝ)
    (hcond : ∀ (v : Nat) node, N.nodes[v]? = some node → ∀ a, InRange (fun j => dims.getD j 0) (v :: node.parents) a →
      prob v (a v) (configOf a node.parents) = .ok (cond v a) ∧ 0 ≤ cond v a ∧
        ∑ y ∈ Finset.range (dims.getD v 0), cond v (a.set v y) = 1)
    (m : Nat) (draws : Nat → Nat → {u : ℝ // 0 < u ∧ u ≤ 1}) :
    ∃ samples N', generateSamples inversion N prob m draws = .ok (samples, N') ∧ samples.length = m ∧
      Columns (fun j => dims.getD j 0) dims.length (columnsOf dims.length samples) (samples.map asg) := by
  have h2 : N.nodes.length = dims.length := (netInv_of_run hops hN).2
  obtain ⟨ord, o1, hall⟩ := C55_samples hpos hne hops hN (weights_of_cond hpos hops hN cond hcond) C61_inversion_possible
  obtain ⟨samples, N', g1, g2, g3⟩ := hall m draws
  refine ⟨samples, N', g1, g2, ?_, ?_⟩
  · intro u hu
    refine ⟨samples.map (fun s => s.getD u 0), ?_, ?_⟩
    · unfold columnsOf
      rw [List.getElem?_map, List.getElem?_range (by omega)]
      rfl
    · intro j r hj
      rw [List.getElem?_map] at hj ⊢
      cases e : samples[j]? with
      | none => rw [e] at hj; cases hj
      | some t => rw [e] at hj; cases hj; rfl
  · intro r hr' u hu
    obtain ⟨t, ht, rfl⟩ := List.mem_map.1 hr'
    obtain ⟨i, hi, rfl⟩ := List.getElem_of_mem ht
    exact ((g3 i _ (List.getElem?_eq_getElem hi)).2 u _ (List.getElem?_eq_getElem (by omega))).1

/-- Nonnegative values over a finite set are 0 or at least some positive number. -/
theorem exists_gap {α : Type} (I : Finset α) (f : α → ℝ) (hf : ∀ e ∈ I, 0 ≤ f e) : ∃ q, 0 < q ∧ ∀ e ∈ I, f e = 0 ∨ q ≤ f e := by
  classical
  induction I using Finset.induction_on with
  | empty => exact ⟨1, one_pos, fun e he => absurd he (Finset.notMem_empty e)⟩
  | insert a I ha ih =>
    obtain ⟨q, q0, h⟩ := ih (fun e he => hf e (Finset.mem_insert_of_mem he))
    rcases (hf a (Finset.mem_insert_self a I)).eq_or_lt with h0 | h0
    · refine ⟨q, q0, fun e he => ?_⟩
      rcases Finset.mem_insert.1 he with rfl | he
      · exact Or.inl h0.symm
      · exact h e he
    · refine ⟨min q (f a), lt_min q0 h0, fun e he => ?_⟩
      rcases Finset.mem_insert.1 he with rfl | he
      · exact Or.inr (min_le_right _ _)
      · exact (h e he).imp_right (le_trans (min_le_left _ _))

/-- C102.  Dependence is detected in the end: if `x` and `y` are dependent given `z` and a statistic that grows in proportion to the number of
samples is significant in the end, the probability that the test on `m` samples does not declare `x` and `y` dependent given `z` tends to 0. -/
theorem C102_limit (hpos : ∀ d ∈ dims, 0 < d) (hne : dims ≠ []) (hops : ∀ op ∈ ops, OpInRange dims.length op)
    (hN : (Net.empty dims).run ops = .ok N) (cond : Nat → Assignment → ℝ)
    (hcond : ∀ (v : Nat) node, N.nodes[v]? = some node → ∀ a, InRange (fun j => dims.getD j 0) (v :: node.parents) a →
      prob v (a v) (configOf a node.parents) = .ok (cond v a) ∧ 0 ≤ cond v a ∧
        ∑ y ∈ Finset.range (dims.getD v 0), cond v (a.set v y) = 1)
    {x y : Nat} {z : List Nat} (hv : ∀ v ∈ z ++ [x, y], v < dims.length) (hn : (z ++ [x, y]).Nodup)
    (hdep : ¬ CondIndependent (fun j => dims.getD j 0) dims.length (fun a => ∏ u ∈ Finset.range dims.length, cond u a) x y z)
    {pchisq : ℝ → Nat → Option ℝ} {alpha : Nat → ℝ}
    (hsig : ∀ (c : ℝ) (df : Nat), 0 < c → 0 < df → ∀ᶠ m : Nat in Filter.atTop, ∀ g : ℝ, c * m ≤ g → ∀ q, pchisq g df = some q → 1 - q ≤ alpha m) :
    Filter.Tendsto (fun m : Nat => uniformDraws m dims.length {w | ¬ Detected N prob pchisq (alpha m) dims m (drawsOf w) x y z})
      Filter.atTop (nhds 0) := by
  classical
  set p := marginal (fun j => dims.getD j 0) dims.length (fun a => ∏ u ∈ Finset.range dims.length, cond u a) with hp
  unfold CondIndependent at hdep
  push Not at hdep
  obtain ⟨a, ha, hne'⟩ := hdep
  have hD0 : 0 < |p (z ++ [x, y]) a * p z a - p (z ++ [x]) a * p (z ++ [y]) a| := abs_pos.2 (sub_ne_zero.2 hne')
  set D := |p (z ++ [x, y]) a * p z a - p (z ++ [x]) a * p (z ++ [y]) a| with hD
  have hlim : Filter.Tendsto (fun m : Nat => ENNReal.ofReal (64 / (m * D ^ 2))) Filter.atTop (nhds 0) := by
    have h1 : Filter.Tendsto (fun m : Nat => (64 : ℝ) / (m * D ^ 2)) Filter.atTop (nhds 0) :=
      (tendsto_natCast_atTop_atTop.atTop_mul_const (by positivity)).const_div_atTop 64
    have := ENNReal.tendsto_ofReal h1
    rwa [ENNReal.ofReal_zero] at this
  have hev : ∀ᶠ m : Nat in Filter.atTop, ∀ df ∈ Finset.range (((z ++ [x, y]).map (fun j => dims.getD j 0)).prod + 1), 0 < df →
      ∀ g, D ^ 2 / 8 * m ≤ g → ∀ q, pchisq g df = some q → 1 - q ≤ alpha m := by
    rw [Filter.eventually_all_finset]
    intro df _
    by_cases h : 0 < df
    · filter_upwards [hsig (D ^ 2 / 8) df (by positivity) h] with m hm _
      exact hm
    · exact Filter.Eventually.of_forall (fun m h' => absurd h' h)
  refine tendsto_of_tendsto_of_tendsto_of_le_of_le' tendsto_const_nhds hlim (Filter.Eventually.of_forall (fun _ => zero_le)) ?_
  filter_upwards [hev, Filter.eventually_gt_atTop 0] with m hm hm0
  refine C102_detected hpos hne hops hN cond hcond hv hn hp (fun v hv' => ha v (List.mem_range.2 (hv v hv'))) hD0 (le_refl D) hm0 ?_
  intro g df h1 h2 h3 q hq
  exact hm df (Finset.mem_range.2 (by omega)) h1 g (by rw [div_mul_eq_mul_div, mul_comm]; exact h3) q hq

/-- C103.  Independence is accepted in the end: if `x` and `y` are independent given `z` and the significance levels tend to 0, the
probability that the test on `m` samples does not declare `x` and `y` independent given `z` tends to 0. -/
theorem C103_limit (hpos : ∀ d ∈ dims, 0 < d) (hne : dims ≠ []) (hops : ∀ op ∈ ops, OpInRange dims.length op)
    (hN : (Net.empty dims).run ops = .ok N) (cond : Nat → Assignment → ℝ)
    (hcond : ∀ (v : Nat) node, N.nodes[v]? = some node → ∀ a, InRange (fun j => dims.getD j 0) (v :: node.parents) a →
      prob v (a v) (configOf a node.parents) = .ok (cond v a) ∧ 0 ≤ cond v a ∧
        ∑ y ∈ Finset.range (dims.getD v 0), cond v (a.set v y) = 1)
    {x y : Nat} {z : List Nat} (hv : ∀ v ∈ z ++ [x, y], v < dims.length) (hn : (z ++ [x, y]).Nodup)
    (hind : CondIndependent (fun j => dims.getD j 0) dims.length (fun a => ∏ u ∈ Finset.range dims.length, cond u a) x y z)
    {pchisq : ℝ → Nat → Option ℝ} {alpha : Nat → ℝ}
    (hacc : ∀ (c : ℝ) (df : Nat), 0 < df → ∀ᶠ m : Nat in Filter.atTop, ∀ g : ℝ, 0 ≤ g → g ≤ c → ∃ r, pchisq g df = some r ∧ alpha m < 1 - r) :
    Filter.Tendsto (fun m : Nat => uniformDraws m dims.length {w | ¬ Accepted N prob pchisq (alpha m) dims m (drawsOf w) x y z})
      Filter.atTop (nhds 0) := by
  classical
  obtain ⟨hP, hP1, hmg⟩ := law_ok hpos hops hN cond hcond
  obtain ⟨q, q0, hq⟩ := exists_gap ([z ++ [x, y], z, z ++ [x], z ++ [y]].toFinset ×ˢ
    (Finset.univ : Finset (Outcome (fun j => dims.getD j 0) dims.length)))
    (fun e => marginal (fun j => dims.getD j 0) dims.length (fun a => ∏ u ∈ Finset.range dims.length, cond u a) e.1 e.2.asg) (by
      intro e _
      show 0 ≤ marginal _ _ _ _ _
      rw [hmg]
      exact Finset.sum_nonneg (fun o _ => by split <;> simp [hP o]))
  rw [ENNReal.tendsto_nhds_zero]
  intro ε hε
  rcases eq_or_ne ε ⊤ with rfl | htop
  · exact Filter.Eventually.of_forall (fun _ => le_top)
  have hε' : 0 < ε.toReal := ENNReal.toReal_pos hε.ne' htop
  set κ : ℝ := (dims.prod + 1) / ε.toReal with hκ
  have hκ0 : 0 < κ := by positivity
  have hsmall : ENNReal.ofReal (dims.prod / κ) ≤ ε := by
    rw [← ENNReal.ofReal_toReal htop]
    apply ENNReal.ofReal_le_ofReal
    rw [div_le_iff₀ hκ0, hκ, mul_div_cancel₀ _ hε'.ne']
    linarith
  have hev : ∀ᶠ m : Nat in Filter.atTop, ∀ df ∈ Finset.range (((z ++ [x, y]).map (fun j => dims.getD j 0)).prod + 1), 0 < df →
      ∀ g, 0 ≤ g → g ≤ ((z ++ [x, y]).map (fun j => dims.getD j 0)).prod * (256 * κ / q ^ 3) → ∃ r, pchisq g df = some r ∧ alpha m < 1 - r := by
    rw [Filter.eventually_all_finset]
    intro df _
    by_cases h : 0 < df
    · filter_upwards [hacc (((z ++ [x, y]).map (fun j => dims.getD j 0)).prod * (256 * κ / q ^ 3)) df h] with m hm _
      exact hm
    · exact Filter.Eventually.of_forall (fun m h' => absurd h' h)
  filter_upwards [hev, Filter.eventually_gt_atTop 0, tendsto_natCast_atTop_atTop.eventually_ge_atTop (κ * 4 / q ^ 2)] with m h1 h2 h3
  refine le_trans (C103_accepted hpos hne hops hN cond hcond hv hn hind q0 ?_ h2 hκ0 ?_ ?_) hsmall
  · intro o vs hvs
    exact hq (vs, o) (Finset.mem_product.2 ⟨List.mem_toFinset.2 hvs, Finset.mem_univ _⟩)
  · rw [div_le_iff₀ (by positivity)] at h3
    linarith
  · intro g df k1 k2 k3 k4
    exact h1 df (Finset.mem_range.2 (by omega)) k1 g k3 k4

/-- On the basis of `m` samples of `N`, the tests of all pairs of variables given all sets of other variables answer correctly. -/
def VerdictsRight (N : Net) (prob : Nat → Nat → Config → Except Fault ℝ) (pchisq : ℝ → Nat → Option ℝ) (alpha : ℝ) (dims : List Nat) (m : Nat)
    (draws : Nat → Nat → {u : ℝ // 0 < u ∧ u ≤ 1}) (p : Assignment → ℝ) : Prop :=
  ∃ samples N', generateSamples inversion N prob m draws = .ok (samples, N') ∧
    ∀ x y z, x < y → y < dims.length → z.Pairwise (· < ·) → (∀ v ∈ z, v < dims.length ∧ v ≠ x ∧ v ≠ y) →
      ∃ res, independenceResult Real.log pchisq alpha dims (columnsOf dims.length samples) m x y z 1 = .ok res ∧
        (res.indep = true ↔ CondIndependent (fun j => dims.getD j 0) dims.length p x y z)

theorem sorted_range {n : Nat} {z : List Nat} (hz : z.Pairwise (· < ·)) (hlt : ∀ v ∈ z, v < n) :
    z = (List.range n).filter (· ∈ z.toFinset) := by
  apply List.Perm.eq_of_pairwise (le := (· < ·)) (fun a b _ _ h1 h2 => absurd h1 (Nat.lt_asymm h2)) hz
    (List.Pairwise.filter _ List.pairwise_lt_range)
  rw [List.perm_ext_iff_of_nodup (hz.imp (fun h => Nat.ne_of_lt h)) (List.nodup_range.filter _)]
  intro v
  simp only [List.mem_filter, List.mem_range, List.mem_toFinset, decide_eq_true_eq]
  exact ⟨fun h => ⟨hlt v h, h⟩, fun h => h.2⟩

/-- Finitely many events, one for each question about `n` variables, whose probabilities tend to 0. -/
theorem questions_tendsto {n : Nat} {S : (m : Nat) → Set (Fin m × Fin n → ℝ)} (Q : Nat → Nat → List Nat → (m : Nat) → Set (Fin m × Fin n → ℝ))
    (h : ∀ x y z, x < y → y < n → z.Pairwise (· < ·) → (∀ v ∈ z, v < n ∧ v ≠ x ∧ v ≠ y) →
      Filter.Tendsto (fun m => uniformDraws m n (Q x y z m)) Filter.atTop (nhds 0))
    (hS : ∀ m, ∀ w ∈ S m, ∃ x y z, x < y ∧ y < n ∧ z.Pairwise (· < ·) ∧ (∀ v ∈ z, v < n ∧ v ≠ x ∧ v ≠ y) ∧ w ∈ Q x y z m) :
    Filter.Tendsto (fun m => uniformDraws m n (S m)) Filter.atTop (nhds 0) := by
  classical
  let good : (Nat × Nat) × Finset Nat → Prop := fun e => e.1.1 < e.1.2 ∧ e.1.2 < n ∧ ∀ v ∈ e.2, v ≠ e.1.1 ∧ v ≠ e.1.2
  let lst : Finset Nat → List Nat := fun T => (List.range n).filter (· ∈ T)
  let I : Finset ((Nat × Nat) × Finset Nat) := ((Finset.range n ×ˢ Finset.range n) ×ˢ (Finset.range n).powerset).filter good
  have hlim : Filter.Tendsto (fun m => ∑ e ∈ I, uniformDraws m n (Q e.1.1 e.1.2 (lst e.2) m)) Filter.atTop (nhds (∑ e ∈ I, 0)) := by
    apply tendsto_finsetSum
    intro e he
    obtain ⟨-, g1, g2, g3⟩ := Finset.mem_filter.1 he
    refine h _ _ _ g1 g2 (List.Pairwise.filter _ List.pairwise_lt_range) (fun v hv => ?_)
    rw [List.mem_filter, List.mem_range, decide_eq_true_eq] at hv
    exact ⟨hv.1, g3 v hv.2⟩
  rw [Finset.sum_const_zero] at hlim
  refine tendsto_of_tendsto_of_tendsto_of_le_of_le tendsto_const_nhds hlim (fun _ => zero_le) (fun m => ?_)
  refine le_trans (measure_mono (t := ⋃ e ∈ I, Q e.1.1 e.1.2 (lst e.2) m) ?_) (measure_biUnion_finset_le _ _)
  intro w hw
  obtain ⟨x, y, z, hxy, hy, hz, hlt, hw⟩ := hS m w hw
  rw [Set.mem_iUnion₂]
  refine ⟨((x, y), z.toFinset), Finset.mem_filter.2 ⟨?_, hxy, hy, fun v hv => (hlt v (List.mem_toFinset.1 hv)).2⟩, ?_⟩
  · rw [Finset.mem_product, Finset.mem_product, Finset.mem_powerset]
    refine ⟨⟨Finset.mem_range.2 (Nat.lt_trans hxy hy), Finset.mem_range.2 hy⟩, fun v hv => ?_⟩
    exact Finset.mem_range.2 (hlt v (List.mem_toFinset.1 hv)).1
  · show w ∈ Q x y (lst z.toFinset) m
    have : lst z.toFinset = z := (sorted_range hz (fun v hv => (hlt v hv).1)).symm
    rw [this]
    exact hw

theorem question_ok {n x y : Nat} {z : List Nat} (hxy : x < y) (hy : y < n) (hz : z.Pairwise (· < ·)) (hlt : ∀ v ∈ z, v < n ∧ v ≠ x ∧ v ≠ y) :
    (∀ v ∈ z ++ [x, y], v < n) ∧ (z ++ [x, y]).Nodup := by
  constructor
  · intro v hv
    simp only [List.mem_append, List.mem_cons, List.not_mem_nil, or_false] at hv
    rcases hv with hv | rfl | rfl
    · exact (hlt v hv).1
    · omega
    · exact hy
  · rw [List.nodup_append]
    refine ⟨hz.imp (fun h => Nat.ne_of_lt h), by simp; omega, ?_⟩
    intro a ha b hb e
    subst e
    simp only [List.mem_cons, List.not_mem_nil, or_false] at hb
    rcases hb with h | h
    · exact (hlt a ha).2.1 h
    · exact (hlt a ha).2.2 h

/-- C103.  All verdicts are right in the end: if the significance levels tend to 0 slowly, the probability that on the basis of `m` samples the
test of some pair of variables given some set of other variables does not answer whether they are independent under the distribution of the
network tends to 0. -/
theorem C103_verdicts (hpos : ∀ d ∈ dims, 0 < d) (hne : dims ≠ []) (hops : ∀ op ∈ ops, OpInRange dims.length op)
    (hN : (Net.empty dims).run ops = .ok N) (cond : Nat → Assignment → ℝ)
    (hcond : ∀ (v : Nat) node, N.nodes[v]? = some node → ∀ a, InRange (fun j => dims.getD j 0) (v :: node.parents) a →
      prob v (a v) (configOf a node.parents) = .ok (cond v a) ∧ 0 ≤ cond v a ∧
        ∑ y ∈ Finset.range (dims.getD v 0), cond v (a.set v y) = 1)
    {pchisq : ℝ → Nat → Option ℝ} {F : ℝ → Nat → ℝ} {alpha : Nat → ℝ} (hslow : SlowLevels pchisq F alpha) :
    Filter.Tendsto (fun m : Nat => uniformDraws m dims.length
      {w | ¬ VerdictsRight N prob pchisq (alpha m) dims m (drawsOf w) (fun a => ∏ u ∈ Finset.range dims.length, cond u a)})
      Filter.atTop (nhds 0) := by
  classical
  have hsig : ∀ (c : ℝ) (df : Nat), 0 < c → 0 < df → ∀ᶠ m : Nat in Filter.atTop, ∀ g : ℝ, c * m ≤ g → ∀ q, pchisq g df = some q →
      1 - q ≤ alpha m := by
    intro c df hc hdf
    filter_upwards [hslow.slow c df hc hdf] with m hm g hg q hq
    have h0 : (0 : ℝ) ≤ c * m := by positivity
    rw [hslow.some g df hdf (h0.trans hg)] at hq
    cases hq
    linarith [hslow.mono _ g df hdf h0 hg]
  have hacc : ∀ (c : ℝ) (df : Nat), 0 < df → ∀ᶠ m : Nat in Filter.atTop, ∀ g : ℝ, 0 ≤ g → g ≤ c →
      ∃ r, pchisq g df = some r ∧ alpha m < 1 - r := by
    intro c df hdf
    by_cases hc : 0 ≤ c
    · have : 0 < 1 - F c df := by linarith [hslow.lt_one c df hdf hc]
      filter_upwards [hslow.zero.eventually_lt_const this] with m hm g hg hgc
      refine ⟨_, hslow.some g df hdf hg, ?_⟩
      linarith [hslow.mono g c df hdf hg hgc]
    · exact Filter.Eventually.of_forall (fun m g h1 h2 => absurd (h1.trans h2) hc)
  refine questions_tendsto (Q := fun x y z m => {w | ¬ ∃ samples N' res, generateSamples inversion N prob m (drawsOf w) = .ok (samples, N') ∧
    independenceResult Real.log pchisq (alpha m) dims (columnsOf dims.length samples) m x y z 1 = .ok res ∧
    (res.indep = true ↔ CondIndependent (fun j => dims.getD j 0) dims.length (fun a => ∏ u ∈ Finset.range dims.length, cond u a) x y z)}) ?_ ?_
  · intro x y z hxy hy hz hlt
    obtain ⟨hv, hn⟩ := question_ok hxy hy hz hlt
    by_cases hi : CondIndependent (fun j => dims.getD j 0) dims.length (fun a => ∏ u ∈ Finset.range dims.length, cond u a) x y z
    · refine tendsto_of_tendsto_of_tendsto_of_le_of_le tendsto_const_nhds (C103_limit hpos hne hops hN cond hcond hv hn hi hacc)
        (fun _ => zero_le) (fun m => measure_mono ?_)
      rintro w hw ⟨samples, N', res, g1, g2, g3⟩
      exact hw ⟨samples, N', res, g1, g2, by rw [g3]; simpa using hi⟩
    · refine tendsto_of_tendsto_of_tendsto_of_le_of_le tendsto_const_nhds (C102_limit hpos hne hops hN cond hcond hv hn hi hsig)
        (fun _ => zero_le) (fun m => measure_mono ?_)
      rintro w hw ⟨samples, N', res, g1, g2, g3⟩
      exact hw ⟨samples, N', res, g1, g2, by rw [g3]; simpa using hi⟩
  · intro m w hw
    by_contra hc
    have hc : ∀ (x y : Nat) (z : List Nat), x < y → y < dims.length → z.Pairwise (· < ·) → (∀ v ∈ z, v < dims.length ∧ v ≠ x ∧ v ≠ y) → _ :=
      fun x y z a b c d e => hc ⟨x, y, z, a, b, c, d, e⟩
    apply hw
    obtain ⟨samples, N', g1, g2, g3⟩ := sample_columns hpos hne hops hN cond hcond m (drawsOf w)
    refine ⟨samples, N', g1, fun x y z hxy hy hz hlt => ?_⟩
    obtain ⟨samples', N'', res, k1, k2, k3⟩ := not_not.1 (hc x y z hxy hy hz hlt)
    rw [g1] at k1
    cases k1
    exact ⟨res, k2, k3⟩

theorem parentOf_lt {N : Net} (h : NetWF N) {x y : Nat} (hxy : ParentOf N x y) : x < N.nodes.length ∧ y < N.nodes.length := by
  rw [parentOf_iff_childOf h] at hxy
  obtain ⟨s, h1, h2⟩ := hxy
  apply h.lt
  unfold Net.ch
  rw [h1]
  exact h2

theorem skeletonAt_lt {ind : Nat → Nat → List Nat → Bool} {n d x y : Nat} (h : skeletonAt ind n d x y) : y < n := by
  induction d with
  | zero => exact h.2.1
  | succ d ih => exact ih h.1

/-- The graph `N` of the network is faithful: variables that are independent under its distribution are d-separated in it. -/
def Faithful (N : Net) (card : Nat → Nat) (n : Nat) (p : Assignment → ℝ) : Prop :=
  ∀ x y z, x < y → y < n → z.Pairwise (· < ·) → (∀ v ∈ z, v < n ∧ v ≠ x ∧ v ≠ y) →
    CondIndependent card n p x y z → DSeparated (ParentOf N) z x y

/-- The graph of a network has no directed cycle. -/
theorem acyclic_of_run (hops : ∀ op ∈ ops, OpInRange dims.length op) (hN : (Net.empty dims).run ops = .ok N) : ¬ Cyclic (ParentOf N) := by
  obtain ⟨hinv, hlen⟩ := netInv_of_run hops hN
  obtain ⟨l, _, hl⟩ := C16_genTopoOrd hops hN
  have : ParentOf N = ChildOf N := by
    funext a b
    exact propext (parentOf_iff_childOf hinv.wf)
  rw [this]
  exact not_cyclic_of_order hl

open Classical in
/-- d-separation in the graph of a network. -/
noncomputable def separated (N : Net) (x y : Nat) (z : List Nat) : Bool := decide (DSeparated (ParentOf N) z x y)

theorem oracle_of_run (hops : ∀ op ∈ ops, OpInRange dims.length op) (hN : (Net.empty dims).run ops = .ok N) :
    DOracle (ParentOf N) dims.length (separated N) := by
  obtain ⟨hinv, hlen⟩ := netInv_of_run hops hN
  refine ⟨acyclic_of_run hops hN, ?_, ?_⟩
  · intro x y h
    have := parentOf_lt hinv.wf h
    omega
  · intro x y S _ _ _ _
    simp only [separated, decide_eq_true_eq]

/-- Right verdicts on faithful data are those of d-separation. -/
theorem answers_of_verdicts (hpos : ∀ d ∈ dims, 0 < d) (hne : dims ≠ []) (hops : ∀ op ∈ ops, OpInRange dims.length op)
    (hN : (Net.empty dims).run ops = .ok N) (cond : Nat → Assignment → ℝ)
    (hcond : ∀ (v : Nat) node, N.nodes[v]? = some node → ∀ a, InRange (fun j => dims.getD j 0) (v :: node.parents) a →
      prob v (a v) (configOf a node.parents) = .ok (cond v a) ∧ 0 ≤ cond v a ∧
        ∑ y ∈ Finset.range (dims.getD v 0), cond v (a.set v y) = 1)
    {pchisq : ℝ → Nat → Option ℝ} {alpha : ℝ}
    (hfaith : Faithful N (fun j => dims.getD j 0) dims.length (fun a => ∏ u ∈ Finset.range dims.length, cond u a)) {m : Nat}
    {draws : Nat → Nat → {u : ℝ // 0 < u ∧ u ≤ 1}} {samples : List (List Nat)} {N' : Net}
    (g1 : generateSamples inversion N prob m draws = .ok (samples, N'))
    (hver : ∀ x y z, x < y → y < dims.length → z.Pairwise (· < ·) → (∀ v ∈ z, v < dims.length ∧ v ≠ x ∧ v ≠ y) →
      ∃ res, independenceResult Real.log pchisq alpha dims (columnsOf dims.length samples) m x y z 1 = .ok res ∧
        (res.indep = true ↔ CondIndependent (fun j => dims.getD j 0) dims.length (fun a => ∏ u ∈ Finset.range dims.length, cond u a) x y z)) :
    Answers (ciTest Real.log pchisq alpha dims (columnsOf dims.length samples) m) (separated N) dims.length 1 := by
  classical
  obtain ⟨pts, hpts, hct, _, hj⟩ := cond_tables hpos hops hN cond hcond
  have hmarkov : ∀ x y z, x < y → y < dims.length → z.Pairwise (· < ·) → (∀ v ∈ z, v < dims.length ∧ v ≠ x ∧ v ≠ y) →
      (CondIndependent (fun j => dims.getD j 0) dims.length (fun a => ∏ u ∈ Finset.range dims.length, cond u a) x y z ↔
        DSeparated (ParentOf N) z x y) := by
    intro x y z hxy hy hz hlt
    refine ⟨hfaith x y z hxy hy hz hlt, fun hsep => ?_⟩
    obtain ⟨hv, hn⟩ := question_ok hxy hy hz hlt
    have h := C103_markov hops hN hpts hct hv hn hsep
    have e : ∀ vs a, marginal (fun j => dims.getD j 0) dims.length (joint pts) vs a =
        marginal (fun j => dims.getD j 0) dims.length (fun a => ∏ u ∈ Finset.range dims.length, cond u a) vs a := by
      intro vs a
      unfold marginal weight
      apply sumOut_congr
      intro b hb _
      rw [hj b (fun u hu => hb u hu)]
    intro a ha
    have := h a ha
    rwa [e, e, e, e] at this
  obtain ⟨samples', N'', k1, k2, k3⟩ := sample_columns hpos hne hops hN cond hcond m draws
  rw [g1] at k1
  cases k1
  have hans0 := C28_gsquare Real.log pchisq alpha (dims := dims) k3 (fun v hv => dims_get v hv)
  rw [List.length_map, k2] at hans0
  have hag : ∀ x y z, x < y → y < dims.length → z.Pairwise (· < ·) → (∀ v ∈ z, v < dims.length ∧ v ≠ x ∧ v ≠ y) →
      verdicts Real.log pchisq alpha (fun j => dims.getD j 0) (samples.map asg) x y z = separated N x y z := by
    intro x y z hxy hy hz hlt
    obtain ⟨hv, hn⟩ := question_ok hxy hy hz hlt
    obtain ⟨res, r1, r2⟩ := hver x y z hxy hy hz hlt
    obtain ⟨res', s1, s2, -⟩ := C27_statistic Real.log pchisq alpha k3 (dims := dims) (fun v hv => dims_get v hv) hv hn
    rw [List.length_map, k2, r1] at s1
    cases s1
    unfold verdicts
    simp only [separated]
    rw [decide_eq_decide, ← s2, r2, hmarkov x y z hxy hy hz hlt]
  refine ⟨?_, ?_⟩
  · intro x y hxy hy
    rw [← hag x y [] hxy hy List.Pairwise.nil (by simp)]
    exact hans0.empty x y hxy hy
  · intro x y d sets hxy hy hd hs hl hall
    have e : ∀ s ∈ sets, separated N x y s = verdicts Real.log pchisq alpha (fun j => dims.getD j 0) (samples.map asg) x y s :=
      fun s hs => (hag x y s hxy hy (hall s hs).2.1 (hall s hs).2.2).symm
    obtain ⟨s, rfl⟩ : ∃ s, sets = [s] := by
      match sets, hs, hl with
      | [s], _, _ => exact ⟨s, rfl⟩
    have := hans0.group x y d [s] hxy hy hd hs hl hall
    simp only [List.any_cons, List.any_nil, List.findIdx_singleton, e s (by simp)] at this ⊢
    exact this

/-- On the basis of `m` samples of `N`, the learner recovers everything about `N` that its distribution determines: for every order of the
pairs, schedule and batching, it returns a graph with the adjacencies of `N` whose arrows are the edges that have the same direction in every
acyclic graph with the adjacencies and v-structures of `N`. -/
def Recovers (N : Net) (prob : Nat → Nat → Config → Except Fault ℝ) (pchisq : ℝ → Nat → Option ℝ) (alpha : ℝ) (dims : List Nat) (depth : Nat)
    (F m : Nat) (draws : Nat → Nat → {u : ℝ // 0 < u ∧ u ≤ 1}) : Prop :=
  ∃ samples N', generateSamples inversion N prob m draws = .ok (samples, N') ∧
    ∀ (cap : Nat) (order : List Nat) (sched : Nat → Schedule) (fuel fuel' room : Nat) (bits : Nat → Bool), 0 < cap →
      order.Perm (List.range (dims.length * (dims.length - 1) / 2)) → (∀ d r l, (sched d r l).Perm l) → F ≤ fuel →
      dims.length * (dims.length - 1) / 2 ≤ room → dims.length * (dims.length - 1) / 2 < fuel' →
      ∃ k L, learnSkeleton (ciTest Real.log pchisq alpha dims (columnsOf dims.length samples) m) dims.length depth 1 cap order sched fuel = .ok k ∧
        orientPhase room bits false fuel' dims k = .ok L ∧ PartiallyDirected dims.length (Joined (ParentOf N)) L ∧
        ∀ x y, ParentOf L x y ↔ Compelled (ParentOf N) x y

/-- C103.  The structure is learned in the end: let the graph of the network be faithful and no node have `depth` or more parents.  If the
significance levels tend to 0 slowly, the probability that from `m` samples of the network the learner does not recover the adjacencies of its
graph and the compelled directions tends to 0. -/
theorem C103_consistent (hpos : ∀ d ∈ dims, 0 < d) (hne : dims ≠ []) (hops : ∀ op ∈ ops, OpInRange dims.length op)
    (hN : (Net.empty dims).run ops = .ok N) (cond : Nat → Assignment → ℝ)
    (hcond : ∀ (v : Nat) node, N.nodes[v]? = some node → ∀ a, InRange (fun j => dims.getD j 0) (v :: node.parents) a →
      prob v (a v) (configOf a node.parents) = .ok (cond v a) ∧ 0 ≤ cond v a ∧
        ∑ y ∈ Finset.range (dims.getD v 0), cond v (a.set v y) = 1)
    {pchisq : ℝ → Nat → Option ℝ} {F : ℝ → Nat → ℝ} {alpha : Nat → ℝ} (hslow : SlowLevels pchisq F alpha)
    (hfaith : Faithful N (fun j => dims.getD j 0) dims.length (fun a => ∏ u ∈ Finset.range dims.length, cond u a))
    {depth : Nat} (hdepth : FewParents (ParentOf N) depth) :
    ∃ fuel, Filter.Tendsto (fun m : Nat => uniformDraws m dims.length {w | ¬ Recovers N prob pchisq (alpha m) dims depth fuel m (drawsOf w)})
      Filter.atTop (nhds 0) := by
  obtain ⟨fuel, hfuel⟩ := C56_recovers (oracle_of_run hops hN) hdepth
  refine ⟨fuel, tendsto_of_tendsto_of_tendsto_of_le_of_le tendsto_const_nhds (C103_verdicts hpos hne hops hN cond hcond hslow)
    (fun _ => zero_le) (fun m => measure_mono ?_)⟩
  rintro w hw ⟨samples, N', g1, hver⟩
  apply hw
  refine ⟨samples, N', g1, ?_⟩
  intro cap order sched fuel1 fuel' room bits hcap hord hsched hF hroom hf'
  obtain ⟨k, L, q1, q2, q3, q4, -⟩ := hfuel _ 1 cap order sched fuel1 fuel' room bits dims
    (answers_of_verdicts hpos hne hops hN cond hcond hfaith g1 hver) one_pos hcap hord hsched hF rfl hroom hf'
  exact ⟨k, L, q1, q2, q3, q4⟩

/-- On the basis of `m` samples of `N`, the learner keeps all edges of `N`: for every order of the pairs, schedule and batching, the skeleton
phase returns a graph in which the ends of every edge of `N` are adjacent. -/
def KeepsEdges (N : Net) (prob : Nat → Nat → Config → Except Fault ℝ) (pchisq : ℝ → Nat → Option ℝ) (alpha : ℝ) (dims : List Nat) (depth m : Nat)
    (draws : Nat → Nat → {u : ℝ // 0 < u ∧ u ≤ 1}) : Prop :=
  ∃ samples N' F, generateSamples inversion N prob m draws = .ok (samples, N') ∧
    ∀ (cap : Nat) (order : List Nat) (sched : Nat → Schedule) (fuel : Nat), 0 < cap →
      order.Perm (List.range (dims.length * (dims.length - 1) / 2)) → (∀ d r l, (sched d r l).Perm l) → F ≤ fuel →
      ∃ k, learnSkeleton (ciTest Real.log pchisq alpha dims (columnsOf dims.length samples) m) dims.length depth 1 cap order sched fuel = .ok k ∧
        ∀ x y, x < y → Joined (ParentOf N) x y → AdjacentIn k x y

/-- C102.  Edges are kept in the end: at a fixed significance level, if the ends of every edge of the network are dependent given every set of
other variables and large statistics are significant, the probability that the learner loses an edge of the network tends to 0. -/
theorem C102_edges_kept (hpos : ∀ d ∈ dims, 0 < d) (hne : dims ≠ []) (hops : ∀ op ∈ ops, OpInRange dims.length op)
    (hN : (Net.empty dims).run ops = .ok N) (cond : Nat → Assignment → ℝ)
    (hcond : ∀ (v : Nat) node, N.nodes[v]? = some node → ∀ a, InRange (fun j => dims.getD j 0) (v :: node.parents) a →
      prob v (a v) (configOf a node.parents) = .ok (cond v a) ∧ 0 ≤ cond v a ∧
        ∑ y ∈ Finset.range (dims.getD v 0), cond v (a.set v y) = 1)
    {pchisq : ℝ → Nat → Option ℝ} {alpha : ℝ} (hlarge : ∀ df, 0 < df → ∃ g0, ∀ g, g0 ≤ g → ∀ q, pchisq g df = some q → 1 - q ≤ alpha)
    (hdep : ∀ x y z, x < y → y < dims.length → z.Pairwise (· < ·) → (∀ v ∈ z, v < dims.length ∧ v ≠ x ∧ v ≠ y) → Joined (ParentOf N) x y →
      ¬ CondIndependent (fun j => dims.getD j 0) dims.length (fun a => ∏ u ∈ Finset.range dims.length, cond u a) x y z)
    (depth : Nat) :
    Filter.Tendsto (fun m : Nat => uniformDraws m dims.length {w | ¬ KeepsEdges N prob pchisq alpha dims depth m (drawsOf w)})
      Filter.atTop (nhds 0) := by
  classical
  obtain ⟨hinv, hlen⟩ := netInv_of_run hops hN
  have hsig : ∀ (c : ℝ) (df : Nat), 0 < c → 0 < df → ∀ᶠ m : Nat in Filter.atTop, ∀ g : ℝ, c * m ≤ g → ∀ q, pchisq g df = some q →
      1 - q ≤ alpha := by
    intro c df hc hdf
    obtain ⟨g0, hg0⟩ := hlarge df hdf
    filter_upwards [(tendsto_natCast_atTop_atTop.const_mul_atTop hc).eventually_ge_atTop g0] with m hm g hg q hq
    exact hg0 g (hm.trans hg) q hq
  refine questions_tendsto (Q := fun x y z m => {w | Joined (ParentOf N) x y ∧ ¬ Detected N prob pchisq alpha dims m (drawsOf w) x y z}) ?_ ?_
  · intro x y z hxy hy hz hlt
    obtain ⟨hv, hn⟩ := question_ok hxy hy hz hlt
    by_cases hj : Joined (ParentOf N) x y
    · refine tendsto_of_tendsto_of_tendsto_of_le_of_le tendsto_const_nhds
        (C102_limit hpos hne hops hN cond hcond hv hn (hdep x y z hxy hy hz hlt hj) (alpha := fun _ => alpha) hsig)
        (fun _ => zero_le) (fun m => measure_mono ?_)
      exact fun w hw => hw.2
    · simp [hj]
  · intro m w hw
    by_contra hc
    have hc : ∀ (x y : Nat) (z : List Nat), x < y → y < dims.length → z.Pairwise (· < ·) → (∀ v ∈ z, v < dims.length ∧ v ≠ x ∧ v ≠ y) → _ :=
      fun x y z a b c d e => hc ⟨x, y, z, a, b, c, d, e⟩
    apply hw
    obtain ⟨samples, N', k1, k2, k3⟩ := sample_columns hpos hne hops hN cond hcond m (drawsOf w)
    obtain ⟨F, hF⟩ := C30_sepset (verdicts Real.log pchisq alpha (fun j => dims.getD j 0) (samples.map asg)) dims.length depth
    refine ⟨samples, N', F, k1, ?_⟩
    intro cap order sched fuel hcap hord hsched hfuel
    have hans := C28_gsquare Real.log pchisq alpha (dims := dims) k3 (fun v hv => dims_get v hv)
    rw [List.length_map, k2] at hans
    obtain ⟨k, q1, q2, -, q4⟩ := hF _ 1 cap order sched fuel hans one_pos hcap hord hsched hfuel
    refine ⟨k, q1, fun x y hxy hj => ?_⟩
    have hy : y < dims.length := by
      rcases hj with h | h
      · have := parentOf_lt hinv.wf h; omega
      · have := parentOf_lt hinv.wf h; omega
    rw [q2 x y hxy hy]
    cases hs : k.sep x y with
    | none => rfl
    | some S =>
      exfalso
      obtain ⟨-, -, s1, s2, s3, s4, -, -, -, s5⟩ := q4 x y S hs
      have hlt : ∀ v ∈ S, v < dims.length ∧ v ≠ x ∧ v ≠ y := by
        intro v hv
        refine ⟨?_, fun e => s3 (e ▸ hv), fun e => s4 (e ▸ hv)⟩
        rcases s5 with h | h
        · exact skeletonAt_lt (h v hv)
        · exact skeletonAt_lt (h v hv)
      have hnot := hc x y S hxy hy s2 hlt
      obtain ⟨samples', N'', res, r1, r2, r3⟩ := not_not.1 (fun h => hnot ⟨hj, h⟩)
      rw [k1] at r1
      cases r1
      obtain ⟨hv, hn⟩ := question_ok hxy hy s2 hlt
      obtain ⟨res', t1, t2, -⟩ := C27_statistic Real.log pchisq alpha k3 (dims := dims) (fun v hv => dims_get v hv) hv hn
      rw [List.length_map, k2, r2] at t1
      cases t1
      unfold verdicts at s1
      rw [decide_eq_true_eq, ← t2, r3] at s1
      cases s1

end samples

/-! ### Examples -/

/-- Significance levels `1 / (m + 1)` tend to 0 slowly enough for exponential tails, such as those of the chi-square distribution with two
degrees of freedom. -/
theorem exampleLevels : SlowLevels (fun g _ => some (1 - Real.exp (-g / 2))) (fun g _ => 1 - Real.exp (-g / 2)) (fun m => 1 / ((m : ℝ) + 1)) := by
  refine ⟨fun _ _ _ _ => rfl, ?_, ?_, tendsto_one_div_add_atTop_nhds_zero_nat, ?_⟩
  · intro g h _ _ _ hgh
    have := Real.exp_le_exp.2 (show -h / 2 ≤ -g / 2 by linarith)
    linarith
  · intro g _ _ _
    linarith [Real.exp_pos (-g / 2)]
  · intro c df hc _
    filter_upwards [tendsto_natCast_atTop_atTop.eventually_ge_atTop (8 / c ^ 2)] with m hm
    have m0 : (0 : ℝ) ≤ m := Nat.cast_nonneg m
    have h0 : 0 ≤ c * m / 2 := by positivity
    have h1 := Real.quadratic_le_exp_of_nonneg h0
    rw [div_le_iff₀ (by positivity)] at hm
    have h2 : (m : ℝ) ≤ (c * m / 2) ^ 2 / 2 := by
      have := mul_le_mul_of_nonneg_right hm m0
      have e : (m : ℝ) * c ^ 2 * m = 8 * ((c * m / 2) ^ 2 / 2) := by ring
      linarith
    have h3 : (m : ℝ) + 1 ≤ Real.exp (c * m / 2) := by linarith
    have e : 1 - (1 - Real.exp (-(c * m) / 2)) = 1 / Real.exp (c * m / 2) := by
      rw [one_div, ← Real.exp_neg]
      ring_nf
    rw [e]
    exact one_div_le_one_div_of_le (by positivity) h3

/-- A collider: two fair coins 0 and 1, and a noisy conjunction 2 of them. -/
noncomputable def noisyAnd (x : Nat) (both : Prop) [Decidable both] : ℝ := if x = (if both then 1 else 0) then 3 / 4 else 1 / 4

noncomputable def andProb (v x : Nat) (u : Config) : Except Fault ℝ :=
  if v = 2 then .ok (noisyAnd x (u = [(0, 1), (1, 1)])) else .ok (1 / 2)

noncomputable def andCond : Nat → Assignment → ℝ := fun v a => if v = 2 then noisyAnd (a 2) (a 0 = 1 ∧ a 1 = 1) else 1 / 2

theorem and_ok : ∃ N, (Net.empty [2, 2, 2]).run [.addDirected 0 2, .addDirected 1 2] = .ok N ∧
    (∀ x y, ParentOf N x y ↔ (x = 0 ∨ x = 1) ∧ y = 2) ∧
    ∀ (v : Nat) node, N.nodes[v]? = some node → ∀ a, InRange (fun j => [2, 2, 2].getD j 0) (v :: node.parents) a →
      andProb v (a v) (configOf a node.parents) = .ok (andCond v a) ∧ 0 ≤ andCond v a ∧
        ∑ y ∈ Finset.range ([2, 2, 2].getD v 0), andCond v (a.set v y) = 1 := by
  refine ⟨_, rfl, ?_, ?_⟩
  · intro x y
    constructor
    · rintro ⟨node, h1, h2⟩
      match y, h1 with
      | 0, h1 => cases h1; cases h2
      | 1, h1 => cases h1; cases h2
      | 2, h1 =>
        cases h1
        have : x ∈ [0, 1] := h2
        simpa using this
    · rintro ⟨h, rfl⟩
      refine ⟨_, rfl, ?_⟩
      show x ∈ [0, 1]
      simpa using h
  · intro v node hnode a ha
    match v with
    | 0 =>
      refine ⟨rfl, by norm_num [andCond], ?_⟩
      simp [andCond]
    | 1 =>
      refine ⟨rfl, by norm_num [andCond], ?_⟩
      simp [andCond]
    | 2 =>
      cases hnode
      refine ⟨?_, ?_, ?_⟩
      · show andProb 2 (a 2) [(0, a 0), (1, a 1)] = _
        unfold andProb andCond
        simp
      · unfold andCond noisyAnd
        simp only [if_true]
        split <;> split <;> norm_num
      · by_cases h : a 0 = 1 ∧ a 1 = 1 <;> (simp [andCond, noisyAnd, Finset.sum_range_succ, Assignment.set, h]; norm_num)
    | n + 3 => cases hnode

/-- No other set separates anything in the collider. -/
theorem and_dependent {x y : Nat} {z : List Nat} (hxy : x < y) (hy : y < 3) (hz : z.Pairwise (· < ·)) (hlt : ∀ v ∈ z, v < 3 ∧ v ≠ x ∧ v ≠ y)
    (hnot : ¬ (x = 0 ∧ y = 1 ∧ z = [])) :
    ¬ CondIndependent (fun j => [2, 2, 2].getD j 0) 3 (fun a => ∏ u ∈ Finset.range 3, andCond u a) x y z := by
  intro h
  have h := h (fun _ => 1) (by
    intro v hv
    rw [List.mem_range] at hv
    have : v = 0 ∨ v = 1 ∨ v = 2 := by omega
    rcases this with rfl | rfl | rfl <;> decide)
  have hz' : z = [] ∨ z = [3 - x - y] := by
    match z, hz, hlt with
    | [], _, _ => exact Or.inl rfl
    | [v], _, hlt => right; have := hlt v (by simp); congr 1; omega
    | v :: w :: _, hz, hlt =>
      exfalso
      have h1 := hlt v (by simp)
      have h2 := hlt w (by simp)
      have h3 := (List.pairwise_cons.1 hz).1 w (by simp)
      omega
  have hxy' : x = 0 ∧ y = 1 ∨ x = 0 ∧ y = 2 ∨ x = 1 ∧ y = 2 := by omega
  rcases hxy' with ⟨rfl, rfl⟩ | ⟨rfl, rfl⟩ | ⟨rfl, rfl⟩ <;> rcases hz' with rfl | rfl <;>
    first
    | exact hnot ⟨rfl, rfl, rfl⟩
    | (simp [marginal, weight, sumOut, List.range_succ, Agrees, observed, andCond, noisyAnd, Finset.sum_range_succ, Finset.prod_range_succ,
        Assignment.set] at h
       norm_num at h)

theorem and_faithful {N : Net} (hE : ∀ x y, ParentOf N x y ↔ (x = 0 ∨ x = 1) ∧ y = 2) :
    Faithful N (fun j => [2, 2, 2].getD j 0) 3 (fun a => ∏ u ∈ Finset.range 3, andCond u a) := by
  intro x y z hxy hy hz hlt hi
  by_cases h : x = 0 ∧ y = 1 ∧ z = []
  · obtain ⟨rfl, rfl, rfl⟩ := h
    rintro path hh hl ⟨-, h1, h2⟩
    match path, hh, hl, h1, h2 with
    | [v], hh, hl, _, _ => cases hh; cases hl
    | [v, w], hh, hl, h1, _ =>
      cases hh
      cases hl
      have := h1 0 1 (List.infix_refl _)
      simp [Spec.Joined, hE] at this
    | v :: w :: t :: l, hh, hl, h1, h2 =>
      cases hh
      have a1 := h1 0 w ⟨[], t :: l, rfl⟩
      have a2 := h1 w t ⟨[0], l, rfl⟩
      have hw : w = 2 := by simpa [Spec.Joined, hE] using a1
      subst hw
      have ht : t = 0 ∨ t = 1 := by simpa [Spec.Joined, hE] using a2
      rcases h2 0 2 t ⟨[], l, rfl⟩ with ⟨_, z, hz, _⟩ | ⟨hn, _⟩
      · cases hz
      · apply hn
        simp [hE, ht]
  · exact absurd hi (and_dependent hxy hy hz hlt h)

/-- The probability that the learner, at level `1 / (m + 1)`, does not recover the collider from `m` samples tends to 0; both its edges are
compelled. -/
example : ∃ N, (Net.empty [2, 2, 2]).run [.addDirected 0 2, .addDirected 1 2] = .ok N ∧ Compelled (ParentOf N) 0 2 ∧ Compelled (ParentOf N) 1 2 ∧
    ∃ fuel, Filter.Tendsto (fun m : Nat => uniformDraws m 3
      {w | ¬ Recovers N andProb (fun g _ => some (1 - Real.exp (-g / 2))) (1 / ((m : ℝ) + 1)) [2, 2, 2] 3 fuel m (drawsOf w)})
      Filter.atTop (nhds 0) := by
  obtain ⟨N, h1, h2, h3⟩ := and_ok
  refine ⟨N, h1, ?_, ?_, C103_consistent (dims := [2, 2, 2]) (by simp) (by simp) (by simp [OpInRange]) h1 andCond h3 exampleLevels (and_faithful h2) ?_⟩
  · exact fun D' h => ((h.colliders 0 2 1).2 ⟨by decide, (h2 0 2).2 (by simp), (h2 1 2).2 (by simp), by simp [Spec.Joined, h2]⟩).2.1
  · exact fun D' h => ((h.colliders 0 2 1).2 ⟨by decide, (h2 0 2).2 (by simp), (h2 1 2).2 (by simp), by simp [Spec.Joined, h2]⟩).2.2.1
  · intro x S hn hS
    have : S.length ≤ [0, 1].length := by
      apply List.Subperm.length_le
      apply hn.subperm
      intro v hv
      have := ((h2 v x).1 (hS v hv)).1
      simpa using this
    simpa using Nat.lt_succ_of_le this

/-- At the fixed level 1/20 the probability that the learner loses an edge of the collider tends to 0. -/
example : ∃ N, (Net.empty [2, 2, 2]).run [.addDirected 0 2, .addDirected 1 2] = .ok N ∧ Joined (ParentOf N) 0 2 ∧
    Filter.Tendsto (fun m : Nat => uniformDraws m 3
      {w | ¬ KeepsEdges N andProb (fun g _ => some (1 - Real.exp (-g / 2))) (1 / 20) [2, 2, 2] 3 m (drawsOf w)}) Filter.atTop (nhds 0) := by
  obtain ⟨N, h1, h2, h3⟩ := and_ok
  refine ⟨N, h1, Or.inl ((h2 0 2).2 (by simp)), C102_edges_kept (dims := [2, 2, 2]) (by simp) (by simp) (by simp [OpInRange]) h1 andCond h3 ?_ ?_ 3⟩
  · intro df _
    refine ⟨38, fun g hg q hq => ?_⟩
    cases hq
    have h4 : (20 : ℝ) ≤ Real.exp (g / 2) := by linarith [Real.add_one_le_exp (g / 2)]
    have e : 1 - (1 - Real.exp (-g / 2)) = 1 / Real.exp (g / 2) := by
      rw [one_div, ← Real.exp_neg]
      ring_nf
    rw [e]
    exact one_div_le_one_div_of_le (by norm_num) h4
  · intro x y z hxy hy hz hlt hj
    refine and_dependent hxy hy hz hlt ?_
    rintro ⟨rfl, rfl, rfl⟩
    simp [Spec.Joined, h2] at hj

/-- The verdicts of the tests about the collider are all right in the end. -/
example : ∃ N, (Net.empty [2, 2, 2]).run [.addDirected 0 2, .addDirected 1 2] = .ok N ∧
    Filter.Tendsto (fun m : Nat => uniformDraws m 3 {w | ¬ VerdictsRight N andProb (fun g _ => some (1 - Real.exp (-g / 2))) (1 / ((m : ℝ) + 1))
      [2, 2, 2] m (drawsOf w) (fun a => ∏ u ∈ Finset.range 3, andCond u a)}) Filter.atTop (nhds 0) := by
  obtain ⟨N, h1, h2, h3⟩ := and_ok
  exact ⟨N, h1, C103_verdicts (dims := [2, 2, 2]) (by simp) (by simp) (by simp [OpInRange]) h1 andCond h3 exampleLevels⟩

theorem and_independent :
    CondIndependent (fun j => [2, 2, 2].getD j 0) 3 (fun a => ∏ u ∈ Finset.range 3, andCond u a) 0 1 [] := by
  intro a ha
  have h0 : a 0 = 0 ∨ a 0 = 1 := by
    have := ha 0 (by simp)
    simp at this
    omega
  have h1 : a 1 = 0 ∨ a 1 = 1 := by
    have := ha 1 (by simp)
    simp at this
    omega
  rcases h0 with h0 | h0 <;> rcases h1 with h1 | h1 <;>
    (simp [marginal, weight, sumOut, List.range_succ, Agrees, observed, andCond, noisyAnd, Finset.sum_range_succ, Finset.prod_range_succ,
      Assignment.set, h0, h1]; norm_num)

/-- The two coins are declared independent from a million samples, at a tiny level, except with probability at most 1/100. -/
example : ∃ N, (Net.empty [2, 2, 2]).run [.addDirected 0 2, .addDirected 1 2] = .ok N ∧
    uniformDraws 1000000 3 {w | ¬ Accepted N andProb (fun g _ => some (1 - Real.exp (-g / 2))) (Real.exp (-1000000000)) [2, 2, 2] 1000000
      (drawsOf w) 0 1 []} ≤ ENNReal.ofReal (1 / 100) := by
  obtain ⟨N, h1, h2, h3⟩ := and_ok
  refine ⟨N, h1, ?_⟩
  have := C103_accepted (dims := [2, 2, 2]) (by simp) (by simp) (by simp [OpInRange]) h1 andCond h3 (x := 0) (y := 1) (z := []) (by simp) (by simp)
    and_independent (q := 1 / 4) (κ := 800) (by norm_num) (by
      intro o vs hvs
      right
      have h0 : o.asg 0 = 0 ∨ o.asg 0 = 1 := by
        have := Outcome.asg_lt o 0 (by simp)
        simp at this
        omega
      have h1 : o.asg 1 = 0 ∨ o.asg 1 = 1 := by
        have := Outcome.asg_lt o 1 (by simp)
        simp at this
        omega
      simp only [List.mem_cons, List.not_mem_nil, or_false] at hvs
      rcases hvs with rfl | rfl | rfl | rfl <;> rcases h0 with h0 | h0 <;> rcases h1 with h1 | h1 <;>
        (simp [marginal, weight, sumOut, List.range_succ, Agrees, observed, andCond, noisyAnd, Finset.sum_range_succ, Finset.prod_range_succ,
          Assignment.set, h0, h1]; norm_num))
    (pchisq := fun g _ => some (1 - Real.exp (-g / 2))) (alpha := Real.exp (-1000000000)) (m := 1000000) (by norm_num) (by norm_num) (by norm_num) (by
      intro g df _ _ _ hg
      refine ⟨_, rfl, ?_⟩
      rw [sub_sub_cancel, Real.exp_lt_exp]
      norm_num at hg
      linarith)
  refine le_trans this (ENNReal.ofReal_le_ofReal ?_)
  norm_num

/-- That node 1 copies node 0 with probability 3/4 is detected from a million samples, at the level 1/20, except with probability at most
1/200. -/
example : ∃ N, (Net.empty [2, 2]).run [.addDirected 0 1] = .ok N ∧
    uniformDraws 1000000 2 {w | ¬ Detected N coinProb (fun g _ => some (1 - Real.exp (-g / 2))) (1 / 20) [2, 2] 1000000
      (drawsOf w) 0 1 []} ≤ ENNReal.ofReal (1 / 200) := by
  obtain ⟨N, h1, _, _, h2⟩ := coin_ok
  refine ⟨N, h1, ?_⟩
  have := C102_detected (dims := [2, 2]) (by simp) (by simp) (by simp [OpInRange]) h1 coinCond h2 (x := 0) (y := 1) (z := []) (by simp) (by simp)
    rfl (a := fun _ => 0) (by
      intro v hv
      have : v = 0 ∨ v = 1 := by simpa using hv
      rcases this with rfl | rfl <;> decide) (D := 1 / 8) (by norm_num) (by
      simp [marginal, weight, sumOut, List.range_succ, Agrees, observed, coinCond, Finset.sum_range_succ, Finset.prod_range_succ,
        Assignment.set]
      norm_num [abs_of_pos])
    (pchisq := fun g _ => some (1 - Real.exp (-g / 2))) (alpha := 1 / 20) (m := 1000000) (by norm_num) (by
      intro g df _ _ hg q hq
      cases hq
      have hg' : 38 ≤ g := le_trans (by norm_num) hg
      have h4 : (20 : ℝ) ≤ Real.exp (g / 2) := by linarith [Real.add_one_le_exp (g / 2)]
      have e : 1 - (1 - Real.exp (-g / 2)) = 1 / Real.exp (g / 2) := by
        rw [one_div, ← Real.exp_neg]
        ring_nf
      rw [e]
      exact one_div_le_one_div_of_le (by norm_num) h4)
  refine le_trans this (ENNReal.ofReal_le_ofReal ?_)
  norm_num

/-- Frequencies near independent probabilities: all combinations of two binary variables once. -/
example : gSquare Real.log (fun _ => 2)
    [fun v => if v = 0 then 0 else 0, fun v => if v = 0 then 0 else 1, fun v => if v = 0 then 1 else 0, fun v => if v = 0 then 1 else 1] 0 1 [] ≤
      4 * (256 * (4 * (1 / 1000) ^ 2) / (1 / 4) ^ 3) := by
  have hc : Columns (fun _ => 2) 2 [[0, 0, 1, 1], [0, 1, 0, 1]]
      [fun v => if v = 0 then 0 else 0, fun v => if v = 0 then 0 else 1, fun v => if v = 0 then 1 else 0, fun v => if v = 0 then 1 else 1] := by
    constructor
    · intro v hv
      obtain rfl | rfl : v = 0 ∨ v = 1 := by omega
      · exact ⟨_, rfl, by rintro (_ | _ | _ | _ | j) r hr <;> simp at hr <;> subst hr <;> rfl⟩
      · exact ⟨_, rfl, by rintro (_ | _ | _ | _ | j) r hr <;> simp at hr <;> subst hr <;> rfl⟩
    · intro r hr v hv
      simp only [List.mem_cons, List.not_mem_nil, or_false] at hr
      rcases hr with rfl | rfl | rfl | rfl <;> dsimp only <;> split <;> omega
  have := C103_upper_bound (x := 0) (y := 1) (z := []) hc (by simp) (by simp) (by simp) (p := fun vs _ => (1 / 2) ^ vs.length) (q := 1 / 4)
    (δ := 1 / 1000) (by norm_num) (by norm_num) (by simp) (by
      intro a ha _
      have h0 : a 0 < 2 := ha 0 (by simp)
      have h1 : a 1 < 2 := ha 1 (by simp)
      refine ⟨by norm_num, fun vs hvs => ?_⟩
      simp only [List.mem_cons, List.not_mem_nil, or_false] at hvs
      obtain e0 | e0 : a 0 = 0 ∨ a 0 = 1 := by omega
      all_goals
        obtain e1 | e1 : a 1 = 0 ∨ a 1 = 1 := by omega
        all_goals rcases hvs with rfl | rfl | rfl | rfl <;> simp [countSame, e0, e1] <;> norm_num)
  refine le_trans this (le_of_eq ?_)
  norm_num

/-- The two coins of the collider are d-separated, hence independent (`C103_markov`); given their noisy conjunction they are dependent. -/
example : ∃ N, (Net.empty [2, 2, 2]).run [.addDirected 0 2, .addDirected 1 2] = .ok N ∧ DSeparated (ParentOf N) [] 0 1 ∧
    ¬ CondIndependent (fun j => [2, 2, 2].getD j 0) 3 (fun a => ∏ u ∈ Finset.range 3, andCond u a) 0 1 [2] := by
  obtain ⟨N, h1, h2, h3⟩ := and_ok
  exact ⟨N, h1, and_faithful h2 0 1 [] (by decide) (by decide) (by simp) (by simp) and_independent,
    and_dependent (by decide) (by decide) (by simp) (by simp) (by simp)⟩

end FastPGM
