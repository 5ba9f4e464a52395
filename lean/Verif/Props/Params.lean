import Verif.Lemmas.Learn
import Verif.Lemmas.NetDims
import Mathlib.Algebra.Order.Field.Basic
import Mathlib.Algebra.Order.Field.Rat
import Mathlib.Tactic.Ring
import Mathlib.Tactic.Linarith
import Mathlib.Tactic.FieldSimp
import Mathlib.Algebra.BigOperators.Field
import Mathlib.Algebra.BigOperators.Ring.Finset
import Mathlib.Data.Nat.Cast.Order.Field
import Mathlib.Algebra.Order.BigOperators.Group.List
import Mathlib.Algebra.Order.BigOperators.Group.Finset

/-!
Properties C10, C21, C22, C23, C24: conditional probability tables and parameter learning.
-/

namespace FastPGM

open Spec

variable {K : Type}

/-! ### C10 -/

/-- C10.  The table built from a node lists the node and then its parents in increasing order, and its value at any assignment is
the probability the node reports for its value given the parents' values. -/
theorem C10_nodeTable [Zero K] {card : Nat → Nat} {N : Net} (h : NetShape card N) {i : Nat} {s : NodeS}
    (hi : N.nodes[i]? = some s) {prob : Nat → Config → Except Fault K}
    (hP : ∀ x < card i, ∀ u, IsParentConfig card s.parents u → ∃ p, prob x u = .ok p) :
    ∃ T, nodeTable N i prob = .ok T ∧ WellFormed card T ∧ T.vars = i :: s.parents ∧ s.parents.Pairwise (· < ·) ∧
      ∀ a, InRange card (i :: s.parents) a → prob (a i) (configOf a s.parents) = .ok (value T a) := by
  have hP' : ∀ a, InRange card (i :: s.parents) a → ∃ p, prob (a i) (configOf a s.parents) = .ok p := by
    intro a ha
    refine hP (a i) (ha i (by simp)) _ ⟨by simp [configOf, Function.comp_def], ?_⟩
    intro x hx
    obtain ⟨p, hp, rfl⟩ := List.mem_map.1 hx
    exact ha p (by simp [hp])
  classical
  let P : Assignment → K := fun a => match prob (a i) (configOf a s.parents) with | .ok p => p | .error _ => 0
  have hPP : ∀ a, InRange card (i :: s.parents) a → prob (a i) (configOf a s.parents) = .ok (P a) := by
    intro a ha
    obtain ⟨p, hp⟩ := hP' a ha
    simp [P, hp]
  have hdep : DependsOn P (i :: s.parents) := by
    intro a b hab
    have e : configOf a s.parents = configOf b s.parents := by
      apply List.map_congr_left
      intro p hp
      rw [hab p (by simp [hp])]
    simp only [P, hab i (by simp), e]
  refine ⟨_, nodeTable_eq h hi hPP, fromFn_wf (NetShape.nodup h hi) (NetShape.pos h hi) _, rfl, (h.parents i s hi).1, ?_⟩
  intro a ha
  rw [value_fromFn (NetShape.nodup h hi) hdep ha]
  exact hPP a ha

/-- C10, without assumptions on the network: after any history of edge operations the table of every node is as described. -/
theorem C10_history [Zero K] {dims : List Nat} (hpos : ∀ d ∈ dims, 0 < d) {ops : List EdgeOp}
    (hops : ∀ op ∈ ops, OpInRange dims.length op) :
    ∃ N, (Net.empty dims).run ops = .ok N ∧ N.nodes.length = dims.length ∧
      ∀ (i : Nat) s, N.nodes[i]? = some s → ∀ prob : Nat → Config → Except Fault K,
        (∀ x < dims.getD i 0, ∀ u, IsParentConfig (fun j => dims.getD j 0) s.parents u → ∃ p, prob x u = .ok p) →
        ∃ T, nodeTable N i prob = .ok T ∧ WellFormed (fun j => dims.getD j 0) T ∧ T.vars = i :: s.parents ∧
          s.parents.Pairwise (· < ·) ∧
          ∀ a, InRange (fun j => dims.getD j 0) (i :: s.parents) a →
            prob (a i) (configOf a s.parents) = .ok (value T a) := by
  obtain ⟨N, h1, h2, h3, _⟩ := run_shape hops hpos
  exact ⟨N, h1, h2, fun i s hs prob hp => C10_nodeTable h3 hs hp⟩

/-- The v-structure `0 → 2 ← 1` with 2, 3 and 2 values: the table of node 2, whose entry at `(x, u₀, u₁)` is `100x + 10u₀ + u₁`. -/
example : ((Net.empty [2, 3, 2]).run [.addDirected 1 2, .addDirected 0 2] >>= fun N =>
    nodeTable (K := Nat) N 2 (fun x u => .ok (100 * x + (u.map (fun q => if q.1 = 0 then 10 * q.2 else q.2)).sum))) =
    .ok ⟨[2, 0, 1], [2, 2, 3], [6, 3, 1], 12, [0, 1, 2, 10, 11, 12, 100, 101, 102, 110, 111, 112]⟩ := by decide

/-! ### C23 -/

theorem init_zero (s : NodeS) {t : NodeStats} (h1 : ∀ x u, t.stat x u = 0) (h2 : ∀ u, t.total u = 0) (x : Nat) (u : Config) :
    (t.initialize s).stat x u = 0 ∧ (t.initialize s).total u = 0 := by
  simp [NodeStats.initialize, h1, h2]

theorem run_counts (s : NodeS) (calls : List (Nat × Config × Int)) (t : NodeStats)
    (h : t.init = true ∨ ((∀ x u, t.stat x u = 0) ∧ ∀ u, t.total u = 0)) (x : Nat) (u : Config) :
    (t.run s calls).stat x u = t.stat x u + countedFor calls x u ∧
      (t.run s calls).total u = t.total u + countedTotal calls u := by
  induction calls generalizing t with
  | nil => simp [NodeStats.run, countedFor, countedTotal]
  | cons c calls ih =>
    have hadd : (t.addCount s c.1 c.2.1 c.2.2).stat x u = t.stat x u + (if c.1 = x ∧ c.2.1 = u then c.2.2 else 0) ∧
        (t.addCount s c.1 c.2.1 c.2.2).total u = t.total u + (if c.2.1 = u then c.2.2 else 0) ∧
        (t.addCount s c.1 c.2.1 c.2.2).init = true := by
      rcases h with h | ⟨h1, h2⟩
      · unfold NodeStats.addCount
        rw [if_pos h]
        refine ⟨?_, ?_, h⟩
        · by_cases e : x = c.1 ∧ u = c.2.1
          · obtain ⟨rfl, rfl⟩ := e; simp
          · have : ¬ (c.1 = x ∧ c.2.1 = u) := fun e' => e ⟨e'.1.symm, e'.2.symm⟩
            simp [e, this]
        · by_cases e : u = c.2.1
          · subst e; simp
          · have : ¬ c.2.1 = u := fun e' => e e'.symm
            simp [e, this]
      · unfold NodeStats.addCount
        by_cases hi : t.init = true
        · rw [if_pos hi]
          refine ⟨?_, ?_, hi⟩
          · by_cases e : x = c.1 ∧ u = c.2.1
            · obtain ⟨rfl, rfl⟩ := e; simp
            · have : ¬ (c.1 = x ∧ c.2.1 = u) := fun e' => e ⟨e'.1.symm, e'.2.symm⟩
              simp [e, this]
          · by_cases e : u = c.2.1
            · subst e; simp
            · have : ¬ c.2.1 = u := fun e' => e e'.symm
              simp [e, this]
        · rw [if_neg hi]
          have hz := fun x u => (init_zero s h1 h2 x u).1
          have hz2 := fun u => (init_zero s h1 h2 0 u).2
          refine ⟨?_, ?_, rfl⟩
          · rw [h1]
            by_cases e : x = c.1 ∧ u = c.2.1
            · obtain ⟨rfl, rfl⟩ := e; simp [hz]
            · have : ¬ (c.1 = x ∧ c.2.1 = u) := fun e' => e ⟨e'.1.symm, e'.2.symm⟩
              simp [e, this, hz]
          · rw [h2]
            by_cases e : u = c.2.1
            · subst e; simp [hz2]
            · have : ¬ c.2.1 = u := fun e' => e e'.symm
              simp [e, this, hz2]
    obtain ⟨e1, e2⟩ := ih (t.addCount s c.1 c.2.1 c.2.2) (Or.inl hadd.2.2)
    unfold NodeStats.run at e1 e2 ⊢
    rw [List.foldl_cons, e1, e2, hadd.1, hadd.2.1]
    unfold countedFor countedTotal
    constructor
    · rw [List.filter_cons]
      by_cases e : c.1 = x ∧ c.2.1 = u
      · simp [e]; ring
      · simp [e]
    · rw [List.filter_cons]
      by_cases e : c.2.1 = u
      · simp [e]; ring
      · simp [e]

/-- C23.  After any sequence of `AddCount` calls on a new node, the statistics are the sums of the added counts. -/
theorem C23_counts (s : NodeS) (calls : List (Nat × Config × Int)) (x : Nat) (u : Config) :
    (NodeStats.new.run s calls).stat x u = countedFor calls x u ∧
      (NodeStats.new.run s calls).total u = countedTotal calls u := by
  have := run_counts s calls NodeStats.new (Or.inr ⟨fun _ _ => rfl, fun _ => rfl⟩) x u
  simpa [NodeStats.new] using this

/-- C23.  `InitializeCPT` on a node in any state clears the statistics of every recorded parent configuration. -/
theorem C23_initialize (s : NodeS) (t : NodeStats) {x : Nat} (hx : x < s.dim) {u : Config}
    (hu : if s.parents = [] then u = [] else u ∈ s.combs) :
    (t.initialize s).stat x u = 0 ∧ (t.initialize s).total u = 0 ∧ (t.initialize s).init = true := by
  unfold NodeStats.initialize
  by_cases h : s.parents = []
  · rw [if_pos h] at hu
    simp [h, hu, hx]
  · rw [if_neg h] at hu
    simp [h, hu, hx]

theorem countedTotal_eq {n : Nat} {calls : List (Nat × Config × Int)} (h : ∀ c ∈ calls, c.1 < n) (u : Config) :
    countedTotal calls u = ∑ x ∈ Finset.range n, countedFor calls x u := by
  induction calls with
  | nil => simp [countedTotal, countedFor]
  | cons c calls ih =>
    have h1 := ih (fun d hd => h d (by simp [hd]))
    have h2 : ∀ x, countedFor (c :: calls) x u =
        (if c.1 = x then (if c.2.1 = u then c.2.2 else 0) else 0) + countedFor calls x u := by
      intro x
      unfold countedFor
      rw [List.filter_cons]
      by_cases e : c.1 = x
      · by_cases e' : c.2.1 = u <;> simp [e, e']
      · simp [e]
    have h3 : countedTotal (c :: calls) u = (if c.2.1 = u then c.2.2 else 0) + countedTotal calls u := by
      unfold countedTotal
      rw [List.filter_cons]
      by_cases e : c.2.1 = u <;> simp [e]
    rw [h3, h1, Finset.sum_congr rfl (fun x _ => h2 x), Finset.sum_add_distrib, Finset.sum_ite_eq,
      if_pos (Finset.mem_range.2 (h c (by simp)))]

theorem countedFor_nonneg {calls : List (Nat × Config × Int)} (h : ∀ c ∈ calls, 0 ≤ c.2.2) (x : Nat) (u : Config) :
    0 ≤ countedFor calls x u := by
  apply List.sum_nonneg
  intro y hy
  obtain ⟨c, hc, rfl⟩ := List.mem_map.1 hy
  exact h c (List.mem_filter.1 hc).1

theorem countedTotal_nonneg {calls : List (Nat × Config × Int)} (h : ∀ c ∈ calls, 0 ≤ c.2.2) (u : Config) :
    0 ≤ countedTotal calls u := by
  apply List.sum_nonneg
  intro y hy
  obtain ⟨c, hc, rfl⟩ := List.mem_map.1 hy
  exact h c (List.mem_filter.1 hc).1

theorem countedFor_le_total {n : Nat} {calls : List (Nat × Config × Int)} (hn : ∀ c ∈ calls, c.1 < n)
    (h : ∀ c ∈ calls, 0 ≤ c.2.2) {x : Nat} (hx : x < n) (u : Config) : countedFor calls x u ≤ countedTotal calls u := by
  rw [countedTotal_eq hn]
  exact Finset.single_le_sum (fun y _ => countedFor_nonneg h y u) (Finset.mem_range.2 hx)

section ordered

variable [Field K] [LinearOrder K] [IsStrictOrderedRing K]

/-- C23.  After any sequence of `AddCount` calls with legal values and non-negative counts, and smoothing `alpha > 0`, the reported
probabilities are positive, follow the counts, and sum to 1 over the node's values, for every parent configuration. -/
theorem C23_distribution {s : NodeS} (hdim : 0 < s.dim) {calls : List (Nat × Config × Int)}
    (hq : ∀ c ∈ calls, c.1 < s.dim) (hc : ∀ c ∈ calls, 0 ≤ c.2.2) {alpha : K} (ha : 0 < alpha) (u : Config) :
    ∃ P : Nat → K, (∀ x, (NodeStats.new.run s calls).getProbability s alpha x u = .ok (P x)) ∧
      (∀ x, P x = ((countedFor calls x u : K) + alpha) / ((countedTotal calls u : K) + alpha * s.dim)) ∧
      (∀ x < s.dim, 0 < P x ∧ P x ≤ 1) ∧ ∑ x ∈ Finset.range s.dim, P x = 1 := by
  have hcnt := fun x => C23_counts s calls x u
  have ht : (0 : K) ≤ (countedTotal calls u : K) := by exact_mod_cast countedTotal_nonneg hc u
  have hd : (1 : K) ≤ (s.dim : K) := by exact_mod_cast hdim
  have hden : (0 : K) < (countedTotal calls u : K) + alpha * s.dim := by
    have : 0 < alpha * (s.dim : K) := mul_pos ha (by linarith)
    linarith
  refine ⟨fun x => ((countedFor calls x u : K) + alpha) / ((countedTotal calls u : K) + alpha * s.dim), ?_, fun _ => rfl, ?_, ?_⟩
  · intro x
    unfold NodeStats.getProbability
    simp only [(hcnt x).1, (hcnt x).2]
    rw [if_neg hden.ne']
  · intro x hx
    have h1 : (0 : K) ≤ (countedFor calls x u : K) := by exact_mod_cast countedFor_nonneg hc x u
    have h2 : (countedFor calls x u : K) ≤ (countedTotal calls u : K) := by
      exact_mod_cast countedFor_le_total hq hc hx u
    have h3 : alpha ≤ alpha * (s.dim : K) := le_mul_of_one_le_right ha.le hd
    exact ⟨div_pos (by linarith) hden, (div_le_one hden).2 (by linarith)⟩
  · rw [← Finset.sum_div, Finset.sum_add_distrib, Finset.sum_const, Finset.card_range, nsmul_eq_mul, ← Int.cast_sum,
      ← countedTotal_eq hq, mul_comm, div_self hden.ne']

/-- C23.  Adding a further count `n ≥ 0` for `(x, u)` does not lower the probability of `x` under `u`, does not raise that of the
other values under `u`, and leaves the other configurations alone; with `n > 0` and at least two values the first is strict. -/
theorem C23_monotone {s : NodeS} (hdim : 0 < s.dim) {calls : List (Nat × Config × Int)}
    (hq : ∀ c ∈ calls, c.1 < s.dim) (hc : ∀ c ∈ calls, 0 ≤ c.2.2) {alpha : K} (ha : 0 < alpha) {x : Nat} (hx : x < s.dim)
    (u : Config) {n : Int} (hn : 0 ≤ n) :
    ∃ P P' : Nat → Config → K,
      (∀ y w, (NodeStats.new.run s calls).getProbability s alpha y w = .ok (P y w)) ∧
      (∀ y w, ((NodeStats.new.run s calls).addCount s x u n).getProbability s alpha y w = .ok (P' y w)) ∧
      P x u ≤ P' x u ∧ (0 < n → 2 ≤ s.dim → P x u < P' x u) ∧ (∀ y < s.dim, y ≠ x → P' y u ≤ P y u) ∧
      ∀ w, w ≠ u → ∀ y, P' y w = P y w := by
  have hrun : (NodeStats.new.run s calls).addCount s x u n = NodeStats.new.run s (calls ++ [(x, u, n)]) := by
    simp [NodeStats.run, List.foldl_append]
  have hq' : ∀ c ∈ calls ++ [(x, u, n)], c.1 < s.dim := by
    intro c hcm
    rcases List.mem_append.1 hcm with h | h
    · exact hq c h
    · rw [List.mem_singleton.1 h]; exact hx
  have hc' : ∀ c ∈ calls ++ [(x, u, n)], 0 ≤ c.2.2 := by
    intro c hcm
    rcases List.mem_append.1 hcm with h | h
    · exact hc c h
    · rw [List.mem_singleton.1 h]; exact hn
  choose P h1 h2 h3 h4 using fun w => C23_distribution (K := K) hdim hq hc ha w
  choose P' g1 g2 g3 g4 using fun w => C23_distribution (K := K) hdim hq' hc' ha w
  have hF : ∀ y w, countedFor (calls ++ [(x, u, n)]) y w = countedFor calls y w + if x = y ∧ u = w then n else 0 := by
    intro y w
    unfold countedFor
    rw [List.filter_append, List.map_append, List.sum_append]
    by_cases e : x = y ∧ u = w <;> simp [e]
  have hT : ∀ w, countedTotal (calls ++ [(x, u, n)]) w = countedTotal calls w + if u = w then n else 0 := by
    intro w
    unfold countedTotal
    rw [List.filter_append, List.map_append, List.sum_append]
    by_cases e : u = w <;> simp [e]
  have hn' : (0 : K) ≤ (n : K) := by exact_mod_cast hn
  have ht : (0 : K) ≤ (countedTotal calls u : K) := by exact_mod_cast countedTotal_nonneg hc u
  have hd : (1 : K) ≤ (s.dim : K) := by exact_mod_cast hdim
  have had : 0 < alpha * (s.dim : K) := mul_pos ha (by linarith)
  have hden : (0 : K) < (countedTotal calls u : K) + alpha * s.dim := by linarith
  have hden' : (0 : K) < (countedTotal calls u : K) + n + alpha * s.dim := by linarith
  have hs0 : ∀ y, (0 : K) ≤ (countedFor calls y u : K) := fun y => by exact_mod_cast countedFor_nonneg hc y u
  have hs1 : (countedFor calls x u : K) ≤ (countedTotal calls u : K) := by exact_mod_cast countedFor_le_total hq hc hx u
  have h5 : alpha ≤ alpha * (s.dim : K) := le_mul_of_one_le_right ha.le hd
  refine ⟨fun y w => P w y, fun y w => P' w y, fun y w => h1 w y, fun y w => by rw [hrun]; exact g1 w y, ?_, ?_, ?_, ?_⟩
  · show P u x ≤ P' u x
    rw [h2, g2, hF, hT, if_pos ⟨rfl, rfl⟩, if_pos rfl]
    push_cast
    rw [div_le_div_iff₀ hden hden']
    have : (n : K) * ((countedFor calls x u : K) + alpha) ≤ n * ((countedTotal calls u : K) + alpha * s.dim) :=
      mul_le_mul_of_nonneg_left (by linarith) hn'
    linarith [this]
  · intro hn0 hd2
    show P u x < P' u x
    rw [h2, g2, hF, hT, if_pos ⟨rfl, rfl⟩, if_pos rfl]
    push_cast
    rw [div_lt_div_iff₀ hden hden']
    have hn0' : (0 : K) < (n : K) := by exact_mod_cast hn0
    have hd2' : (2 : K) ≤ (s.dim : K) := by exact_mod_cast hd2
    have h6 : alpha * 2 ≤ alpha * (s.dim : K) := mul_le_mul_of_nonneg_left hd2' ha.le
    have : (n : K) * ((countedFor calls x u : K) + alpha) < n * ((countedTotal calls u : K) + alpha * s.dim) :=
      mul_lt_mul_of_pos_left (by linarith) hn0'
    linarith [this]
  · intro y _ hy
    show P' u y ≤ P u y
    rw [h2, g2, hF, hT, if_neg (fun e => hy e.1.symm), if_pos rfl]
    push_cast
    rw [div_le_div_iff₀ hden' hden]
    have : (0 : K) ≤ (n : K) * ((countedFor calls y u : K) + alpha) := mul_nonneg hn' (by linarith [hs0 y])
    linarith [this]
  · intro w hw y
    show P' w y = P w y
    rw [h2, g2, hF, hT, if_neg (fun e => hw e.2.symm), if_neg (fun e => hw e.symm)]
    simp

/-- Three calls on a node with two values: the hypotheses hold and the probabilities are 3/5 and 2/5. -/
example : let s : NodeS := { dim := 2 }
    let calls : List (Nat × Config × Int) := [(0, [], 2), (1, [], 1), (1, [], 0)]
    (∀ c ∈ calls, c.1 < s.dim) ∧ (∀ c ∈ calls, 0 ≤ c.2.2) ∧
      (NodeStats.new.run s calls).getProbability (K := ℚ) s 1 0 [] = .ok (3 / 5) ∧
      (NodeStats.new.run s calls).getProbability (K := ℚ) s 1 1 [] = .ok (2 / 5) := by decide +kernel

end ordered

end FastPGM
