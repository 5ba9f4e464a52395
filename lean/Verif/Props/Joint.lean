import Verif.Lemmas.Joint
import Verif.Lemmas.Compare2
import Verif.Props.Graph
import Verif.Props.JunctionTreeInference

/-!
C63: the tables of a network are the conditional distributions of its joint distribution, and the answers of the junction tree are
distributions.
-/

namespace FastPGM

open Spec

variable {K : Type}

section
variable [Field K] {card : Nat → Nat}

/-- The factor of node `v`. -/
def nodeFactor (pts : List (Table K)) (v : Nat) (a : Assignment) : K := ((pts[v]?).map (fun T => value T a)).getD 1

theorem nodeFactor_eq {pts : List (Table K)} {v : Nat} {T : Table K} (h : pts[v]? = some T) : nodeFactor pts v = value T := by
  funext a
  simp [nodeFactor, h]

theorem joint_eq_order {pts : List (Table K)} {l : List Nat} (h : l.Perm (List.range pts.length)) (a : Assignment) :
    joint pts a = (l.map (fun v => nodeFactor pts v a)).prod := by
  rw [(h.map _).prod_eq]
  unfold joint
  congr 1
  apply List.ext_getElem (by simp)
  intro i h1 h2
  simp only [List.length_map] at h1
  simp [nodeFactor, h1]

theorem topo_prefix {N : Net} {T : List Nat} (h : TopoFacts N T) {q r : List Nat} {v : Nat} (e : T = q ++ v :: r) {x : Nat} (hx : x ∈ N.pa v) : x ∈ q := by
  have hb := h.before x v hx
  have hv : v ∉ q := fun hv => by
    have := h.nodup
    rw [e] at this
    exact (List.nodup_append.1 this).2.2 v hv v (by simp) rfl
  rw [e, List.idxOf_append_of_notMem (l₁ := q) hv, List.idxOf_cons_self, Nat.add_zero] at hb
  by_contra hxq
  rw [List.idxOf_append_of_notMem hxq] at hb
  omega

omit [Field K] in
theorem NodeTables.vars_lt {N : Net} (hinv : NetInv N) {pts : List (Table K)} (hpts : NodeTables card N pts) {i : Nat} {T : Table K}
    (h : pts[i]? = some T) : ∀ v ∈ T.vars, v < N.nodes.length := by
  intro v hv
  have hi := (List.getElem?_eq_some_iff.1 h).1
  rw [hpts.length] at hi
  rcases (hpts.vars i T h v).1 hv with rfl | hp
  · exact hi
  · exact (hinv.wf.lt ((hinv.wf.sym v i).2 (parentOf_iff.1 hp))).1

/-- What the sums over all assignments need. -/
structure JointOrder (N : Net) (card : Nat → Nat) (pts : List (Table K)) (l : List Nat) : Prop where
  nodup : l.Nodup
  perm : l.Perm (List.range pts.length)
  dep : ∀ q v r, l = q ++ v :: r → DependsOn (nodeFactor pts v) (v :: q)
  one : ∀ v ∈ l, ∀ a, InRange card (List.range N.nodes.length) a → ∑ x ∈ Finset.range (card v), nodeFactor pts v (a.set v x) = 1
  pa : ∀ q v r, l = q ++ v :: r → ∀ x ∈ N.pa v, x ∈ q

theorem jointOrder {N : Net} (hinv : NetInv N) {pts : List (Table K)} (hpts : NodeTables card N pts) (hcond : ConditionalTables card pts)
    {l : List Nat} (hl : IsTopologicalOrder N.nodes.length (ChildOf N) l) : JointOrder N card pts l := by
  have ht := topoFacts hinv hl
  have hget : ∀ v, v ∈ l → ∃ T, pts[v]? = some T := fun v hv =>
    ⟨_, List.getElem?_eq_getElem (by rw [hpts.length]; exact (ht.mem v).1 hv)⟩
  refine ⟨ht.nodup, ?_, ?_, ?_, fun q v r e x hx => topo_prefix ht e hx⟩
  · rw [hpts.length]
    exact (List.perm_ext_iff_of_nodup ht.nodup List.nodup_range).2 (fun v => by rw [ht.mem, List.mem_range])
  · intro q v r e
    obtain ⟨T, hT⟩ := hget v (by rw [e]; simp)
    rw [nodeFactor_eq hT]
    refine (value_dependsOn T).mono (fun x hx => ?_)
    rcases (hpts.vars v T hT x).1 hx with rfl | hp
    · simp
    · exact List.mem_cons_of_mem _ (topo_prefix ht e (parentOf_iff.1 hp))
  · intro v hv a ha
    obtain ⟨T, hT⟩ := hget v hv
    rw [nodeFactor_eq hT]
    exact hcond v T hT a (fun x hx => ha x (List.mem_range.2 (NodeTables.vars_lt hinv hpts hT x hx)))

theorem JointOrder.total {N : Net} {pts : List (Table K)} {l : List Nat} (h : JointOrder N card pts l) (hlen : pts.length = N.nodes.length)
    (hc : ∀ i < N.nodes.length, 0 < card i) : weight card N.nodes.length (joint pts) (fun _ => True) = 1 := by
  unfold weight
  rw [← hlen, ← sumOut_perm_eq h.perm]
  have := sumOut_order_one (card := card) (V := List.range N.nodes.length) (nodeFactor pts) h.nodup (fun v hv => by
    rw [← hlen]
    exact h.perm.mem_iff.1 hv) h.dep h.one (a := fun _ => 0) (fun v hv => hc v (List.mem_range.1 hv))
  rw [← this]
  congr 1
  funext b
  rw [if_pos trivial, joint_eq_order h.perm]

theorem JointOrder.conditional {N : Net} {pts : List (Table K)} {l : List Nat} (h : JointOrder N card pts l) (hlen : pts.length = N.nodes.length)
    (hc : ∀ i < N.nodes.length, 0 < card i) {v : Nat} {T : Table K} (hT : pts[v]? = some T) {ps : List Nat} (hps : ∀ x ∈ ps, x ∈ N.pa v)
    (hv : ∀ x ∈ T.vars, x = v ∨ x ∈ ps) {c : Assignment} (hcr : InRange card (List.range N.nodes.length) c) :
    weight card N.nodes.length (joint pts) (Agrees (observed c (v :: ps))) =
      value T c * weight card N.nodes.length (joint pts) (Agrees (observed c ps)) := by
  have hvl : v ∈ l := h.perm.mem_iff.2 (List.mem_range.2 (List.getElem?_eq_some_iff.1 hT).1)
  obtain ⟨q, r, e⟩ := List.append_of_mem hvl
  have hmem : ∀ x ∈ l, x ∈ List.range N.nodes.length := fun x hx => by
    rw [← hlen]
    exact h.perm.mem_iff.1 hx
  have := sumOut_order_conditional (card := card) (V := List.range N.nodes.length) (q := q) (r := r) (v := v) (nodeFactor pts) (e ▸ h.nodup) (e ▸ hmem)
    (fun q' u r' h' => h.dep q' u r' (e.trans h')) (e ▸ h.one) (ws := ps) (fun x hx => h.pa q v r e x (hps x hx))
    (by
      rw [nodeFactor_eq hT]
      exact (value_dependsOn T).mono (fun x hx => by
        rcases hv x hx with rfl | hx
        · simp
        · exact List.mem_cons_of_mem _ hx)) hcr (a := fun _ => 0) (fun x hx => hc x (List.mem_range.1 hx))
  rw [nodeFactor_eq hT, ← e] at this
  unfold weight
  rw [← hlen, ← sumOut_perm_eq h.perm, ← sumOut_perm_eq h.perm]
  simp only [joint_eq_order h.perm]
  exact this

variable {dims : List Nat} {ops : List EdgeOp} {N : Net} {pts : List (Table K)}

/-- C63: for the network left by any history of edge operations, if every table is a conditional distribution then the probabilities of all
assignments sum to 1. -/
theorem C63_total (hops : ∀ op ∈ ops, OpInRange dims.length op) (hN : (Net.empty dims).run ops = .ok N) (hpts : NodeTables card N pts)
    (hcond : ConditionalTables card pts) : weight card dims.length (joint pts) (fun _ => True) = 1 := by
  obtain ⟨hinv, hlen⟩ := netInv_of_run hops hN
  obtain ⟨l, _, hl⟩ := C16_genTopoOrd hops hN
  rw [← hlen] at hl ⊢
  exact (jointOrder hinv hpts hcond hl).total hpts.length (nodeTables_facts hpts).1

/-- C63: in that joint distribution, P(node = c(node) and its parents have the values c) = table entry · P(parents have the values c): the
table of a node is its conditional distribution given its parents. -/
theorem C63_conditional (hops : ∀ op ∈ ops, OpInRange dims.length op) (hN : (Net.empty dims).run ops = .ok N) (hpts : NodeTables card N pts)
    (hcond : ConditionalTables card pts) {v : Nat} {T : Table K} (hT : pts[v]? = some T) {s : NodeS} (hs : N.nodes[v]? = some s)
    {c : Assignment} (hc : InRange card (List.range dims.length) c) :
    weight card dims.length (joint pts) (Agrees (observed c (v :: s.parents))) =
      value T c * weight card dims.length (joint pts) (Agrees (observed c s.parents)) := by
  obtain ⟨hinv, hlen⟩ := netInv_of_run hops hN
  obtain ⟨l, _, hl⟩ := C16_genTopoOrd hops hN
  rw [← hlen] at hl hc ⊢
  have hpa : N.pa v = s.parents := by simp [Net.pa, hs]
  refine (jointOrder hinv hpts hcond hl).conditional hpts.length (nodeTables_facts hpts).1 hT (fun x hx => hpa ▸ hx) ?_ hc
  intro x hx
  rcases (hpts.vars v T hT x).1 hx with h | h
  · exact Or.inl h
  · exact Or.inr (hpa ▸ parentOf_iff.1 h)

theorem sum_sumOut {us : List Nat} {m : Nat} (f : Nat → Assignment → K) (a : Assignment) :
    ∑ x ∈ Finset.range m, sumOut card us (f x) a = sumOut card us (fun b => ∑ x ∈ Finset.range m, f x b) a := by
  induction us generalizing a with
  | nil => rfl
  | cons u us ih =>
    show ∑ x ∈ Finset.range m, ∑ y ∈ Finset.range (card u), _ = ∑ y ∈ Finset.range (card u), _
    rw [Finset.sum_comm]
    exact Finset.sum_congr rfl (fun y _ => ih _)

theorem sum_weight {n : Nat} {p : Assignment → K} (hc : ∀ i < n, 0 < card i) (E : List (Nat × Nat)) {q : Nat} (hq : q < n) :
    ∑ x ∈ Finset.range (card q), weight card n p (fun a => Agrees E a ∧ a q = x) = weight card n p (Agrees E) := by
  unfold weight
  rw [sum_sumOut]
  refine sumOut_congr_range (V := List.range n) ?_ (fun v hv => hc v (List.mem_range.1 hv))
  intro b hb
  by_cases h : Agrees E b
  · simp only [h, true_and, if_true]
    rw [Finset.sum_ite_eq, if_pos (Finset.mem_range.2 (hb q (List.mem_range.2 hq)))]
  · simp [h]

end

section
variable [Field K] [LinearOrder K] [IsStrictOrderedRing K] {dims : List Nat} {ops : List EdgeOp} {N : Net} {card : Nat → Nat} {pts : List (Table K)}
  {order : List (Nat × Nat) → List (Nat × Nat)} {cord : Nat → List Nat}

/-- C63: whatever non-negative tables the network has, the answer of the junction tree to a query with evidence of positive probability is a
distribution: the numbers lie between 0 and 1 and sum to 1. -/
theorem C63_answer (hops : ∀ op ∈ ops, OpInRange dims.length op) (hN : (Net.empty dims).run ops = .ok N) (h0 : dims ≠ [])
    (hw : WeaklyConnected N) (horder : ∀ l, (order l).Perm l) (hcord : ∀ m, (cord m).Perm (List.range m)) (hpts : NodeTables card N pts)
    (hnn : ∀ T ∈ pts, ∀ x ∈ T.pot, 0 ≤ x) {E : List (Nat × Nat)} (hEn : (E.map Prod.fst).Nodup) (hE : ∀ e ∈ E, e.1 < dims.length)
    (hpos : weight card dims.length (joint pts) (Agrees E) ≠ 0) {q : Nat} (hq : q < dims.length) (hqE : q ∉ E.map Prod.fst) :
    ∃ J T, buildJunctionTree N card pts order cord = .ok J ∧ J.marginal E q = .ok (T, J) ∧ T.pot.length = card q ∧
      (∀ x ∈ T.pot, 0 ≤ x ∧ x ≤ 1) ∧ T.pot.sum = 1 := by
  obtain ⟨J, T, h1, h2, _, h4, h5⟩ := C42_posterior hops hN h0 hw horder hcord hpts hnn hEn hE hpos hq hqE
  have hlen := (netInv_of_run hops hN).2
  have hc : ∀ i < dims.length, 0 < card i := by
    rw [← hlen]
    exact (nodeTables_facts hpts).1
  have hj : ∀ a, 0 ≤ joint pts a := fun a => List.prod_nonneg (fun x hx => by
    obtain ⟨T, hT, rfl⟩ := List.mem_map.1 hx
    exact value_nonneg (hnn T hT) a)
  have hnn' : ∀ x, 0 ≤ posterior card dims.length (joint pts) E q x := fun x =>
    div_nonneg (sumOut_nonneg (fun a => by split; exacts [hj a, le_refl _]) _) (sumOut_nonneg (fun a => by split; exacts [hj a, le_refl _]) _)
  have hsum : ∑ x ∈ Finset.range (card q), posterior card dims.length (joint pts) E q x = 1 := by
    unfold posterior
    rw [← Finset.sum_div, sum_weight hc E hq, div_self hpos]
  have hpot : T.pot = (List.range (card q)).map (fun x => posterior card dims.length (joint pts) E q x) := by
    apply List.ext_getElem? 
    intro i
    by_cases hi : i < card q
    · rw [h5 i hi]
      simp [hi]
    · rw [List.getElem?_eq_none (by omega), List.getElem?_eq_none (by simpa using hi)]
  refine ⟨J, T, h1, h2, h4, ?_, ?_⟩
  · intro x hx
    rw [hpot] at hx
    obtain ⟨k, hk, rfl⟩ := List.mem_map.1 hx
    refine ⟨hnn' k, ?_⟩
    rw [← hsum]
    exact Finset.single_le_sum (f := fun x => posterior card dims.length (joint pts) E q x) (fun i _ => hnn' i) (Finset.mem_range.2 (List.mem_range.1 hk))
  · rw [hpot, ← hsum]
    rfl

/-- C63, from data: the tables learned with a positive Laplace constant are conditional distributions, so the joint distribution sums to 1 and
the conditional probability of each node given its parents is the smoothed relative frequency. -/
theorem C63_learned (hdim : ∀ d ∈ dims, 0 < d) (hops : ∀ op ∈ ops, OpInRange dims.length op) (hN : (Net.empty dims).run ops = .ok N)
    {cols : List (List Nat)} {rows : List Assignment} (hc : Columns (fun i => dims.getD i 0) dims.length cols rows) {alpha : Int}
    (ha : 0 < alpha) (rnd : Nat → Nat → Nat) :
    ∃ pts : List (Table K), learnParams N cols dims.length rows.length alpha rnd [] = .ok pts ∧
      weight (fun i => dims.getD i 0) dims.length (joint pts) (fun _ => True) = 1 ∧
      ∀ v s c, N.nodes[v]? = some s → InRange (fun i => dims.getD i 0) (List.range dims.length) c →
        weight (fun i => dims.getD i 0) dims.length (joint pts) (Agrees (observed c (v :: s.parents))) =
          ((countSame rows (v :: s.parents) c : K) + (alpha : K)) / ((countSame rows s.parents c : K) + (alpha : K) * (dims.getD v 0 : K)) *
            weight (fun i => dims.getD i 0) dims.length (joint pts) (Agrees (observed c s.parents)) := by
  obtain ⟨N', hN', hlen, hshape, hinv⟩ := run_shape hops hdim
  rw [hN] at hN'
  cases hN'
  rw [← hlen] at hc
  obtain ⟨pts, h1, h2, h3⟩ := C22_learned (K := K) hshape hc ha.le (fun e => absurd e ha.ne') rnd []
  rw [List.nil_append] at h1
  have hget : ∀ (i : Nat) T, pts[i]? = some T → ∃ s, N.nodes[i]? = some s ∧ IsFrequencyTable (fun i => dims.getD i 0) rows alpha i s.parents T := by
    intro i T hT
    have hi := (List.getElem?_eq_some_iff.1 hT).1
    rw [h2] at hi
    obtain ⟨T', h4, h5⟩ := h3 i _ (List.getElem?_eq_getElem hi)
    rw [hT] at h4
    cases h4
    exact ⟨_, List.getElem?_eq_getElem hi, h5⟩
  have hpts : NodeTables (fun i => dims.getD i 0) N pts := by
    refine ⟨h2, ?_, ?_⟩
    · intro T hT
      obtain ⟨i, hi, rfl⟩ := List.getElem_of_mem hT
      obtain ⟨s, _, h⟩ := hget i _ (List.getElem?_eq_getElem hi)
      exact h.1
    · intro i T hT v
      obtain ⟨s, hs, h⟩ := hget i T hT
      rw [h.2.1, List.mem_cons, parentOf_iff]
      simp [Net.pa, hs]
  have hcond : ConditionalTables (fun i => dims.getD i 0) pts := by
    intro i T hT a har
    obtain ⟨s, hs, h⟩ := hget i T hT
    have hi := (List.getElem?_eq_some_iff.1 hs).1
    exact (frequencyTable_normalised ha (fun r hr => hc.lt r hr i hi) h).2 a (fun v hv => har v (by rw [h.2.1]; exact List.mem_cons_of_mem _ hv))
  refine ⟨pts, by rw [← hlen]; exact h1, C63_total hops hN hpts hcond, ?_⟩
  intro v s c hs hcr
  obtain ⟨T, hT, h⟩ := h3 v s hs
  rw [C63_conditional hops hN hpts hcond hT hs hcr, h.2.2 c]
  intro x hx
  refine hcr x (List.mem_range.2 ?_)
  rw [← hlen]
  exact NodeTables.vars_lt hinv hpts hT x (by rw [h.2.1]; exact hx)

/-- The tables of the four-node example are conditional distributions. -/
example : ConditionalTables (fun _ => 2) diamondTables := by
  have two : ∀ x : Nat, x < 2 → x = 0 ∨ x = 1 := by omega
  intro i T hT a ha
  rcases i with _ | _ | _ | _ | i <;> simp only [diamondTables, List.getElem?_cons_zero, List.getElem?_cons_succ, List.getElem?_nil, Option.some.injEq, reduceCtorEq] at hT
  all_goals subst hT
  · simp [Finset.sum_range_succ, value, rank, Assignment.set]; norm_num
  · rcases two _ (ha 0 (by simp)) with h | h <;> simp [Finset.sum_range_succ, value, rank, Assignment.set, h] <;> norm_num
  · rcases two _ (ha 0 (by simp)) with h | h <;> simp [Finset.sum_range_succ, value, rank, Assignment.set, h] <;> norm_num
  · rcases two _ (ha 1 (by simp)) with h | h <;> rcases two _ (ha 2 (by simp)) with h' | h' <;>
      simp [Finset.sum_range_succ, value, rank, Assignment.set, h, h'] <;> norm_num

/-- The four-node example: the tables are conditional distributions, all 16 probabilities sum to 1, and an answer is a distribution. -/
example : weight (fun _ => 2) 4 (joint diamondTables) (fun _ => True) = 1 ∧
    weight (fun _ => 2) 4 (joint diamondTables) (Agrees [(3, 1), (1, 1), (2, 1)]) =
      value (diamondTables.getD 3 ⟨[], [], [], 0, []⟩) (fun _ => 1) * weight (fun _ => 2) 4 (joint diamondTables) (Agrees [(1, 1), (2, 1)]) ∧
    ((do
      let J ← diamondTree
      return (← J.marginal [(3, 1)] 0).1.pot.sum) : Except Fault Rat) = .ok 1 := by decide +kernel

end

end FastPGM
