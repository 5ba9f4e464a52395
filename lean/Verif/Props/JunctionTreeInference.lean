import Verif.Lemmas.JTEvidence
import Verif.Props.JunctionTree
import Verif.Props.Inference
import Verif.Props.Learn

/-!
Properties C41 – C44: exact inference on the junction tree.

The statements are about the network `N` left behind by an arbitrary history of edge operations, arbitrary tables of its nodes, and
arbitrary orders of the addresses of separators and cliques.
-/

namespace FastPGM

open Spec

variable {K : Type}

/-! ### C41 -/

theorem nodeTables_facts {card : Nat → Nat} {N : Net} {pts : List (Table K)} (h : NodeTables card N pts) :
    (∀ i < N.nodes.length, 0 < card i) ∧ (∀ T ∈ pts, T.vars ≠ []) ∧
      ∀ T ∈ pts, ∃ i < N.nodes.length, ∀ v ∈ T.vars, v = i ∨ ParentOf N v i := by
  have hget : ∀ T ∈ pts, ∃ i < N.nodes.length, pts[i]? = some T := by
    intro T hT
    obtain ⟨i, hi, rfl⟩ := List.getElem_of_mem hT
    exact ⟨i, by rw [← h.length]; exact hi, List.getElem?_eq_getElem hi⟩
  refine ⟨?_, ?_, ?_⟩
  · intro i hi
    rw [← h.length] at hi
    exact (h.wf _ (List.getElem_mem hi)).pos i ((h.vars i _ (List.getElem?_eq_getElem hi) i).2 (Or.inl rfl))
  · intro T hT
    obtain ⟨i, _, e⟩ := hget T hT
    exact List.ne_nil_of_mem ((h.vars i T e i).2 (Or.inl rfl))
  · intro T hT
    obtain ⟨i, hi, e⟩ := hget T hT
    exact ⟨i, hi, fun v hv => (h.vars i T e v).1 hv⟩

theorem prod_map_range [Field K] (n : Nat) (f : Nat → K) : ((List.range n).map f).prod = ∏ i ∈ Finset.range n, f i := by
  induction n with
  | zero => simp
  | succ n ih => rw [List.range_succ, List.map_append, List.prod_append, ih, Finset.prod_range_succ]; simp

theorem built_of_inv [Field K] {N : Net} (hinv : NetInv N) (h0 : 0 < N.nodes.length) (hw : WeaklyConnected N)
    {order : List (Nat × Nat) → List (Nat × Nat)} (horder : ∀ l, (order l).Perm l) {cord : Nat → List Nat}
    (hcord : ∀ m, (cord m).Perm (List.range m)) {card : Nat → Nat} {pts : List (Table K)} (hpts : NodeTables card N pts) :
    ∃ J T L r lev par ch F, buildJunctionTree N card pts order cord = .ok J ∧ Built N card pts J T L r lev par ch F := by
  obtain ⟨h1, h2, h3⟩ := nodeTables_facts hpts
  exact build_ok hinv h0 hw horder hcord h1 hpts.wf h2 h3

theorem built_of_run [Field K] {dims : List Nat} {ops : List EdgeOp} (hops : ∀ op ∈ ops, OpInRange dims.length op) {N : Net}
    (hN : (Net.empty dims).run ops = .ok N) (h0 : dims ≠ []) (hw : WeaklyConnected N)
    {order : List (Nat × Nat) → List (Nat × Nat)} (horder : ∀ l, (order l).Perm l) {cord : Nat → List Nat}
    (hcord : ∀ m, (cord m).Perm (List.range m)) {card : Nat → Nat} {pts : List (Table K)} (hpts : NodeTables card N pts) :
    ∃ J T L r lev par ch F, buildJunctionTree N card pts order cord = .ok J ∧ Built N card pts J T L r lev par ch F := by
  obtain ⟨hinv, hlen⟩ := netInv_of_run hops hN
  exact built_of_inv hinv (by rw [hlen]; exact List.length_pos_iff.2 h0) hw horder hcord hpts

/-- C41.  The junction tree is built, and at every full assignment the product of the clique potentials is the product of the numbers
P(node | parents) of all nodes; the tables of the cliques and separators are well-formed and the separators hold ones. -/
theorem C41_initial_product [Field K] {dims : List Nat} {ops : List EdgeOp} (hops : ∀ op ∈ ops, OpInRange dims.length op) {N : Net}
    (hN : (Net.empty dims).run ops = .ok N) (h0 : dims ≠ []) (hw : WeaklyConnected N)
    {order : List (Nat × Nat) → List (Nat × Nat)} (horder : ∀ l, (order l).Perm l) {cord : Nat → List Nat}
    (hcord : ∀ m, (cord m).Perm (List.range m)) {card : Nat → Nat} {pts : List (Table K)} (hpts : NodeTables card N pts) :
    ∃ J, buildJunctionTree N card pts order cord = .ok J ∧
      (∀ a, InRange card (List.range dims.length) a → (J.state.clq.map (fun T => value T a)).prod = joint pts a) ∧
      (∀ T ∈ J.state.clq, WellFormed card T) ∧ ∀ T ∈ J.state.sep, WellFormed card T ∧ ∀ x ∈ T.pot, x = 1 := by
  obtain ⟨hinv, hlen⟩ := netInv_of_run hops hN
  obtain ⟨J, T, L, r, lev, par, ch, F, h1, hb⟩ := built_of_run (K := K) hops hN h0 hw horder hcord hpts
  have hcard := (nodeTables_facts hpts).1
  have hpos : ∀ i, ∀ v ∈ storedVars T L.marks i, 0 < card v := fun i v hv => hcard v (by
    have hclq : ∀ j, v ∈ T.cliques.getD j [] → v < N.nodes.length := by
      intro j hj
      by_cases h : j < T.cliques.length
      · rw [getD_of_lt h] at hj
        exact hb.facts.lt _ (List.getElem_mem h) v hj
      · rw [List.getD_eq_getElem?_getD, List.getElem?_eq_none (by omega)] at hj
        simp at hj
    unfold storedVars at hv
    split at hv
    · rw [List.mem_append, List.mem_filter] at hv
      rcases hv with hv | hv
      · exact hclq _ hv.1
      · exact hclq _ (mem_commonVars.1 hv).1
    · exact hclq _ hv)
  refine ⟨J, h1, ?_, ?_, ?_⟩
  · intro a ha
    unfold joint
    rw [← hb.prod a, hb.state]
    unfold repState
    simp only [tab, List.map_map]
    have e : (List.range T.cliques.length).map ((fun T => value T a) ∘ fun i => fromFn card (storedVars T L.marks i) (F i)) =
        (List.range T.cliques.length).map (fun i => F i a) := by
      apply List.map_congr_left
      intro i hi
      rw [List.mem_range] at hi
      simp only [Function.comp]
      refine value_fromFn (storedVars_nodup hb.facts) ((hb.dep i).mono (fun v hv => (hb.plan.mem_stored hi).2 hv)) (fun v hv => ha v ?_)
      rw [List.mem_range, ← hlen]
      have := (hb.plan.mem_stored hi).1 hv
      rw [getD_of_lt hi] at this
      exact hb.facts.lt _ (List.getElem_mem hi) v this
    rw [e, prod_map_range]
  · intro X hX
    rw [hb.state] at hX
    obtain ⟨i, hi, rfl⟩ := List.mem_map.1 hX
    exact fromFn_wf (storedVars_nodup hb.facts) (hpos i) _
  · intro X hX
    rw [hb.state] at hX
    obtain ⟨s, hs, rfl⟩ := List.mem_map.1 hX
    rw [List.mem_range] at hs
    have hsub : ∀ v ∈ sepVars T s, 0 < card v := fun v hv => by
      have := (hb.plan.sep_sub (show s + 1 < T.cliques.length by omega)).1 v hv
      exact hpos (ch s) v ((hb.plan.mem_stored ((hb.plan.ch_end s (by omega)).lt hb.shapeOK)).2 this)
    refine ⟨fromFn_wf (nodup_of_sorted (sepVars_sorted hb.facts s)) hsub _, ?_⟩
    intro x hx
    simp only [fromFn, tab, List.mem_map] at hx
    obtain ⟨_, _, rfl⟩ := hx
    rfl

/-! A network with four binary nodes and six clique entries that are products of several tables. -/

/-- Tables of the diamond 0 → 1, 0 → 2, 1 → 3 ← 2. -/
def diamondTables : List (Table Rat) :=
  [⟨[0], [2], [1], 2, [3/5, 2/5]⟩, ⟨[1, 0], [2, 2], [2, 1], 4, [1/2, 1/5, 1/2, 4/5]⟩, ⟨[2, 0], [2, 2], [2, 1], 4, [9/10, 1/2, 1/10, 1/2]⟩,
    ⟨[3, 1, 2], [2, 2, 2], [4, 2, 1], 8, [1, 1/2, 1/4, 1/8, 0, 1/2, 3/4, 7/8]⟩]

/-- The diamond with these tables, the cliques visited in reverse. -/
def diamondTree : Except Fault (JTree Rat) := do
  let N ← (Net.empty [2, 2, 2, 2]).run diamondOps
  buildJunctionTree N (fun _ => 2) diamondTables id List.range

/-- The diamond satisfies the hypotheses of the theorems below, with evidence on node 3. -/
theorem diamond_hyps : ∃ N, (Net.empty [2, 2, 2, 2]).run diamondOps = .ok N ∧ WeaklyConnected N ∧ NodeTables (fun _ => 2) N diamondTables ∧
    (∀ T ∈ diamondTables, ∀ x ∈ T.pot, 0 ≤ x) ∧ weight (fun _ => 2) 4 (joint diamondTables) (Agrees [(3, 1)]) = 419 / 800 := by
  obtain ⟨N, h1, h2⟩ := diamond_connected
  refine ⟨N, h1, h2, ⟨?_, ?_, ?_⟩, by decide +kernel, by decide +kernel⟩
  · cases h1
    rfl
  · intro T hT
    simp only [diamondTables, List.mem_cons, List.not_mem_nil, or_false] at hT
    rcases hT with rfl | rfl | rfl | rfl <;> exact ⟨by decide, by simp, by decide, by decide, by decide, by decide, by decide⟩
  · intro i T hT v
    have hp : N.nodes.map NodeS.parents = [[], [0], [0], [1, 2]] := by cases h1; decide
    have hpar : ParentOf N v i ↔ ∃ ps, (N.nodes.map NodeS.parents)[i]? = some ps ∧ v ∈ ps := by
      unfold ParentOf
      simp
    rw [hpar, hp]
    match i with
    | 0 => cases hT; simp
    | 1 => cases hT; simp
    | 2 => cases hT; simp
    | 3 => cases hT; simp
    | i + 4 => simp [diamondTables] at hT

/-- The two cliques hold the products of the tables of the nodes 0, 1, 2 and the table of node 3. -/
example : (do
    let J ← diamondTree
    return J.state.clq.map (fun (T : Table Rat) => (T.vars, T.pot.sum))) = .ok [([0, 1, 2], 1), ([3, 1, 2], 4)] := by decide +kernel

/-- Finding: a table whose variables lie in no clique is dropped without a report.  (By C39 this cannot happen to the table of a node and its
parents.) -/
example : (assignPotentials [[0, 1]] [⟨[0, 1], [2, 2], [2, 1], 4, [1, 1, 1, 1]⟩] [(⟨[0, 2], [2, 2], [2, 1], 4, [1/2, 1/2, 1/3, 2/3]⟩ : Table Rat)]) =
    .ok [⟨[0, 1], [2, 2], [2, 1], 4, [1, 1, 1, 1]⟩] := by decide +kernel

/-! ### C42 -/

section posterior

variable [Field K] [LinearOrder K] [IsStrictOrderedRing K]

/-- A built tree answers a query with the posterior. -/
theorem Built.marginal {N : Net} {card : Nat → Nat} {pts : List (Table K)} {J : JTree K} {T : JTShape} {L : Levels} {r : Nat}
    {lev : JNode → Nat} {par ch : Nat → Nat} {F : Nat → Assignment → K} (hb : Built N card pts J T L r lev par ch F) (hnet : NetInv N)
    (hcard : ∀ i < N.nodes.length, 0 < card i) (hnn : ∀ T ∈ pts, ∀ x ∈ T.pot, 0 ≤ x) {E : List (Nat × Nat)} (hEn : (E.map Prod.fst).Nodup)
    (hE : ∀ e ∈ E, e.1 < N.nodes.length) (hpos : weight card N.nodes.length (joint pts) (Agrees E) ≠ 0) :
    ∃ st, FastPGM.propagate J.levels J.n E J.state = .ok st ∧
      (∀ q < N.nodes.length, q ∉ E.map Prod.fst → marginalProbability J.card st q =
        .ok (fromFn card [q] (fun a => posterior card N.nodes.length (joint pts) E q (a q))) ∧
        ∑ x ∈ Finset.range (card q), posterior card N.nodes.length (joint pts) E q x = 1) ∧
      ∀ q, (q ∈ E.map Prod.fst ∨ N.nodes.length ≤ q) → marginalProbability J.card st q = .error .exit := by
  have hE' : ∀ e ∈ E, e.1 < N.nodes.length ∧ e.2 < card e.1 := by
    obtain ⟨b, hb1, hb2⟩ := exists_of_sumOut_ne_zero hpos
    intro e he
    refine ⟨hE e he, ?_⟩
    by_cases hag : Agrees E b
    · rw [← hag e he]
      exact hb1 _ (List.mem_range.2 (hE e he))
    · rw [if_neg hag] at hb2
      exact absurd rfl hb2
  have hmass : sumOut card (unobs E (List.range N.nodes.length)) (fun a => joint pts (withEv E a)) (fun _ => 0) ≠ 0 := by
    rw [← weight_agrees hb.jdep hEn hE' (Agrees E) (fun _ => Iff.rfl)]
    exact hpos
  have hctx := hb.ctx hcard hnn hmass
  obtain ⟨F', G', e1, h1, h2, h3⟩ := hb.propagate hcard hnet hnn (fun e he _ => (hE' e he).2) hmass
  refine ⟨_, e1, ?_, ?_⟩
  · intro q hq hqE
    have hqk : ∃ k, k < T.cliques.length ∧ q ∈ unobs E (storedVars T L.marks k) := by
      obtain ⟨c, hc, hqc, _⟩ := hb.facts.family hnet hq
      obtain ⟨k, hk, rfl⟩ := List.getElem_of_mem hc
      exact ⟨k, hk, mem_unobs.2 ⟨(hb.plan.mem_stored hk).2 (by rw [getD_of_lt hk]; exact hqc), hqE⟩⟩
    rw [hb.hcard, marginalProbability_eq hctx.setup h1 h2 h3 hqk]
    have hqV : q ∈ unobs E (List.range N.nodes.length) := mem_unobs.2 ⟨List.mem_range.2 hq, hqE⟩
    constructor
    · congr 1
      apply fromFn_congr
      intro a ha
      exact (posterior_eq hb.jdep hEn hE' hq (ha q (by simp)) hqE rfl).symm
    · have e2 : ∀ x ∈ Finset.range (card q), posterior card N.nodes.length (joint pts) E q x =
          sumOut card ((unobs E (List.range N.nodes.length)).filter (fun v => v ∉ [q])) (fun a => joint pts (withEv E a))
            (Assignment.set (fun _ => 0) q x) /
          sumOut card (unobs E (List.range N.nodes.length)) (fun a => joint pts (withEv E a)) (fun _ => 0) := by
        intro x hx
        exact posterior_eq hb.jdep hEn hE' hq (Finset.mem_range.1 hx) hqE (by simp [Assignment.set])
      rw [Finset.sum_congr rfl e2, ← Finset.sum_div]
      have e3 := sumOut_first (card := card) (f := fun a => joint pts (withEv E a)) (a := fun _ => 0) hctx.setup.nodup hqV
      simp only [sumOut] at e3
      rw [e3, div_self hmass]
  · intro q hq
    rw [hb.hcard]
    unfold marginalProbability
    cases hsel : selectClique (repState card T.cliques.length (fun i => unobs E (storedVars T L.marks i)) (fun s => unobs E (sepVars T s)) F' G').clq q with
    | none => rfl
    | some B =>
      exfalso
      obtain ⟨hB, hqB⟩ := selectClique_some hsel
      obtain ⟨k, hk, rfl⟩ := List.mem_map.1 hB
      obtain ⟨h4, h5⟩ := mem_unobs.1 (show q ∈ unobs E (storedVars T L.marks k) from hqB)
      rcases hq with hq | hq
      · exact h5 hq
      · have := hb.stored_lt h4
        omega

omit [LinearOrder K] [IsStrictOrderedRing K] in
theorem Built.reset {N : Net} {card : Nat → Nat} {pts : List (Table K)} {J : JTree K} {T : JTShape} {L : Levels} {r : Nat}
    {lev : JNode → Nat} {par ch : Nat → Nat} {F : Nat → Assignment → K} (hb : Built N card pts J T L r lev par ch F) (st : JState K) :
    JTree.reset { J with state := st } = J := by
  have := hb.backup
  obtain ⟨_, _, _, _, _, _⟩ := J
  simp only [JTree.reset, JTree.mk.injEq, true_and]
  exact ⟨this, trivial⟩

variable {dims : List Nat} {ops : List EdgeOp} {N : Net} {order : List (Nat × Nat) → List (Nat × Nat)} {cord : Nat → List Nat} {card : Nat → Nat}
  {pts : List (Table K)}

theorem posterior_of_inv (hinv : NetInv N) (hlen : N.nodes.length = dims.length) (h0 : dims ≠ [])
    (hw : WeaklyConnected N) (horder : ∀ l, (order l).Perm l) (hcord : ∀ m, (cord m).Perm (List.range m)) (hpts : NodeTables card N pts)
    (hnn : ∀ T ∈ pts, ∀ x ∈ T.pot, 0 ≤ x) {E : List (Nat × Nat)} (hEn : (E.map Prod.fst).Nodup) (hE : ∀ e ∈ E, e.1 < dims.length)
    (hpos : weight card dims.length (joint pts) (Agrees E) ≠ 0) {q : Nat} (hq : q < dims.length) (hqE : q ∉ E.map Prod.fst) :
    ∃ J T, buildJunctionTree N card pts order cord = .ok J ∧ J.marginal E q = .ok (T, J) ∧ T.vars = [q] ∧ T.pot.length = card q ∧
      ∀ x < card q, T.pot[x]? = some (posterior card dims.length (joint pts) E q x) := by
  obtain ⟨J, T, L, r, lev, par, ch, F, h1, hb⟩ := built_of_inv (K := K) hinv (by rw [hlen]; exact List.length_pos_iff.2 h0) hw horder hcord hpts
  rw [← hlen] at hE hpos hq ⊢
  obtain ⟨st, e1, h2, _⟩ := hb.marginal hinv (nodeTables_facts hpts).1 hnn hEn hE hpos
  refine ⟨J, fromFn card [q] (fun a => posterior card N.nodes.length (joint pts) E q (a q)), h1, ?_, rfl, by simp [fromFn, tab], ?_⟩
  · unfold JTree.marginal
    rw [e1, ok_bind, (h2 q hq hqE).1, ok_bind, hb.reset]
    rfl
  · intro x hx
    simp only [fromFn]
    rw [tab_get?, if_pos (by simpa using hx)]
    congr 1
    simp [asgOf_single hx]

/-- C42.  For evidence of positive probability the distribution computed for an unobserved node is its conditional distribution given the
evidence, under the joint distribution of the network; and the tree is left as it was. -/
theorem C42_posterior (hops : ∀ op ∈ ops, OpInRange dims.length op) (hN : (Net.empty dims).run ops = .ok N) (h0 : dims ≠ [])
    (hw : WeaklyConnected N) (horder : ∀ l, (order l).Perm l) (hcord : ∀ m, (cord m).Perm (List.range m)) (hpts : NodeTables card N pts)
    (hnn : ∀ T ∈ pts, ∀ x ∈ T.pot, 0 ≤ x) {E : List (Nat × Nat)} (hEn : (E.map Prod.fst).Nodup) (hE : ∀ e ∈ E, e.1 < dims.length)
    (hpos : weight card dims.length (joint pts) (Agrees E) ≠ 0) {q : Nat} (hq : q < dims.length) (hqE : q ∉ E.map Prod.fst) :
    ∃ J T, buildJunctionTree N card pts order cord = .ok J ∧ J.marginal E q = .ok (T, J) ∧ T.vars = [q] ∧ T.pot.length = card q ∧
      ∀ x < card q, T.pot[x]? = some (posterior card dims.length (joint pts) E q x) := by
  obtain ⟨hinv, hlen⟩ := netInv_of_run hops hN
  exact posterior_of_inv hinv hlen h0 hw horder hcord hpts hnn hEn hE hpos hq hqE

theorem predict_of_inv (hinv : NetInv N) (hlen : N.nodes.length = dims.length) (h0 : dims ≠ [])
    (hw : WeaklyConnected N) (horder : ∀ l, (order l).Perm l) (hcord : ∀ m, (cord m).Perm (List.range m)) (hpts : NodeTables card N pts)
    (hnn : ∀ T ∈ pts, ∀ x ∈ T.pot, 0 ≤ x) {E : List (Nat × Nat)} (hEn : (E.map Prod.fst).Nodup) (hE : ∀ e ∈ E, e.1 < dims.length)
    (hpos : weight card dims.length (joint pts) (Agrees E) ≠ 0) {q : Nat} (hq : q < dims.length) (hqE : q ∉ E.map Prod.fst) :
    ∃ J label, buildJunctionTree N card pts order cord = .ok J ∧ J.predict E q = .ok (label, J) ∧ label < card q ∧
      (∀ x < card q, posterior card dims.length (joint pts) E q x ≤ posterior card dims.length (joint pts) E q label) ∧
      ∀ x < label, posterior card dims.length (joint pts) E q x < posterior card dims.length (joint pts) E q label := by
  obtain ⟨J, T, L, r, lev, par, ch, F, h1, hb⟩ := built_of_inv (K := K) hinv (by rw [hlen]; exact List.length_pos_iff.2 h0) hw horder hcord hpts
  rw [← hlen] at hE hpos hq ⊢
  obtain ⟨st, e1, h2, _⟩ := hb.marginal hinv (nodeTables_facts hpts).1 hnn hEn hE hpos
  obtain ⟨h3, h4⟩ := h2 q hq hqE
  have hpot : (fromFn card [q] (fun a => posterior card N.nodes.length (joint pts) E q (a q))).pot =
      tab (card q) (fun x => posterior card N.nodes.length (joint pts) E q x) := by
    simp only [fromFn, List.map_cons, List.map_nil, List.prod_singleton]
    apply tab_congr
    intro x hx
    simp [asgOf_single hx]
  have hex : ∃ x ∈ tab (card q) (fun x => posterior card N.nodes.length (joint pts) E q x), 0 < x := by
    by_contra hcon
    push Not at hcon
    have : ∑ x ∈ Finset.range (card q), posterior card N.nodes.length (joint pts) E q x ≤ 0 :=
      Finset.sum_nonpos (fun x hx => hcon _ (List.mem_map.2 ⟨x, List.mem_range.2 (Finset.mem_range.1 hx), rfl⟩))
    rw [h4] at this
    exact absurd this (not_le.2 zero_lt_one)
  obtain ⟨label, hl, hlt, hmax, hfirst⟩ := C47_argMax _ hex
  have hlt' : label < card q := by simpa [tab] using hlt
  refine ⟨J, label, h1, ?_, hlt', ?_, ?_⟩
  · unfold JTree.predict
    rw [e1, ok_bind, h3, ok_bind, hpot, hl, ok_bind, hb.reset]
    rfl
  · intro x hx
    have := hmax _ (List.mem_map.2 ⟨x, List.mem_range.2 hx, rfl⟩)
    simpa [tab] using this
  · intro x hx
    have := hfirst x hx
    simpa [tab] using this

/-- C42.  The predicted label is the first of the most probable values of the query node given the evidence. -/
theorem C42_predict (hops : ∀ op ∈ ops, OpInRange dims.length op) (hN : (Net.empty dims).run ops = .ok N) (h0 : dims ≠ [])
    (hw : WeaklyConnected N) (horder : ∀ l, (order l).Perm l) (hcord : ∀ m, (cord m).Perm (List.range m)) (hpts : NodeTables card N pts)
    (hnn : ∀ T ∈ pts, ∀ x ∈ T.pot, 0 ≤ x) {E : List (Nat × Nat)} (hEn : (E.map Prod.fst).Nodup) (hE : ∀ e ∈ E, e.1 < dims.length)
    (hpos : weight card dims.length (joint pts) (Agrees E) ≠ 0) {q : Nat} (hq : q < dims.length) (hqE : q ∉ E.map Prod.fst) :
    ∃ J label, buildJunctionTree N card pts order cord = .ok J ∧ J.predict E q = .ok (label, J) ∧ label < card q ∧
      (∀ x < card q, posterior card dims.length (joint pts) E q x ≤ posterior card dims.length (joint pts) E q label) ∧
      ∀ x < label, posterior card dims.length (joint pts) E q x < posterior card dims.length (joint pts) E q label := by
  obtain ⟨hinv, hlen⟩ := netInv_of_run hops hN
  exact predict_of_inv hinv hlen h0 hw horder hcord hpts hnn hEn hE hpos hq hqE

/-- C42 (finding): asking for a node that is part of the evidence, or for a number that is no node, ends the process. -/
theorem C42_observed_query_exit (hops : ∀ op ∈ ops, OpInRange dims.length op) (hN : (Net.empty dims).run ops = .ok N) (h0 : dims ≠ [])
    (hw : WeaklyConnected N) (horder : ∀ l, (order l).Perm l) (hcord : ∀ m, (cord m).Perm (List.range m)) (hpts : NodeTables card N pts)
    (hnn : ∀ T ∈ pts, ∀ x ∈ T.pot, 0 ≤ x) {E : List (Nat × Nat)} (hEn : (E.map Prod.fst).Nodup) (hE : ∀ e ∈ E, e.1 < dims.length)
    (hpos : weight card dims.length (joint pts) (Agrees E) ≠ 0) {q : Nat} (hq : q ∈ E.map Prod.fst ∨ dims.length ≤ q) :
    ∃ J, buildJunctionTree N card pts order cord = .ok J ∧ J.marginal E q = .error .exit ∧ J.predict E q = .error .exit := by
  obtain ⟨hinv, hlen⟩ := netInv_of_run hops hN
  obtain ⟨J, T, L, r, lev, par, ch, F, h1, hb⟩ := built_of_run (K := K) hops hN h0 hw horder hcord hpts
  rw [← hlen] at hE hpos hq
  obtain ⟨st, e1, _, h3⟩ := hb.marginal hinv (nodeTables_facts hpts).1 hnn hEn hE hpos
  refine ⟨J, h1, ?_, ?_⟩
  · unfold JTree.marginal
    rw [e1, ok_bind, h3 q hq]
    rfl
  · unfold JTree.predict
    rw [e1, ok_bind, h3 q hq]
    rfl

/-- P(node 0 | node 3 = 1) in the diamond, by enumeration and by message passing. -/
example : (List.range 2).map (posterior (fun _ => 2) 4 (joint diamondTables) [(3, 1)] 0) = [195 / 419, 224 / 419] ∧
    (do
      let J ← diamondTree
      return (← J.marginal [(3, 1)] 0).1.pot) = .ok [195 / 419, 224 / 419] ∧
    (do
      let J ← diamondTree
      return (← J.predict [(3, 1)] 0).1) = .ok 1 := by decide +kernel

/-- Evidence of probability zero: not a number. -/
example : (do
    let J ← diamondTree
    return (← J.marginal [(3, 1), (1, 0), (2, 0)] 0).1.pot) = .error .nan := by decide +kernel

omit [Field K] [LinearOrder K] [IsStrictOrderedRing K] in
theorem entries_of_values [Zero K] {P : K → Prop} {T : Table K} (h : WellFormed card T) (hv : ∀ a, InRange card T.vars a → P (value T a)) :
    ∀ x ∈ T.pot, P x := by
  rw [h.eq_fromFn]
  intro x hx
  obtain ⟨k, hk, rfl⟩ := List.mem_map.1 hx
  apply hv
  intro v hv
  exact asgOf_lt (List.mem_range.1 hk) v hv

theorem weight_ne_zero {n : Nat} {p : Assignment → K} (h0 : ∀ a, 0 ≤ p a) (hp : ∀ a, InRange card (List.range n) a → 0 < p a)
    (hc : ∀ i < n, 0 < card i) {E : List (Nat × Nat)} (hEn : (E.map Prod.fst).Nodup) (hE : ∀ e ∈ E, e.1 < n ∧ e.2 < card e.1) :
    weight card n p (Agrees E) ≠ 0 := by
  intro hz
  have hb : InRange card (List.range n) (withEv E (fun _ => 0)) := by
    intro v hv
    by_cases hvE : v ∈ E.map Prod.fst
    · obtain ⟨e, he, rfl⟩ := List.mem_map.1 hvE
      rw [withEv_eq hEn he]
      exact (hE e he).2
    · rw [withEv_of_notMem hvE]
      exact hc v (List.mem_range.1 hv)
  have := sumOut_eq_zero (fun a => by split; exacts [h0 a, le_refl _]) hz hb (fun v hv => withEv_of_notMem (fun hvE => hv (by
    obtain ⟨e, he, rfl⟩ := List.mem_map.1 hvE
    exact List.mem_range.2 (hE e he).1)) _)
  rw [if_pos (show Agrees E (withEv E fun _ => 0) from fun e he => withEv_eq hEn he _)] at this
  exact absurd this (hp _ hb).ne'

/-- The tables learned with a positive `alpha` are node tables with non-negative entries, and every evidence has positive probability. -/
theorem learned_tables_of_shape (hlen : N.nodes.length = dims.length) (hshape : NetShape (fun i => dims.getD i 0) N)
    {cols : List (List Nat)} {rows : List Assignment} (hc : Columns (fun i => dims.getD i 0) dims.length cols rows) {alpha : Int}
    (ha : 0 < alpha) (rnd : Nat → Nat → Nat) :
    ∃ pts : List (Table K), learnParams N cols dims.length rows.length alpha rnd [] = .ok pts ∧
      (∀ (i : Nat) s, N.nodes[i]? = some s → ∃ T, pts[i]? = some T ∧ IsFrequencyTable (fun i => dims.getD i 0) rows alpha i s.parents T) ∧
      NodeTables (fun i => dims.getD i 0) N pts ∧ (∀ T ∈ pts, ∀ x ∈ T.pot, 0 ≤ x) ∧
      ∀ E : List (Nat × Nat), (E.map Prod.fst).Nodup → (∀ e ∈ E, e.1 < dims.length ∧ e.2 < dims.getD e.1 0) →
        weight (fun i => dims.getD i 0) dims.length (joint pts) (Agrees E) ≠ 0 := by
  rw [← hlen] at hc
  obtain ⟨pts, h1, h2, h3⟩ := C22_learned (K := K) hshape hc ha.le (fun e => absurd e ha.ne') rnd []
  rw [List.nil_append] at h1
  have hget : ∀ (i : Nat) T, pts[i]? = some T → ∃ s, N.nodes[i]? = some s ∧ IsFrequencyTable (fun i => dims.getD i 0) rows alpha i s.parents T := by
    intro i T hT
    have hi := (List.getElem?_eq_some_iff.1 hT).1
    rw [h2] at hi
    obtain ⟨T', h4, h5⟩ := h3 i _ (List.getElem?_eq_getElem hi)
    rw [hT] at h4
    cases h4
    exact ⟨_, List.getElem?_eq_getElem hi, h5⟩
  have hmem : ∀ T ∈ pts, ∃ i s, N.nodes[i]? = some s ∧ IsFrequencyTable (fun i => dims.getD i 0) rows alpha i s.parents T := by
    intro T hT
    obtain ⟨i, hi, rfl⟩ := List.getElem_of_mem hT
    exact ⟨i, hget i _ (List.getElem?_eq_getElem hi)⟩
  have hpts : NodeTables (fun i => dims.getD i 0) N pts := by
    refine ⟨h2, ?_, ?_⟩
    · intro T hT
      obtain ⟨i, s, _, h⟩ := hmem T hT
      exact h.1
    · intro i T hT v
      obtain ⟨s, hs, h⟩ := hget i T hT
      rw [h.2.1, List.mem_cons]
      constructor
      · rintro (h | h)
        · exact Or.inl h
        · exact Or.inr ⟨s, hs, h⟩
      · rintro (h | ⟨s', hs', h⟩)
        · exact Or.inl h
        · rw [hs] at hs'
          cases hs'
          exact Or.inr h
  have hval : ∀ T ∈ pts, ∀ a, InRange (fun i => dims.getD i 0) T.vars a → 0 < value T a := by
    intro T hT a har
    obtain ⟨i, s, hs, h⟩ := hmem T hT
    have hi := (List.getElem?_eq_some_iff.1 hs).1
    rw [h.2.1] at har
    exact ((frequencyTable_normalised ha (fun r hr => hc.lt r hr i hi) h).1 a har).1
  have hnn : ∀ T ∈ pts, ∀ x ∈ T.pot, 0 ≤ x := fun T hT => entries_of_values (hpts.wf T hT) (fun a har => (hval T hT a har).le)
  have hcard : ∀ i < N.nodes.length, 0 < dims.getD i 0 := fun i hi => (hshape.dim i _ (List.getElem?_eq_getElem hi)).2
  refine ⟨pts, by rw [← hlen]; exact h1, h3, hpts, hnn, fun E hEn hE => ?_⟩
  exact weight_ne_zero (card := fun i => dims.getD i 0) (n := dims.length) (p := joint pts)
    (fun a => List.prod_nonneg (fun x hx => by
      obtain ⟨T, hT, rfl⟩ := List.mem_map.1 hx
      exact value_nonneg (hnn T hT) a))
    (fun a har => List.prod_pos (fun x hx => by
      obtain ⟨T, hT, rfl⟩ := List.mem_map.1 hx
      refine hval T hT a (fun v hv => har v ?_)
      obtain ⟨i, s, hs, h⟩ := hmem T hT
      rw [h.2.1] at hv
      rw [List.mem_range, ← hlen]
      exact NetShape.lt hshape hs v hv))
    (fun i hi => hcard i (by rw [hlen]; exact hi)) hEn hE

/-- The tables learned with a positive `alpha` are node tables with non-negative entries, and every evidence has positive probability. -/
theorem learned_tables (hpos : ∀ d ∈ dims, 0 < d) (hops : ∀ op ∈ ops, OpInRange dims.length op) (hN : (Net.empty dims).run ops = .ok N)
    {cols : List (List Nat)} {rows : List Assignment} (hc : Columns (fun i => dims.getD i 0) dims.length cols rows) {alpha : Int}
    (ha : 0 < alpha) (rnd : Nat → Nat → Nat) :
    ∃ pts : List (Table K), learnParams N cols dims.length rows.length alpha rnd [] = .ok pts ∧
      (∀ (i : Nat) s, N.nodes[i]? = some s → ∃ T, pts[i]? = some T ∧ IsFrequencyTable (fun i => dims.getD i 0) rows alpha i s.parents T) ∧
      NodeTables (fun i => dims.getD i 0) N pts ∧ (∀ T ∈ pts, ∀ x ∈ T.pot, 0 ≤ x) ∧
      ∀ E : List (Nat × Nat), (E.map Prod.fst).Nodup → (∀ e ∈ E, e.1 < dims.length ∧ e.2 < dims.getD e.1 0) →
        weight (fun i => dims.getD i 0) dims.length (joint pts) (Agrees E) ≠ 0 := by
  obtain ⟨N', hN', hlen, hshape, hinv⟩ := run_shape hops hpos
  rw [hN] at hN'
  cases hN'
  exact learned_tables_of_shape hlen hshape hc ha rnd

/-- C42, from data to answer: with tables learned with a positive Laplace constant, the tree built from them gives, for every legal
evidence on distinct nodes and every other node, the conditional distribution under the product of the smoothed frequencies; no query
fails. -/
theorem C42_learned (hpos : ∀ d ∈ dims, 0 < d) (hops : ∀ op ∈ ops, OpInRange dims.length op) (hN : (Net.empty dims).run ops = .ok N)
    (h0 : dims ≠ []) (hw : WeaklyConnected N) (horder : ∀ l, (order l).Perm l) (hcord : ∀ m, (cord m).Perm (List.range m))
    {cols : List (List Nat)} {rows : List Assignment} (hc : Columns (fun i => dims.getD i 0) dims.length cols rows) {alpha : Int}
    (ha : 0 < alpha) (rnd : Nat → Nat → Nat) :
    ∃ pts : List (Table K), ∃ J, learnParams N cols dims.length rows.length alpha rnd [] = .ok pts ∧
      (∀ (i : Nat) s, N.nodes[i]? = some s → ∃ T, pts[i]? = some T ∧ IsFrequencyTable (fun i => dims.getD i 0) rows alpha i s.parents T) ∧
      buildJunctionTree N (fun i => dims.getD i 0) pts order cord = .ok J ∧
      ∀ E : List (Nat × Nat), (E.map Prod.fst).Nodup → (∀ e ∈ E, e.1 < dims.length ∧ e.2 < dims.getD e.1 0) →
        ∀ q < dims.length, q ∉ E.map Prod.fst → ∃ T, J.marginal E q = .ok (T, J) ∧ T.vars = [q] ∧ T.pot.length = dims.getD q 0 ∧
          ∀ x < dims.getD q 0, T.pot[x]? = some (posterior (fun i => dims.getD i 0) dims.length (joint pts) E q x) := by
  obtain ⟨pts, h1, h3, hpts, hnn, hwt⟩ := learned_tables (K := K) hpos hops hN hc ha rnd
  obtain ⟨J, T0, L, r, lev, par, ch, F, h4, hb⟩ := built_of_run (K := K) hops hN h0 hw horder hcord hpts
  refine ⟨pts, J, h1, h3, h4, ?_⟩
  intro E hEn hE q hq hqE
  obtain ⟨J', T, h5, h6, h7⟩ := C42_posterior hops hN h0 hw horder hcord hpts hnn hEn (fun e he => (hE e he).1) (hwt E hEn hE) hq hqE
  rw [h4] at h5
  cases h5
  exact ⟨T, h6, h7⟩

end posterior

/-! ### C43 -/

/-- C43.  The tree keeps a copy of the potentials it was built with. -/
theorem C43_backup [Field K] {N : Net} {card : Nat → Nat} {pts : List (Table K)} {order : List (Nat × Nat) → List (Nat × Nat)}
    {cord : Nat → List Nat} {J : JTree K} (h : buildJunctionTree N card pts order cord = .ok J) : J.backup = J.state := by
  unfold buildJunctionTree at h
  cases h1 : N.junctionShape order cord with
  | error e => rw [h1] at h; cases h
  | ok shape =>
    rw [h1, ok_bind] at h
    cases h2 : initialTables (K := K) card shape.cliques with
    | error e => rw [h2] at h; cases h
    | ok clq =>
      rw [h2, ok_bind] at h
      cases h3 : initialTables (K := K) card (shape.seps.map (fun p => commonVars shape.cliques p.1 p.2)) with
      | error e => rw [h3] at h; cases h
      | ok sep =>
        rw [h3, ok_bind] at h
        cases h4 : assignPotentials shape.cliques clq pts with
        | error e => rw [h4] at h; cases h
        | ok clq' =>
          rw [h4, ok_bind] at h
          cases h5 : chooseRoot shape with
          | error e => rw [h5] at h; cases h
          | ok root =>
            rw [h5, ok_bind] at h
            cases h6 : markLevel shape root with
            | error e => rw [h6] at h; cases h
            | ok levels =>
              rw [h6, ok_bind] at h
              cases h7 : reorganizeStorage levels.marks ⟨clq', sep⟩ with
              | error e => rw [h7] at h; cases h
              | ok st =>
                rw [h7, ok_bind] at h
                cases h
                rfl

theorem reset_eq {J : JTree K} (h : J.backup = J.state) (st : JState K) : JTree.reset { J with state := st } = J := by
  obtain ⟨_, _, _, _, _, _⟩ := J
  simp only [JTree.reset, JTree.mk.injEq, true_and]
  exact ⟨h, trivial⟩

/-- C43.  Whatever a query answers, the tree afterwards is the tree before it. -/
theorem C43_unchanged [Field K] [LinearOrder K] {J : JTree K} (h : J.backup = J.state) (E : List (Nat × Nat)) :
    (∀ q label J', J.predict E q = .ok (label, J') → J' = J) ∧ (∀ q T J', J.marginal E q = .ok (T, J') → J' = J) ∧
      ∀ ps J', J.probabilities E = .ok (ps, J') → J' = J := by
  refine ⟨?_, ?_, ?_⟩
  · intro q label J' e
    unfold JTree.predict at e
    cases h1 : propagate J.levels J.n E J.state with
    | error _ => rw [h1] at e; cases e
    | ok st =>
      rw [h1, ok_bind] at e
      cases h2 : marginalProbability J.card st q with
      | error _ => rw [h2] at e; cases e
      | ok pt =>
        rw [h2, ok_bind] at e
        cases h3 : argMax pt.pot with
        | error _ => rw [h3] at e; cases e
        | ok l =>
          rw [h3, ok_bind, reset_eq h] at e
          cases e
          rfl
  · intro q T J' e
    unfold JTree.marginal at e
    cases h1 : propagate J.levels J.n E J.state with
    | error _ => rw [h1] at e; cases e
    | ok st =>
      rw [h1, ok_bind] at e
      cases h2 : marginalProbability J.card st q with
      | error _ => rw [h2] at e; cases e
      | ok pt =>
        rw [h2, ok_bind, reset_eq h] at e
        cases e
        rfl
  · intro ps J' e
    unfold JTree.probabilities at e
    cases h1 : propagate J.levels J.n E J.state with
    | error _ => rw [h1] at e; cases e
    | ok st =>
      rw [h1, ok_bind] at e
      cases h2 : probabilitiesAllNodes J.n J.card E st with
      | error _ => rw [h2] at e; cases e
      | ok pt =>
        rw [h2, ok_bind, reset_eq h] at e
        cases e
        rfl

theorem foldlM_const {σ α β ε : Type} {f : σ → α → Except ε (β × σ)} {J : σ} (h : ∀ x b J', f J x = .ok (b, J') → J' = J) (l : List α) :
    ∀ acc : List β, l.foldlM (fun (acc : List β × σ) x => do
        let (b, J') ← f acc.2 x
        return (acc.1 ++ [b], J')) (acc, J) =
      (l.mapM (fun x => do return (← f J x).1)).bind (fun bs => .ok (acc ++ bs, J)) := by
  induction l with
  | nil => intro acc; simp [Except.bind, pure, Except.pure]
  | cons x l ih =>
    intro acc
    rw [List.foldlM_cons, List.mapM_cons]
    cases hx : f J x with
    | error e => rfl
    | ok r =>
      obtain ⟨b, J'⟩ := r
      obtain rfl := h x b J' hx
      have := ih (acc ++ [b])
      refine Eq.trans this ?_
      rw [ok_bind]
      show _ = Except.bind (Except.bind _ _) _
      show _ = Except.bind (Except.bind (Except.ok b) _) _
      show _ = Except.bind (Except.bind (l.mapM _) _) _
      cases l.mapM (fun x => do return (← f J' x).1) with
      | error e => rfl
      | ok bs => simp [Except.bind, pure, Except.pure]

/-- C43.  Queries asked one after the other on a tree that was built get the answers they would get on the fresh tree; if one of them
fails, the sequence fails in the same way. -/
theorem C43_sequence [Field K] [LinearOrder K] {N : Net} {card : Nat → Nat} {pts : List (Table K)}
    {order : List (Nat × Nat) → List (Nat × Nat)} {cord : Nat → List Nat} {J : JTree K} (hJ : buildJunctionTree N card pts order cord = .ok J)
    (queries : List (List (Nat × Nat) × Nat)) :
    queries.foldlM (fun (acc : List Nat × JTree K) x => do
        let (label, J') ← acc.2.predict x.1 x.2
        return (acc.1 ++ [label], J')) ([], J) =
      (queries.mapM (fun (x : List (Nat × Nat) × Nat) => do return (← J.predict x.1 x.2).1)).bind (fun labels => .ok (labels, J)) := by
  exact foldlM_const (f := fun (J : JTree K) (x : List (Nat × Nat) × Nat) => J.predict x.1 x.2)
    (fun x b J' h => (C43_unchanged (C43_backup hJ) x.1).1 x.2 b J' h) queries []

/-- C43.  A test run over at least twenty instances predicts every instance as on a fresh tree; with one to nineteen instances it
divides by zero (finding). -/
theorem C43_predictAll [Field K] [LinearOrder K] {N : Net} {card : Nat → Nat} {pts : List (Table K)}
    {order : List (Nat × Nat) → List (Nat × Nat)} {cord : Nat → List Nat} {J : JTree K} (hJ : buildJunctionTree N card pts order cord = .ok J)
    (evidences : List (List (Nat × Nat))) (q : Nat) :
    (20 ≤ evidences.length → J.predictAll evidences q =
      (evidences.mapM (fun E => do return (← J.predict E q).1)).bind (fun labels => .ok (labels, J))) ∧
    (0 < evidences.length → evidences.length < 20 → J.predictAll evidences q = .error .ub) := by
  constructor
  · intro h
    have hne : evidences.length / 20 ≠ 0 := by omega
    unfold JTree.predictAll
    simp only [hne, if_false]
    exact foldlM_const (f := fun (J : JTree K) E => J.predict E q) (fun E b J' h => (C43_unchanged (C43_backup hJ) E).1 q b J' h) evidences []
  · intro h1 h2
    have he : evidences.length / 20 = 0 := by omega
    unfold JTree.predictAll
    simp only [he, if_true]
    cases evidences with
    | nil => simp at h1
    | cons E l => rfl

/-- Two queries in a row on the diamond. -/
example : (do
    let J ← diamondTree
    let (T, J) ← J.marginal [(3, 1)] 0
    let (S, _) ← J.marginal [] 0
    return (T.pot, S.pot)) = .ok ([195 / 419, 224 / 419], [3 / 5, 2 / 5]) := by decide +kernel

/-! ### C44 -/

/-- C44.  Loading the same pieces of evidence, on distinct variables, in another order gives the same tables, whether the values are
legal or not. -/
theorem C44_order [Field K] {card : Nat → Nat} {n : Nat} {st : JState K} (hc : ∀ T ∈ st.clq, WellFormed card T)
    (hs : ∀ T ∈ st.sep, WellFormed card T) {E E' : List (Nat × Nat)} (hp : E.Perm E') (hE : (E.map Prod.fst).Nodup) :
    loadEvidence n E st = loadEvidence n E' st ∧ ∃ st', loadEvidence n E st = .ok st' := by
  rw [loadEvidence_redS E ⟨hc, hs⟩, loadEvidence_redS E' ⟨hc, hs⟩, foldl_redS_perm hp hE ⟨hc, hs⟩]
  exact ⟨rfl, _, rfl⟩

/-- C44.  Consequently the answers of a tree that was built do not depend on the order of the evidence. -/
theorem C44_answers [Field K] [LinearOrder K] {dims : List Nat} {ops : List EdgeOp} (hops : ∀ op ∈ ops, OpInRange dims.length op) {N : Net}
    (hN : (Net.empty dims).run ops = .ok N) (h0 : dims ≠ []) (hw : WeaklyConnected N)
    {order : List (Nat × Nat) → List (Nat × Nat)} (horder : ∀ l, (order l).Perm l) {cord : Nat → List Nat}
    (hcord : ∀ m, (cord m).Perm (List.range m)) {card : Nat → Nat} {pts : List (Table K)} (hpts : NodeTables card N pts) :
    ∃ J, buildJunctionTree N card pts order cord = .ok J ∧ ∀ E E' : List (Nat × Nat), E.Perm E' → (E.map Prod.fst).Nodup →
      (∀ q, J.predict E q = J.predict E' q ∧ J.marginal E q = J.marginal E' q) ∧ J.probabilities E = J.probabilities E' := by
  obtain ⟨J, h1, _, h2, h3⟩ := C41_initial_product (K := K) hops hN h0 hw horder hcord hpts
  refine ⟨J, h1, ?_⟩
  intro E E' hp hE
  have e1 : propagate J.levels J.n E J.state = propagate J.levels J.n E' J.state := by
    unfold propagate
    rw [(C44_order (n := J.n) h2 (fun T hT => (h3 T hT).1) hp hE).1]
  refine ⟨fun q => ⟨?_, ?_⟩, ?_⟩
  · unfold JTree.predict
    rw [e1]
  · unfold JTree.marginal
    rw [e1]
  · have e2 : ∀ st : JState K, probabilitiesAllNodes J.n J.card E st = probabilitiesAllNodes J.n J.card E' st := by
      intro st
      have : ∀ i, E.any (fun e => decide (e.1 = i)) = E'.any (fun e => decide (e.1 = i)) := fun i => hp.any_eq
      unfold probabilitiesAllNodes
      simp only [this]
    unfold JTree.probabilities
    simp only [e1, e2]

/-- Evidence on the nodes 1 and 3 in both orders. -/
example : (do
    let J ← diamondTree
    let (T, J) ← J.marginal [(3, 1), (1, 0)] 0
    let (S, _) ← J.marginal [(1, 0), (3, 1)] 0
    return (T.pot, S.pot)) = .ok ([3 / 7, 4 / 7], [3 / 7, 4 / 7]) := by decide +kernel

end FastPGM
