import Verif.Lemmas.Network

/-!
Properties C15, C16: cycle check and topological order.
-/

namespace FastPGM

open Spec

theorem countP_eq_indeg {graph : List (List Int)} {n : Nat} (h1 : graph.length = n) (h2 : ∀ row ∈ graph, row.length = n)
    {j : Nat} (hj : j < n) :
    graph.countP (fun row => row[j]? = some 1) =
      indeg n (fun i j => decide ((graph.getD i []).getD j 0 = 1)) [] j := by
  subst h1
  unfold indeg
  rw [List.countP_eq_length_filter]
  have hg : graph = (List.range graph.length).map (fun i => graph.getD i []) := eq_tab_getD (l := graph) []
  conv_lhs => rw [hg]
  rw [List.filter_map, List.length_map]
  congr 1
  apply List.filter_congr
  intro i hi
  have hi' : i < graph.length := by simpa using hi
  have hlen := h2 graph[i] (List.getElem_mem hi')
  simp only [Function.comp_apply, List.getD_eq_getElem?_getD, List.getElem?_eq_getElem hi', Option.getD_some,
    List.not_mem_nil, not_false_eq_true, decide_true, Bool.true_and]
  rw [List.getElem?_eq_getElem (by omega)]
  simp

theorem isAdjacency_tab {graph : List (List Int)} {deg : List Int} {n : Nat} (h : IsAdjacency graph deg n) :
    graph = matOf n (fun i j => (graph.getD i []).getD j 0) ∧
      deg = tab n (fun j => (indeg n (fun i j => decide ((graph.getD i []).getD j 0 = 1)) [] j : Int)) ∧
      ∀ i j, MatrixEdge graph n i j ↔ i < n ∧ j < n ∧ decide ((graph.getD i []).getD j 0 = 1) = true := by
  obtain ⟨h1, h2, h3, h4⟩ := h
  refine ⟨?_, ?_, ?_⟩
  · refine tab_ext h1 (fun i hi => ?_)
    have hi' : i < graph.length := by omega
    have hlen := h2 graph[i] (List.getElem_mem hi')
    rw [List.getElem?_eq_getElem hi']
    congr 1
    simp only [List.getD_eq_getElem?_getD, List.getElem?_eq_getElem hi', Option.getD_some]
    refine tab_ext hlen (fun j hj => ?_)
    rw [List.getElem?_eq_getElem (by omega)]
    simp
  · refine tab_ext h3 (fun j hj => ?_)
    rw [h4 j hj, countP_eq_indeg h1 h2 hj]
  · intro i j
    unfold MatrixEdge
    constructor
    · rintro ⟨hi, hj, he⟩
      refine ⟨hi, hj, ?_⟩
      have hi' : i < graph.length := by omega
      rw [List.getElem?_eq_getElem hi', Option.bind_some] at he
      simp [List.getD_eq_getElem?_getD, List.getElem?_eq_getElem hi', he]
    · rintro ⟨hi, hj, he⟩
      refine ⟨hi, hj, ?_⟩
      have hi' : i < graph.length := by omega
      have hlen := h2 graph[i] (List.getElem_mem hi')
      have hj' : j < graph[i].length := by omega
      rw [List.getElem?_eq_getElem hi', Option.bind_some, List.getElem?_eq_getElem hj']
      simpa [List.getD_eq_getElem?_getD, List.getElem?_eq_getElem hi', List.getElem?_eq_getElem hj'] using he

theorem kahn_matrix {graph : List (List Int)} {deg : List Int} {n : Nat} (h : IsAdjacency graph deg n) :
    ∃ L e, (∀ i j, MatrixEdge graph n i j ↔ i < n ∧ j < n ∧ e i j = true) ∧ KahnInv n e L [] ∧
      topoSort graph deg n = .ok L ∧ directedGraphContainsCircle graph deg n = .ok (decide (L.length ≠ n)) := by
  obtain ⟨h1, h2, h3⟩ := isAdjacency_tab h
  generalize hg : (fun i j => (graph.getD i []).getD j 0) = g at h1 h2
  have hg' : ∀ i j, (graph.getD i []).getD j 0 = g i j := fun i j => by rw [← hg]
  simp only [hg'] at h2 h3
  obtain ⟨L, hL, ht, hc⟩ := kahnLoop_spec (n := n) (e := fun i j => decide (g i j = 1)) (g := g) (fun _ _ => rfl) n _ _
    kahnInv_init (by simp)
  have hq : (List.range n).filter (fun j => decide ((indeg n (fun i j => decide (g i j = 1)) [] j : Int) = 0)) =
      (List.range n).filter (fun j => decide (indeg n (fun i j => decide (g i j = 1)) [] j = 0)) := by
    apply List.filter_congr
    intro j _
    have hiff : ((indeg n (fun i j => decide (g i j = 1)) [] j : Int) = 0) ↔
      (indeg n (fun i j => decide (g i j = 1)) [] j = 0) := by omega
    simp only [hiff]
  refine ⟨L, _, h3, hL, ?_, ?_⟩
  · unfold topoSort
    rw [h1, h2, initialQueue_tab, ok_bind, hq]
    exact ht
  · unfold directedGraphContainsCircle
    rw [h1, h2, initialQueue_tab, ok_bind, hq]
    rw [List.length_nil] at hc
    rw [hc, ok_bind]
    rfl

/-- C15.  On the adjacency matrix of any directed graph (any number of nodes, self loops allowed) with its in-degrees the circle
check terminates without fault and answers true exactly when there is a directed cycle. -/
theorem C15_containsCircle {graph : List (List Int)} {deg : List Int} {n : Nat} (h : IsAdjacency graph deg n) :
    ∃ b, directedGraphContainsCircle graph deg n = .ok b ∧ (b = true ↔ Cyclic (MatrixEdge graph n)) := by
  obtain ⟨L, e, hE, hL, _, hc⟩ := kahn_matrix h
  refine ⟨_, hc, ?_⟩
  rw [decide_eq_true_iff, Ne, kahn_complete_iff hE hL, not_not]

/-- The hypothesis holds of the 3-cycle, and the answer is true. -/
example : IsAdjacency [[0, 1, 0], [0, 0, 1], [1, 0, 0]] [1, 1, 1] 3 ∧
    directedGraphContainsCircle [[0, 1, 0], [0, 0, 1], [1, 0, 0]] [1, 1, 1] 3 = .ok true := by
  unfold IsAdjacency; decide

/-- ... and of a path, where the answer is false. -/
example : IsAdjacency [[0, 1, 0], [0, 0, 1], [0, 0, 0]] [0, 1, 1] 3 ∧
    directedGraphContainsCircle [[0, 1, 0], [0, 0, 1], [0, 0, 0]] [0, 1, 1] 3 = .ok false := by
  unfold IsAdjacency; decide

/-- C15 at the level of the network: after any history of edge operations `ContainCircle` does not fault and says whether the
child sets contain a directed cycle. -/
theorem C15_network {dims : List Nat} {ops : List EdgeOp} (hops : ∀ op ∈ ops, OpInRange dims.length op) {N : Net}
    (hN : (Net.empty dims).run ops = .ok N) :
    ∃ b, N.containCircle = .ok b ∧ (b = true ↔ Cyclic (ChildOf N)) := by
  obtain ⟨N', h1, h2, _⟩ := run_inv (empty_inv dims) (ops := ops) (by simpa [Net.empty] using hops)
  rw [hN] at h1
  cases h1
  exact containCircle_eq h2.wf

/-- C15: inside `AddDirectedEdge` the check runs on a network with one more edge, which may be cyclic; there, too, it answers
exactly. -/
theorem C15_network_before_rejection {dims : List Nat} {ops : List EdgeOp} (hops : ∀ op ∈ ops, OpInRange dims.length op) {N : Net}
    (hN : (Net.empty dims).run ops = .ok N) {p c : Nat} (hp : p < dims.length) (hc : c < dims.length) :
    ∃ N1 b, N.setParentChild p c = .ok N1 ∧ N1.containCircle = .ok b ∧ (b = true ↔ Cyclic (ChildOf N1)) := by
  obtain ⟨N', h1, h2, h3⟩ := run_inv (empty_inv dims) (ops := ops) (by simpa [Net.empty] using hops)
  rw [hN] at h1
  cases h1
  have hl : N.nodes.length = dims.length := by rw [h3]; simp [Net.empty]
  obtain ⟨N1, h4, hwf1, _⟩ := setParentChild_spec h2.wf (p := p) (c := c) (by omega) (by omega)
  obtain ⟨b, hb, hb'⟩ := containCircle_eq hwf1
  exact ⟨N1, b, h4, hb, hb'⟩

example : (do
    let N ← (Net.empty [2, 2, 2]).run [.addDirected 0 1, .addDirected 1 2]
    let N1 ← N.setParentChild 2 0
    return (← N.containCircle, ← N1.containCircle)) = .ok (false, true) := by decide

/-- C16.  On the adjacency matrix of an acyclic directed graph the sort returns a topological order. -/
theorem C16_topoSort {graph : List (List Int)} {deg : List Int} {n : Nat} (h : IsAdjacency graph deg n)
    (hac : ¬ Cyclic (MatrixEdge graph n)) :
    ∃ order, topoSort graph deg n = .ok order ∧ IsTopologicalOrder n (MatrixEdge graph n) order := by
  obtain ⟨L, e, hE, hL, ht, _⟩ := kahn_matrix h
  have hm := hL.complete_iff.1 ((kahn_complete_iff hE hL).2 hac)
  refine ⟨L, ht, by simpa using hL.nodup, hm, ?_⟩
  intro a b hab
  obtain ⟨h1, h2, h3⟩ := (hE a b).1 hab
  exact hL.topological hm h1 h2 h3

/-- C16: conversely a cyclic graph gives a list that misses nodes, so the length of the result tells the two cases apart. -/
theorem C16_topoSort_cyclic {graph : List (List Int)} {deg : List Int} {n : Nat} (h : IsAdjacency graph deg n)
    (hcy : Cyclic (MatrixEdge graph n)) :
    ∃ order, topoSort graph deg n = .ok order ∧ order.length < n := by
  obtain ⟨L, e, hE, hL, ht, _⟩ := kahn_matrix h
  refine ⟨L, ht, ?_⟩
  have h1 := hL.length_le
  have h2 : L.length ≠ n := fun h => (kahn_complete_iff hE hL).1 h hcy
  simp at h1
  omega

example : topoSort [[0, 0, 0], [1, 0, 1], [1, 0, 0]] [2, 0, 1] 3 = .ok [1, 2, 0] := by decide

/-- C16 at the level of the network: after any history of edge operations `GenTopoOrd` returns a topological order of the
directed part. -/
theorem C16_genTopoOrd {dims : List Nat} {ops : List EdgeOp} (hops : ∀ op ∈ ops, OpInRange dims.length op) {N : Net}
    (hN : (Net.empty dims).run ops = .ok N) :
    ∃ order, N.genTopoOrd = .ok order ∧ IsTopologicalOrder dims.length (ChildOf N) order := by
  obtain ⟨N', h1, h2, h3⟩ := run_inv (empty_inv dims) (ops := ops) (by simpa [Net.empty] using hops)
  rw [hN] at h1
  cases h1
  have hl : N.nodes.length = dims.length := by rw [h3]; simp [Net.empty]
  rw [← hl]
  exact genTopoOrd_eq h2.wf h2.acyclic

/-- C16, the cached variant: the first `GetTopoOrd` of a non-empty network returns a topological order and keeps it; later calls
return the same list. -/
theorem C16_getTopoOrd {dims : List Nat} {ops : List EdgeOp} (hops : ∀ op ∈ ops, OpInRange dims.length op) {N : Net}
    (hN : (Net.empty dims).run ops = .ok N) (hpos : dims ≠ []) :
    ∃ order N', N.getTopoOrd = .ok (order, N') ∧ IsTopologicalOrder dims.length (ChildOf N) order ∧
      N'.getTopoOrd = .ok (order, N') ∧ N' = { N with topo := order } := by
  obtain ⟨order, h1, h2⟩ := C16_genTopoOrd hops hN
  have htopo : N.topo = [] := by
    clear h1 h2
    have : ∀ (ops : List EdgeOp) (M : Net), NetInv M → (∀ op ∈ ops, OpInRange M.nodes.length op) → M.run ops = .ok N →
        N.topo = M.topo := by
      intro ops
      induction ops with
      | nil => intro M _ _ h; cases h; rfl
      | cons op ops ih =>
        intro M hM hr h
        unfold Net.run at h
        rw [List.foldlM_cons] at h
        obtain ⟨M1, e1, e2, e3⟩ := apply_inv hM (hr op (by simp))
        rw [e1, ok_bind] at h
        rw [ih M1 e2 (fun o ho => by rw [e3]; exact hr o (by simp [ho])) h]
        have hr0 := hr op (by simp)
        cases op with
        | addDirected p c =>
          obtain ⟨N', b, h1, _, _, h4, _⟩ := addDirectedEdge_spec hM hr0.1 hr0.2
          simp only [Net.apply, h1, ok_bind, pure_eq_ok, Except.ok.injEq] at e1
          rw [← e1, h4]
        | deleteDirected p c =>
          obtain ⟨N', b, h1, _, _, h4, _⟩ := deleteDirectedEdge_spec hM hr0.1 hr0.2
          simp only [Net.apply, h1, ok_bind, pure_eq_ok, Except.ok.injEq] at e1
          rw [← e1, h4]
        | addUndirected p c =>
          simp only [Net.apply, Net.addUndirectedEdge, find_ok hr0.1, find_ok hr0.2, ok_bind, pure_eq_ok,
            Except.ok.injEq] at e1
          rw [← e1]
        | deleteUndirected p c =>
          obtain ⟨N', b, h1, h2⟩ := deleteUndirectedEdge_spec (N := M) hr0.1 hr0.2
          simp only [Net.apply, h1, ok_bind, pure_eq_ok, Except.ok.injEq] at e1
          subst e1
          rcases h2 with ⟨_, _, rfl⟩ | ⟨_, _, _, rfl⟩ <;> rfl
    exact this ops _ (empty_inv dims) (by simpa [Net.empty] using hops) hN
  have hne : order ≠ [] := by
    rintro rfl
    have := (h2.2.1 0).2 (by cases dims <;> simp_all)
    simp at this
  refine ⟨order, { N with topo := order }, ?_, h2, ?_, rfl⟩
  · unfold Net.getTopoOrd
    rw [if_pos htopo, h1, ok_bind]
    rfl
  · unfold Net.getTopoOrd
    rw [if_neg hne]

/-- Finding: the cache is never invalidated.  `GetTopoOrd`, then an edge `1 → 0`, then `GetTopoOrd` returns an order in which 0
comes before 1. -/
theorem C16_stale_cache : ∃ N1 N2 : Net, ∃ order : List Nat,
    (do let (_, N) ← (Net.empty [2, 2]).getTopoOrd
        let (N, _) ← N.addDirectedEdge 1 0
        return N : Except Fault Net) = .ok N1 ∧
    N1.getTopoOrd = .ok (order, N2) ∧ ¬ IsTopologicalOrder 2 (ChildOf N1) order := by
  refine ⟨_, _, [0, 1], rfl, rfl, ?_⟩
  rintro ⟨_, _, h⟩
  obtain ⟨l1, l2, l3, h⟩ := h 1 0 ⟨_, rfl, by decide⟩
  rcases l1 with _ | ⟨a, _ | ⟨b, l1⟩⟩ <;> simp at h

end FastPGM
