import Verif.Lemmas.Compare4

/-!
Properties C36 (structural Hamming distance), C37 (order of the edges) and C58 (labels of the edges).

"History" below: the network left behind by an arbitrary list of edge operations that adds no directed edge already there (C18).
-/

namespace FastPGM

open Spec Relation

/-- `0 → 2 ← 1`, `2 → 3`, `4 → 3`, `0 → 1`. -/
def compareOps : List EdgeOp := [.addDirected 0 2, .addDirected 1 2, .addDirected 2 3, .addDirected 4 3, .addDirected 0 1]

/-- Proof of freshness for a literal history. -/
theorem freshRun_cons {N : Net} {p c : Nat} {ops : List EdgeOp} (h1 : ∀ s, N.nodes[c]? = some s → p ∉ s.parents)
    (h2 : ∀ N', N.apply (.addDirected p c) = .ok N' → FreshRun N' ops) : FreshRun N (.addDirected p c :: ops) :=
  ⟨fun ⟨s, hs, hp⟩ => h1 s hs hp, h2⟩

theorem compareOps_fresh : FreshRun (Net.empty [2, 2, 2, 2, 2]) compareOps := by
  refine freshRun_cons (by decide) (fun N' h => ?_); cases h
  refine freshRun_cons (by decide) (fun N' h => ?_); cases h
  refine freshRun_cons (by decide) (fun N' h => ?_); cases h
  refine freshRun_cons (by decide) (fun N' h => ?_); cases h
  refine freshRun_cons (by decide) (fun N' h => ?_); cases h
  trivial

theorem compareOps_range : ∀ op ∈ compareOps, OpInRange 5 op := by
  intro op hop
  simp only [compareOps, List.mem_cons, List.not_mem_nil, or_false] at hop
  rcases hop with rfl | rfl | rfl | rfl | rfl <;> exact ⟨by decide, by decide⟩

/-- The network after `compareOps`. -/
def compareNet : Net := ((Net.empty [2, 2, 2, 2, 2]).run compareOps).toOption.getD (Net.empty [])

theorem compareNet_run : (Net.empty [2, 2, 2, 2, 2]).run compareOps = .ok compareNet := by decide +kernel

theorem compareNet_directed : ∀ e ∈ compareNet.edges, e.isDirected = true := by decide +kernel

/-! ### C37 -/

/-- C37.  For every history with only directed edges left, `OrderEdge` returns every edge exactly once, ordered by head along a
topological order and for equal heads by tail from latest to earliest; in the network the edges are unchanged but for the mark `ordered`. -/
theorem C37_order {dims : List Nat} {ops : List EdgeOp} (hops : ∀ op ∈ ops, OpInRange dims.length op)
    (hf : FreshRun (Net.empty dims) ops) {N : Net} (hN : (Net.empty dims).run ops = .ok N) (hdir : ∀ e ∈ N.edges, e.isDirected = true) :
    ∃ order N', N.orderEdge = .ok (order, N') ∧ N'.nodes = N.nodes ∧
      N'.edges = N.edges.map (fun e => { e with ordered := true }) ∧
      order.Perm N'.edges ∧
      (order.map (fun e => (e.node1, e.node2))).Nodup ∧
      IsTopologicalOrder dims.length (ChildOf N) N'.topo ∧
      order.Pairwise (fun a b => N'.topo.idxOf a.node2 < N'.topo.idxOf b.node2 ∨
        (a.node2 = b.node2 ∧ N'.topo.idxOf b.node1 < N'.topo.idxOf a.node1)) := by
  obtain ⟨hinv, hlen, htopo, keys, hn, hkeys, hedges, hke⟩ := history_edges hops hf hN hdir
  obtain ⟨T, -, hT, hO⟩ := orderEdge_eq hinv hn hkeys hedges htopo
  have htf := topoFacts hinv hT
  rw [hlen] at hT
  have hpk : (pending (orderKeys N T)).map (fun e => (e.node1, e.node2)) = orderKeys N T := by
    unfold pending edgesOf
    rw [List.map_map]
    exact List.map_id _
  refine ⟨_, _, hO, rfl, ?_, ?_, ?_, hT, ?_⟩
  · show edgesOf keys _ _ = _
    rw [hedges]
    simp [edgesOf, keyEdge]
  · show (pending _).Perm (edgesOf keys _ _)
    unfold pending edgesOf
    apply List.Perm.map
    rw [List.perm_ext_iff_of_nodup (htf.keys_nodup hinv) hn]
    intro k
    rw [htf.mem_keys hinv, hkeys]
  · rw [hpk]
    exact htf.keys_nodup hinv
  · have := htf.sorted hinv
    unfold pending edgesOf
    rw [List.pairwise_map]
    exact this

/-- The order for `compareNet`. -/
example : (∀ op ∈ compareOps, OpInRange 5 op) ∧ FreshRun (Net.empty [2, 2, 2, 2, 2]) compareOps ∧
    (∀ e ∈ compareNet.edges, e.isDirected = true) ∧
    compareNet.orderEdge.toOption.map (fun r => r.1.map (fun e => (e.node1, e.node2))) = some [(0, 1), (1, 2), (0, 2), (2, 3), (4, 3)] :=
  ⟨compareOps_range, compareOps_fresh, compareNet_directed, by decide +kernel⟩

/-- Finding: the marks `ordered` are never cleared (the loop that should do it changes copies), so on any network with an edge a second
call of `OrderEdge` ends the program; so does a second `GetSHD` with the same true graph. -/
theorem C37_second_call_exits {dims : List Nat} {ops : List EdgeOp} (hops : ∀ op ∈ ops, OpInRange dims.length op)
    (hf : FreshRun (Net.empty dims) ops) {N : Net} (hN : (Net.empty dims).run ops = .ok N) (hdir : ∀ e ∈ N.edges, e.isDirected = true)
    (hne : N.edges ≠ []) {order : List Edge} {N' : Net} (h : N.orderEdge = .ok (order, N')) : N'.orderEdge = .error .exit := by
  obtain ⟨hinv, hlen, htopo, keys, hn, hkeys, hedges, hke⟩ := history_edges hops hf hN hdir
  obtain ⟨T, -, hT, hO⟩ := orderEdge_eq hinv hn hkeys hedges htopo
  rw [hO] at h
  cases h
  refine orderEdge_again hinv hkeys (topoFacts hinv hT) ?_ _
  rintro rfl
  exact hne (by rw [hedges]; rfl)

/-- Finding: an undirected edge in the list makes `OrderEdge` end the program. -/
theorem C37_undirected_exits : ∃ N, (Net.empty [2, 2, 2]).run [.addDirected 0 1, .addUndirected 1 2] = .ok N ∧ N.orderEdge = .error .exit :=
  ⟨_, rfl, by decide +kernel⟩

/-! ### C58 -/

/-- C58, in part.  For every history with only directed edges left and in which no node has two "outsiders" (see `AtMostOneOutsider`),
`OrderEdge` followed by `FindCompelled` labels every edge, and an edge is labelled compelled exactly if it has this direction in every
acyclic graph with the same adjacencies and v-structures.  Missing: the graphs with two outsiders, where the property is false (below). -/
theorem C58_labels_partial {dims : List Nat} {ops : List EdgeOp} (hops : ∀ op ∈ ops, OpInRange dims.length op)
    (hf : FreshRun (Net.empty dims) ops) {N : Net} (hN : (Net.empty dims).run ops = .ok N) (hdir : ∀ e ∈ N.edges, e.isDirected = true)
    (hone : ∀ T, IsTopologicalOrder dims.length (ChildOf N) T → AtMostOneOutsider T (ParentOf N)) :
    ∃ order N' N'', N.orderEdge = .ok (order, N') ∧ N'.findCompelled order = .ok N'' ∧ N''.nodes = N.nodes ∧
      N''.edges.map (fun e => (e.node1, e.node2, e.end1, e.end2)) = N.edges.map (fun e => (e.node1, e.node2, e.end1, e.end2)) ∧
      ∀ e ∈ N''.edges, e.label ≠ .unset ∧ (e.label = .compelled ↔ Compelled (ParentOf N) e.node1 e.node2) := by
  obtain ⟨hinv, hlen, htopo, keys, hn, hkeys, hedges, hke⟩ := history_edges hops hf hN hdir
  obtain ⟨T, -, hT, hO⟩ := orderEdge_eq hinv hn hkeys hedges htopo
  have htf := topoFacts hinv hT
  have hC := findCompelled_eq hinv hn hkeys htf (hone T (by rw [← hlen]; exact hT))
  refine ⟨_, _, _, hO, hC, rfl, ?_, ?_⟩
  · show (edgesOf keys _ _).map _ = _
    rw [hedges]
    simp [edgesOf, keyEdge]
  · intro e he
    obtain ⟨k, hk, rfl⟩ := List.mem_map.1 he
    simp only [keyEdge]
    by_cases h : Compelled (ParentOf N) k.1 k.2
    · simp [h]
    · simp [h]

/-- Every node with two parents has its parents adjacent, or has just two: then there are no two outsiders. -/
theorem atMostOne_of_two {D : Nat → Nat → Prop} (h : ∀ y a b c, D a y → D b y → D c y → a = b ∨ a = c ∨ b = c) (T : List Nat) :
    AtMostOneOutsider T D := by
  intro x y hx
  right
  intro z z' h1 h2 h3 h4 _ _
  rcases h y x z z' hx.1 h1 h2 with h | h | h
  · exact absurd h.symm h3
  · exact absurd h.symm h4
  · exact h

theorem compareNet_parents : ∀ p c, ParentOf compareNet p c ↔ (p, c) ∈ [(0, 2), (1, 2), (2, 3), (4, 3), (0, 1)] := by
  intro p c
  rw [parentOf_iff]
  by_cases hc : c < 5
  · have : ∀ c < 5, ∀ p, p ∈ compareNet.pa c ↔ (p, c) ∈ [(0, 2), (1, 2), (2, 3), (4, 3), (0, 1)] := by
      intro c hc p
      have hpa : compareNet.pa 0 = [] ∧ compareNet.pa 1 = [0] ∧ compareNet.pa 2 = [0, 1] ∧ compareNet.pa 3 = [2, 4] ∧ compareNet.pa 4 = [] := by
        decide +kernel
      obtain ⟨h0, h1, h2, h3, h4⟩ := hpa
      match c, hc with
      | 0, _ => simp [h0]
      | 1, _ => simp [h1]
      | 2, _ => simp [h2]
      | 3, _ => simp [h3]
      | 4, _ => simp [h4]
    exact this c hc p
  · have hlen : compareNet.nodes.length = 5 := by decide +kernel
    have : compareNet.pa c = [] := by
      unfold Net.pa
      rw [List.getElem?_eq_none (by omega)]
      rfl
    rw [this]
    simp
    omega

/-- `compareNet` meets the condition; `2 → 3` and `4 → 3` are compelled, the triangle is reversible. -/
example : (∀ T, AtMostOneOutsider T (ParentOf compareNet)) ∧
    (compareNet.orderEdge >>= fun r => r.2.findCompelled r.1).toOption.map (fun N => N.edges.map (fun e => (e.node1, e.node2, e.label))) =
      some [(0, 2, .reversible), (1, 2, .reversible), (2, 3, .compelled), (4, 3, .compelled), (0, 1, .reversible)] := by
  refine ⟨fun T => atMostOne_of_two ?_ T, by decide +kernel⟩
  intro y a b c
  simp only [compareNet_parents, List.mem_cons, Prod.mk.injEq, List.not_mem_nil, or_false]
  omega

/-- `OrderEdge` and `FindCompelled` on the network after a history. -/
def labelHistory (dims : List Nat) (ops : List EdgeOp) : Except Fault Net := do
  let N ← (Net.empty dims).run ops
  let (order, N') ← N.orderEdge
  N'.findCompelled order

/-- Finding: the second loop of `FindCompelled` has no `break`.  With three parents that are not adjacent it erases the first element of
an empty vector: undefined behaviour. -/
theorem C58_three_parents_ub : labelHistory [2, 2, 2, 2] [.addDirected 0 3, .addDirected 1 3, .addDirected 2 3] = .error .ub := by
  decide +kernel

/-- Finding: in the same situation with one more edge `3 → 4` the vector is not empty, and `3 → 4`, a compelled edge, is erased without
a label. -/
theorem C58_unlabelled : (labelHistory [2, 2, 2, 2, 2] [.addDirected 0 3, .addDirected 1 3, .addDirected 2 3, .addDirected 3 4]).toOption.map
      (fun N => N.edges.map (fun e => (e.node1, e.node2, e.label))) =
    some [(0, 3, .compelled), (1, 3, .compelled), (2, 3, .compelled), (3, 4, .unset)] := by
  decide +kernel

/-! ### C36 -/

/-- The distance of two graphs is 0 exactly if they agree on every pair. -/
theorem C36_zero (n : Nat) (s t : Nat → Nat → PairStatus) : hamming n s t = 0 ↔ ∀ i j, i < j → j < n → s i j = t i j := by
  unfold hamming
  rw [Finset.card_eq_zero, Finset.filter_eq_empty_iff]
  constructor
  · intro h i j hij hj
    have := h (x := (i, j)) (by simp; omega)
    simp only [not_and, not_not] at this
    exact this hij
  · rintro h ⟨i, j⟩ hm ⟨h1, h2⟩
    simp only [Finset.mem_product, Finset.mem_range] at hm
    exact h2 (h i j h1 hm.2)

/-- The distance is symmetric. -/
theorem C36_symmetric (n : Nat) (s t : Nat → Nat → PairStatus) : hamming n s t = hamming n t s := by
  unfold hamming
  congr 1
  apply Finset.filter_congr
  intro p _
  rw [ne_comm]

/-- C36 for a learned DAG.  If the first edge of the learned graph is directed, `GetSHD` is the number of unordered pairs whose status
differs in the two edge lists, and the true graph is not changed. -/
theorem C36_distance {T L : Net} (hT : SimpleEdges T.edges) (hL : SimpleEdges L.edges) (hn : T.nodes.length = L.nodes.length)
    {e : Edge} {es : List Edge} (hes : L.edges = e :: es) (he : e.isDirected = true) (numEdges : Nat) :
    getSHD T L numEdges = .ok (hamming L.nodes.length (pairStatus T.edges) (pairStatus L.edges), T) := by
  unfold getSHD Net.isDAG
  have hrd : rdAt L.edges 0 = .ok e := by unfold rdAt; rw [hes]; rfl
  rw [hrd]
  simp only [ok_bind, pure_eq_ok, he, if_true]
  rw [shdLoop_eq hT hL hn]
  rfl

theorem status_eq {a b c d : Prop} [Decidable a] [Decidable b] [Decidable c] [Decidable d] (h1 : a → ¬ b) (h2 : c → ¬ d)
    (h : (if a then PairStatus.forward else if b then .backward else .absent) = if c then .forward else if d then .backward else .absent) :
    (a ↔ c) ∧ (b ↔ d) := by
  by_cases b1 : a <;> by_cases b2 : b <;> by_cases b3 : c <;> by_cases b4 : d <;> simp_all

/-- C36 for two histories with only directed edges left: the distance is 0 exactly if the two networks have the same parents. -/
theorem C36_dags {dims dims' : List Nat} (hdims : dims.length = dims'.length) {ops ops' : List EdgeOp}
    (hops : ∀ op ∈ ops, OpInRange dims.length op) (hf : FreshRun (Net.empty dims) ops)
    (hops' : ∀ op ∈ ops', OpInRange dims'.length op) (hf' : FreshRun (Net.empty dims') ops') {N N' : Net}
    (hN : (Net.empty dims).run ops = .ok N) (hdir : ∀ e ∈ N.edges, e.isDirected = true)
    (hN' : (Net.empty dims').run ops' = .ok N') (hdir' : ∀ e ∈ N'.edges, e.isDirected = true) (hne : N'.edges ≠ []) (numEdges : Nat) :
    ∃ d, getSHD N N' numEdges = .ok (d, N) ∧ d = hamming dims.length (pairStatus N.edges) (pairStatus N'.edges) ∧
      (d = 0 ↔ ∀ p c, ParentOf N p c ↔ ParentOf N' p c) := by
  obtain ⟨hinv, hlen, -, keys, -, hkeys, hedges, -⟩ := history_edges hops hf hN hdir
  obtain ⟨hinv', hlen', -, keys', -, hkeys', hedges', -⟩ := history_edges hops' hf' hN' hdir'
  have hasym : ∀ {N : Net}, NetInv N → ∀ x y, x ∈ N.pa y → ¬ y ∈ N.pa x := by
    intro N hinv x y h1 h2
    obtain ⟨T, _, hT⟩ := genTopoOrd_eq hinv.wf hinv.acyclic
    have := (topoFacts hinv hT).before _ _ h1
    have := (topoFacts hinv hT).before _ _ h2
    omega
  have hs : SimpleEdges N.edges := by rw [hedges]; exact directed_simple hkeys (hasym hinv) _ _
  have hs' : SimpleEdges N'.edges := by rw [hedges']; exact directed_simple hkeys' (hasym hinv') _ _
  obtain ⟨e, es, hes⟩ := List.exists_cons_of_ne_nil hne
  refine ⟨_, C36_distance hs hs' (by omega) hes (hdir' e (by rw [hes]; simp)) numEdges, by rw [hlen', ← hdims], ?_⟩
  rw [C36_zero]
  have hst : ∀ {N : Net} {keys : List (Nat × Nat)}, N.edges = edgesOf keys (fun _ => false) (fun _ => .unset) →
      (∀ k, k ∈ keys ↔ k.1 ∈ N.pa k.2) → NetInv N → ∀ i j, pairStatus N.edges i j =
        if i ∈ N.pa j then .forward else if j ∈ N.pa i then .backward else .absent := by
    intro N keys hedges hkeys hinv i j
    have hany : ∀ a b, (N.edges.any (fun e => e.node1 = a && e.node2 = b && e.end2 = .arrow) = true) ↔ a ∈ N.pa b := by
      intro a b
      rw [hedges, List.any_eq_true, ← hkeys (a, b)]
      constructor
      · rintro ⟨e, he, h⟩
        obtain ⟨k, hk, rfl⟩ := List.mem_map.1 he
        simp [keyEdge] at h
        rw [← of_decide_eq_true h.1, ← of_decide_eq_true h.2]
        exact hk
      · intro h
        exact ⟨_, List.mem_map.2 ⟨_, h, rfl⟩, by simp [keyEdge]⟩
    have hany' : (N.edges.any (fun e => e.node1 = i && e.node2 = j) = true) → i ∈ N.pa j := by
      rw [hedges, List.any_eq_true, ← hkeys (i, j)]
      rintro ⟨e, he, h⟩
      obtain ⟨k, hk, rfl⟩ := List.mem_map.1 he
      simp [keyEdge] at h
      rw [← of_decide_eq_true h.1, ← of_decide_eq_true h.2]
      exact hk
    unfold pairStatus
    by_cases h1 : i ∈ N.pa j
    · rw [if_pos ((hany i j).2 h1), if_pos h1]
    · rw [if_neg (fun h => h1 ((hany i j).1 h)), if_neg h1]
      by_cases h2 : j ∈ N.pa i
      · rw [if_pos ((hany j i).2 h2), if_pos h2]
      · rw [if_neg (fun h => h2 ((hany j i).1 h)), if_neg h2, if_neg (fun h => h1 (hany' h))]
  constructor
  · intro h p c
    rw [parentOf_iff, parentOf_iff]
    have key : ∀ i j, i < j → j < N'.nodes.length → (i ∈ N.pa j ↔ i ∈ N'.pa j) ∧ (j ∈ N.pa i ↔ j ∈ N'.pa i) := by
      intro i j hij hj
      have := h i j hij hj
      rw [hst hedges hkeys hinv, hst hedges' hkeys' hinv'] at this
      exact status_eq (hasym hinv i j) (hasym hinv' i j) this
    have hr : ∀ {N : Net}, NetInv N → ∀ {p c}, p ∈ N.pa c → p < N.nodes.length ∧ c < N.nodes.length :=
      fun hinv p c h => hinv.wf.lt ((hinv.wf.sym _ _).2 h)
    rcases Nat.lt_trichotomy p c with hpc | hpc | hpc
    · by_cases hc : c < N'.nodes.length
      · exact (key p c hpc hc).1
      · exact ⟨fun h => absurd (hr hinv h).2 (by omega), fun h => absurd (hr hinv' h).2 hc⟩
    · subst hpc
      exact ⟨fun h => absurd h (hasym hinv p p h), fun h => absurd h (hasym hinv' p p h)⟩
    · by_cases hc : p < N'.nodes.length
      · exact (key c p hpc hc).2
      · exact ⟨fun h => absurd (hr hinv h).1 (by omega), fun h => absurd (hr hinv' h).1 hc⟩
  · intro h i j _ _
    rw [hst hedges hkeys hinv, hst hedges' hkeys' hinv']
    have h' : ∀ p c, p ∈ N.pa c ↔ p ∈ N'.pa c := fun p c => by rw [← parentOf_iff, ← parentOf_iff]; exact h p c
    simp only [h']

/-- A network without `0 → 1` and with `2 → 3` turned: two pairs differ. -/
def otherOps : List EdgeOp := [.addDirected 0 2, .addDirected 1 2, .addDirected 3 2, .addDirected 4 3]

/-- The network after `otherOps`. -/
def otherNet : Net := ((Net.empty [2, 2, 2, 2, 2]).run otherOps).toOption.getD (Net.empty [])

example : FreshRun (Net.empty [2, 2, 2, 2, 2]) otherOps ∧ (∀ op ∈ otherOps, OpInRange 5 op) ∧
    (Net.empty [2, 2, 2, 2, 2]).run otherOps = .ok otherNet ∧ (∀ e ∈ otherNet.edges, e.isDirected = true) ∧ otherNet.edges ≠ [] ∧
      SimpleEdges otherNet.edges ∧ (getSHD compareNet otherNet 0).toOption.map Prod.fst = some 2 := by
  refine ⟨?_, ?_, by decide +kernel, by decide +kernel, by decide +kernel,
    ⟨by decide +kernel, by decide +kernel, by decide +kernel, by decide +kernel⟩, by decide +kernel⟩
  · refine freshRun_cons (by decide) (fun N' h => ?_); cases h
    refine freshRun_cons (by decide) (fun N' h => ?_); cases h
    refine freshRun_cons (by decide) (fun N' h => ?_); cases h
    refine freshRun_cons (by decide) (fun N' h => ?_); cases h
    trivial
  · intro op hop
    simp only [otherOps, List.mem_cons, List.not_mem_nil, or_false] at hop
    rcases hop with rfl | rfl | rfl | rfl <;> exact ⟨by decide, by decide⟩

/-- The distance of a learned CPDAG, for a true graph that is given by its sets of parents and a list of directed edges. -/
theorem class_distance {N : Net} (hinv : NetInv N) (htopo : N.topo = []) {keys : List (Nat × Nat)} (hnd : keys.Nodup)
    (hkeys : ∀ k, k ∈ keys ↔ k.1 ∈ N.pa k.2) (hedges : N.edges = edgesOf keys (fun _ => false) (fun _ => .unset))
    (hone : ∀ T, IsTopologicalOrder N.nodes.length (ChildOf N) T → AtMostOneOutsider T (ParentOf N))
    {L : Net} (hL : SimpleEdges L.edges) (hn : N.nodes.length = L.nodes.length) {e : Edge} {es : List Edge} (hes : L.edges = e :: es)
    (he : e.isDirected = false) :
    ∃ N', getSHD N L N.edges.length = .ok (hamming N.nodes.length (classStatus (ParentOf N)) (pairStatus L.edges), N') ∧
      ∀ i j, i < j → pairStatus N'.edges i j = classStatus (ParentOf N) i j := by
  obtain ⟨T, -, hT, hO⟩ := orderEdge_eq hinv hnd hkeys hedges htopo
  have htf := topoFacts hinv hT
  have hC := findCompelled_eq hinv hnd hkeys htf (hone T hT)
  have hkeys' : ∀ k, k ∈ keys ↔ ParentOf N k.1 k.2 := fun k => by rw [parentOf_iff]; exact hkeys k
  have hasym : ∀ x y, ParentOf N x y → ¬ ParentOf N y x := by
    intro x y h1 h2
    rw [parentOf_iff] at h1 h2
    have := htf.before _ _ h1
    have := htf.before _ _ h2
    omega
  have hmap : ∀ {ord lab}, (edgesOf keys ord lab).length = N.edges.length := by
    intro ord lab
    rw [hedges]
    simp [edgesOf]
  have hU : undirectReversible (edgesOf keys (fun _ => true) (fun k => open Classical in
        if Compelled (ParentOf N) k.1 k.2 then .compelled else .reversible)) N.edges.length =
      .ok (keys.map (classKey (Compelled (ParentOf N)))) := by
    rw [← hmap, undirectReversible_eq]
    · unfold edgesOf
      rw [List.map_map]
      rfl
    · intro e he
      obtain ⟨k, hk, rfl⟩ := List.mem_map.1 he
      simp only [keyEdge]
      split <;> simp
  have hstat := fun {i j} (hij : i < j) => class_status (keys := keys) (D := ParentOf N) hkeys' hij
  refine ⟨{ nodes := N.nodes, topo := T, edges := keys.map (classKey (Compelled (ParentOf N))) }, ?_, fun i j hij => hstat hij⟩
  unfold getSHD Net.isDAG
  have hrd : rdAt L.edges 0 = .ok e := by unfold rdAt; rw [hes]; rfl
  rw [hrd]
  simp only [ok_bind, pure_eq_ok, he, Bool.false_eq_true, if_false]
  rw [hO]
  simp only [ok_bind]
  rw [hC]
  simp only [ok_bind]
  rw [hU]
  simp only [ok_bind]
  rw [shdLoop_eq (class_simple hkeys' hasym _) hL (by show N.nodes.length = _; exact hn)]
  simp only [ok_bind]
  congr 2
  rw [← hn]
  unfold hamming
  congr 1
  apply Finset.filter_congr
  intro p _
  constructor
  · rintro ⟨h1, h2⟩
    exact ⟨h1, by rw [← hstat h1]; exact h2⟩
  · rintro ⟨h1, h2⟩
    exact ⟨h1, by rw [hstat h1]; exact h2⟩

/-- C36 for a learned CPDAG, in part.  If the first edge of the learned graph is undirected, the true graph is a history with only
directed edges left and without two outsiders, and `num_edges` is the number of its edges, then `GetSHD` is the number of pairs on which
the learned graph differs from the graph of the equivalence class of the true graph (compelled edges directed, the others undirected).
Missing: true graphs with two outsiders, see `C58_three_parents_ub`. -/
theorem C36_class_distance_partial {dims : List Nat} {ops : List EdgeOp} (hops : ∀ op ∈ ops, OpInRange dims.length op)
    (hf : FreshRun (Net.empty dims) ops) {N : Net} (hN : (Net.empty dims).run ops = .ok N) (hdir : ∀ e ∈ N.edges, e.isDirected = true)
    (hone : ∀ T, IsTopologicalOrder dims.length (ChildOf N) T → AtMostOneOutsider T (ParentOf N))
    {L : Net} (hL : SimpleEdges L.edges) (hn : dims.length = L.nodes.length) {e : Edge} {es : List Edge} (hes : L.edges = e :: es)
    (he : e.isDirected = false) :
    ∃ N', getSHD N L N.edges.length = .ok (hamming dims.length (classStatus (ParentOf N)) (pairStatus L.edges), N') ∧
      ∀ i j, i < j → pairStatus N'.edges i j = classStatus (ParentOf N) i j := by
  obtain ⟨hinv, hlen, htopo, keys, hnd, hkeys, hedges, hke⟩ := history_edges hops hf hN hdir
  rw [← hlen] at hone hn ⊢
  exact class_distance hinv htopo hnd hkeys hedges hone hL hn hes he

/-- A learned graph `0 - 1`, `0 - 2`, `1 - 2`, `2 → 3 ← 4`: distance 0 from the class of `compareNet`. -/
def learnedNet : Net :=
  { nodes := compareNet.nodes, edges := [mkUndirected 0 1, mkUndirected 0 2, mkUndirected 1 2, mkDirected 2 3, mkDirected 4 3] }

example : SimpleEdges learnedNet.edges ∧ compareNet.edges.length = 5 ∧ (getSHD compareNet learnedNet 5).toOption.map Prod.fst = some 0 :=
  ⟨⟨by decide +kernel, by decide +kernel, by decide +kernel, by decide +kernel⟩, by decide +kernel, by decide +kernel⟩

/-- Finding: `IsDAG` looks at the first edge only.  The same learned graph with a directed edge in front is taken for a DAG and is at
distance 3 from the true graph although it is the graph of its class. -/
theorem C36_first_edge : ∃ L : Net, L.edges.Perm learnedNet.edges ∧ L.nodes = learnedNet.nodes ∧
    (getSHD compareNet learnedNet 5).toOption.map Prod.fst = some 0 ∧ (getSHD compareNet L 5).toOption.map Prod.fst = some 3 := by
  refine ⟨{ nodes := compareNet.nodes, edges := [mkDirected 4 3, mkUndirected 0 1, mkUndirected 0 2, mkUndirected 1 2, mkDirected 2 3] },
    ?_, rfl, by decide +kernel, by decide +kernel⟩
  show [mkDirected 4 3, mkUndirected 0 1, mkUndirected 0 2, mkUndirected 1 2, mkDirected 2 3].Perm
    [mkUndirected 0 1, mkUndirected 0 2, mkUndirected 1 2, mkDirected 2 3, mkDirected 4 3]
  decide

/-- Finding: for a learned graph without edges `GetSHD` throws, whatever the true graph. -/
theorem C36_empty_throws (T : Net) {L : Net} (h : L.edges = []) (numEdges : Nat) : getSHD T L numEdges = .error .throw := by
  unfold getSHD Net.isDAG rdAt
  rw [h]
  rfl

/-- Finding: `num_edges` of a network built by edge operations stays 0; then no reversible edge of the true graph is made undirected. -/
theorem C36_num_edges : (getSHD compareNet learnedNet 0).toOption.map Prod.fst = some 3 := by decide +kernel

end FastPGM
