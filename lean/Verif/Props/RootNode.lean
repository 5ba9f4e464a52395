import Verif.Lemmas.RootNode
import Verif.Props.JunctionTree

/-!
Property C35: the roots of the sub-graphs and the extra ROOT node (`PCStable::StructLearnCompData` with `add_root`).

All statements are about the network `N` left behind by an arbitrary history of edge operations.
-/

namespace FastPGM

open Spec Relation

/-- Two components, `3 → 1 ← 0 → 2` and `4 → 5`. -/
def forestOps : List EdgeOp := [.addDirected 3 1, .addDirected 0 1, .addDirected 4 5, .addDirected 0 2]

/-- C35, first half.  `FindRootsInDAGForest` ends with a list of distinct parentless nodes; every node is connected (ignoring directions)
to exactly one of them, and that one has the most children among the parentless nodes of its component, the smallest index on a tie. -/
theorem C35_roots {dims : List Nat} {ops : List EdgeOp} (hops : ∀ op ∈ ops, OpInRange dims.length op) {N : Net}
    (hN : (Net.empty dims).run ops = .ok N) :
    ∃ roots, N.findRoots = .ok roots ∧ roots.Nodup ∧
      (∀ r ∈ roots, r < dims.length ∧ ∀ p, ¬ ParentOf N p r) ∧
      (∀ i < dims.length, ∃! r, r ∈ roots ∧ ReflTransGen (Linked N) r i) ∧
      ∀ r ∈ roots, ∀ i < dims.length, (∀ p, ¬ ParentOf N p i) → ReflTransGen (Linked N) r i →
        ∃ si sr, N.nodes[i]? = some si ∧ N.nodes[r]? = some sr ∧
          (si.children.length < sr.children.length ∨ si.children.length = sr.children.length ∧ r ≤ i) := by
  obtain ⟨hinv, hlen⟩ := netInv_of_run hops hN
  obtain ⟨roots, h1, h2, h3, h4, h5, h6⟩ := findRoots_spec hinv
  rw [hlen] at h3 h4 h6
  refine ⟨roots, h1, h2, fun r hr => ⟨(h3 r hr).1, fun p hp => ?_⟩, fun i hi => ?_, fun r hr i hi hpi hri => ?_⟩
  · rw [parentOf_iff, (h3 r hr).2] at hp
    simp at hp
  · obtain ⟨r, hr, hri⟩ := h4 i hi
    refine ⟨r, ⟨hr, hri⟩, fun r' hr' => (h5 r hr r' hr'.1 (hri.trans (reach_symm hr'.2))).symm⟩
  · have hpi' : N.pa i = [] := List.eq_nil_iff_forall_not_mem.2 fun p hp => hpi p (parentOf_iff.2 hp)
    have := h6 r hr i hi hpi' hri
    have hr' := (h3 r hr).1
    rw [ch_of_lt (by omega), ch_of_lt (by omega)] at this
    exact ⟨_, _, List.getElem?_eq_getElem (by omega), List.getElem?_eq_getElem (by omega), this⟩

/-- The extended network. -/
theorem rooted_facts {dims : List Nat} {ops : List EdgeOp} (hops : ∀ op ∈ ops, OpInRange dims.length op) {N : Net}
    (hN : (Net.empty dims).run ops = .ok N) :
    ∃ roots N', NetInv N' ∧ N.findRoots = .ok roots ∧ N.addRootNode roots = .ok N' ∧
      N'.nodes.length = dims.length + 1 ∧
      (∀ p c, ParentOf N' p c ↔ ParentOf N p c ∨ (p = dims.length ∧ c ∈ roots)) ∧
      (∀ p c, ChildOf N' p c ↔ ParentOf N' p c) ∧
      (∀ i < dims.length, i ∉ roots → N'.nodes[i]? = N.nodes[i]?) ∧
      (∃ s, N'.nodes[dims.length]? = some s ∧ s.dim = 2) ∧
      (¬ ∃ i, TransGen (ChildOf N') i i) ∧ WeaklyConnected N' ∧
      N'.edges = N.edges ++ roots.map (fun v => { node1 := dims.length, node2 := v, end1 := .tail, end2 := .arrow }) := by
  obtain ⟨hinv, hlen⟩ := netInv_of_run hops hN
  obtain ⟨roots, h1, h2, h3, h4, -, -⟩ := findRoots_spec hinv
  have hlt : ∀ r ∈ roots, r < N.nodes.length := fun r hr => (h3 r hr).1
  obtain ⟨N', root, e, a1, a2, a3, a4, a5, -, -, a8, a9, a10, -⟩ := addRootNode_spec h2 hlt
  obtain ⟨b1, b2, b3⟩ := rooted_inv hinv hlt a1 a2 a3 a5 a8 a9
  have hpar : ∀ p c, ParentOf N' p c ↔ ParentOf N p c ∨ (p = N.nodes.length ∧ c ∈ roots) := by
    intro p c
    rw [parentOf_iff, parentOf_iff, b2]
  rw [hlen] at a10 hpar
  refine ⟨roots, N', b1, h1, e, by omega, hpar, ?_, ?_, ⟨root, by rw [← hlen]; exact a3, a4⟩, b1.acyclic, ?_, a10⟩
  · intro p c
    rw [parentOf_iff, childOf_iff, b1.wf.sym]
  · intro i hi hir
    rw [← hlen] at hi
    rw [a2 i _ (List.getElem?_eq_getElem hi), if_neg hir, List.getElem?_eq_getElem hi]
  · have hmono : ∀ a b, ReflTransGen (Linked N) a b → ReflTransGen (Linked N') a b := by
      intro a b hab
      exact conn_mono (fun x y hxy => hxy.imp (fun h => (hpar x y).2 (Or.inl h)) (fun h => (hpar y x).2 (Or.inl h))) hab
    have htop : ∀ i < N'.nodes.length, ReflTransGen (Linked N') dims.length i := by
      intro i hi
      by_cases hin : i = dims.length
      · rw [hin]
      · obtain ⟨r, hr, hri⟩ := h4 i (by omega)
        exact ReflTransGen.head (Or.inl ((hpar _ _).2 (Or.inr ⟨rfl, hr⟩))) (hmono r i hri)
    exact fun i j hi hj => (reach_symm (htop i hi)).trans (htop j hj)

/-- C35, second half.  Adding the ROOT node above these roots succeeds.  The new node is the last one, has two values, no parents and the
roots as its children; no other parent is added and every other node is unchanged; the result is acyclic, weakly connected, and its edge
list is extended by exactly the new edges. -/
theorem C35_addRoot {dims : List Nat} {ops : List EdgeOp} (hops : ∀ op ∈ ops, OpInRange dims.length op) {N : Net}
    (hN : (Net.empty dims).run ops = .ok N) :
    ∃ roots N', N.findRoots = .ok roots ∧ N.addRootNode roots = .ok N' ∧
      N'.nodes.length = dims.length + 1 ∧
      (∀ p c, ParentOf N' p c ↔ ParentOf N p c ∨ (p = dims.length ∧ c ∈ roots)) ∧
      (∀ p c, ChildOf N' p c ↔ ParentOf N' p c) ∧
      (∀ i < dims.length, i ∉ roots → N'.nodes[i]? = N.nodes[i]?) ∧
      (∃ s, N'.nodes[dims.length]? = some s ∧ s.dim = 2) ∧
      (¬ ∃ i, TransGen (ChildOf N') i i) ∧ WeaklyConnected N' ∧
      N'.edges = N.edges ++ roots.map (fun v => { node1 := dims.length, node2 := v, end1 := .tail, end2 := .arrow }) := by
  obtain ⟨roots, N', -, h⟩ := rooted_facts hops hN
  exact ⟨roots, N', h⟩

/-- C35, why the ROOT is added: the junction tree of the extended network can be built (for a network that is not connected the
construction runs into undefined behaviour), for every order in which the candidate separators and cliques are examined. -/
theorem C35_junction_tree {dims : List Nat} {ops : List EdgeOp} (hops : ∀ op ∈ ops, OpInRange dims.length op) {N : Net}
    (hN : (Net.empty dims).run ops = .ok N) {order : List (Nat × Nat) → List (Nat × Nat)} (horder : ∀ l, (order l).Perm l)
    (cord : Nat → List Nat) :
    ∃ roots N' S, N.findRoots = .ok roots ∧ N.addRootNode roots = .ok N' ∧ N'.junctionShape order cord = .ok S ∧
      IsJunctionTree S.cliques S.seps := by
  obtain ⟨roots, N', hinv, h1, h2, h3, _, _, _, _, _, h9, _⟩ := rooted_facts hops hN
  obtain ⟨S, j1, _, _, _, _, j6, j7, _, j9⟩ := junctionShape_spec hinv (by omega) h9 horder cord
  exact ⟨roots, N', S, h1, h2, j1, isJunctionTree_of_isJT j6 j7 j9⟩

example : (do
    let N ← (Net.empty [2, 2, 2, 2, 2, 2]).run forestOps
    N.findRoots) = .ok [0, 4] := by decide +kernel

example : ∀ op ∈ forestOps, OpInRange 6 op := by
  intro op hop
  simp only [forestOps, List.mem_cons, List.not_mem_nil, or_false] at hop
  rcases hop with rfl | rfl | rfl | rfl <;> exact ⟨by decide, by decide⟩

/-- The extended network is a graph on seven nodes in which the ROOT, number 6, is a parent of 0 and of 4. -/
example : (do
    let N ← (Net.empty [2, 2, 2, 2, 2, 2]).run forestOps
    let N ← N.addRootNode (← N.findRoots)
    return N.nodes.map (fun (s : NodeS) => (s.parents, s.children))) =
      .ok [([6], [1, 2]), ([0, 3], []), ([0], []), ([], [1]), ([6], [5]), ([4], []), ([], [0, 4])] := by decide +kernel

end FastPGM
