import Verif.Lemmas.JTShape
import Verif.Props.Network

/-!
Properties C38 – C40: moralisation, triangulation and the junction tree of a network.

All statements are about the network `N` left behind by an arbitrary history of edge operations.
-/

namespace FastPGM

open Spec Relation

/-- The state after a history. -/
theorem netInv_of_run {dims : List Nat} {ops : List EdgeOp} (hops : ∀ op ∈ ops, OpInRange dims.length op) {N : Net}
    (hN : (Net.empty dims).run ops = .ok N) : NetInv N ∧ N.nodes.length = dims.length := by
  obtain ⟨N', h1, h2, h3⟩ := run_empty hops
  rw [hN] at h1
  cases h1
  exact ⟨h2, h3⟩

/-- Four nodes, `0 → 1`, `0 → 2`, `1 → 3`, `2 → 3`. -/
def diamondOps : List EdgeOp := [.addDirected 0 1, .addDirected 0 2, .addDirected 1 3, .addDirected 2 3]

/-! ### C38 -/

/-- C38.  The matrix left by `Moralize` has a 1 at two nodes exactly when one is a parent of the other or they have a common child (in
particular it is symmetric and 1 never occurs on the diagonal). -/
theorem C38_moralize {dims : List Nat} {ops : List EdgeOp} (hops : ∀ op ∈ ops, OpInRange dims.length op) {N : Net}
    (hN : (Net.empty dims).run ops = .ok N) :
    ∃ M M', N.adjacencyMatrix = .ok M ∧ moralize M dims.length = .ok M' ∧
      ∀ i j, i < dims.length → j < dims.length → ∃ row x, M'[i]? = some row ∧ row[j]? = some x ∧ (x = 1 ↔ MoralAdj N i j) := by
  obtain ⟨hinv, hlen⟩ := netInv_of_run hops hN
  obtain ⟨M, g, h1, h2, h3⟩ := moral_spec hinv
  rw [hlen] at h2 h3
  refine ⟨M, _, h1, h2, fun i j hi hj => ⟨tab dims.length (g i), g i j, ?_, ?_, h3 i hi j hj⟩⟩
  · simp [matOf, tab, hi]
  · simp [tab, hj]

/-- The two parents of node 3 are connected, 0 and 3 are not. -/
example : (do
    let N ← (Net.empty [2, 2, 2, 2]).run diamondOps
    moralize (← N.adjacencyMatrix) 4) = .ok [[0, 1, 1, 0], [1, 0, 1, 1], [1, 1, 0, 1], [0, 1, 1, 0]] := by decide +kernel

/-! ### C39 -/

/-- C39.  Triangulation ends, every node lies with all its parents in one clique, and no clique contains another one.  The cliques are
non-empty sets of nodes. -/
theorem C39_cliques {dims : List Nat} {ops : List EdgeOp} (hops : ∀ op ∈ ops, OpInRange dims.length op) {N : Net}
    (hN : (Net.empty dims).run ops = .ok N) :
    ∃ cs, N.cliques = .ok cs ∧
      (∀ i < dims.length, ∃ c ∈ cs, i ∈ c ∧ ∀ p, ParentOf N p i → p ∈ c) ∧
      (∀ c ∈ cs, c ≠ [] ∧ c.Pairwise (· < ·) ∧ ∀ v ∈ c, v < dims.length) ∧
      cs.Pairwise (fun a b => (¬ ∀ v ∈ b, v ∈ a) ∧ ¬ ∀ v ∈ a, v ∈ b) := by
  obtain ⟨hinv, hlen⟩ := netInv_of_run hops hN
  obtain ⟨cs, h1, h2⟩ := cliques_facts hinv
  exact ⟨cs, h1, fun i hi => h2.family hinv (by omega),
    fun c hc => ⟨h2.nonempty c hc, h2.sorted c hc, fun v hv => hlen ▸ h2.lt c hc v hv⟩, h2.incomparable⟩

/-- C39.  Every set of nodes that are pairwise adjacent in the moral graph lies in one clique. -/
theorem C39_moral_cliques {dims : List Nat} {ops : List EdgeOp} (hops : ∀ op ∈ ops, OpInRange dims.length op) {N : Net}
    (hN : (Net.empty dims).run ops = .ok N) (Q : List Nat) (hne : Q ≠ []) (hQ : ∀ v ∈ Q, v < dims.length)
    (hadj : ∀ a ∈ Q, ∀ b ∈ Q, a ≠ b → MoralAdj N a b) :
    ∃ cs, N.cliques = .ok cs ∧ ∃ c ∈ cs, ∀ v ∈ Q, v ∈ c := by
  obtain ⟨hinv, hlen⟩ := netInv_of_run hops hN
  obtain ⟨cs, h1, h2⟩ := cliques_facts hinv
  exact ⟨cs, h1, h2.cover (fun v => v ∈ Q) (List.exists_mem_of_ne_nil _ hne) (fun v hv => hlen ▸ hQ v hv)
    (fun a b ha hb hab => hadj a ha b hb hab)⟩

example : (do
    let N ← (Net.empty [2, 2, 2, 2]).run diamondOps
    N.cliques) = .ok [[0, 1, 2], [1, 2, 3]] := by decide +kernel

/-- A cycle of length five in the moral graph needs fill-in edges: 2 – 4 is one. -/
example : (do
    let N ← (Net.empty [2, 2, 2, 2, 2]).run [.addDirected 0 1, .addDirected 0 2, .addDirected 1 3, .addDirected 3 4, .addDirected 2 4]
    N.cliques) = .ok [[0, 1, 2], [1, 2, 3], [2, 3, 4]] := by decide +kernel

/-! ### C40 -/

/-- A clique tree in the relational sense is a junction tree. -/
theorem isJunctionTree_of_isJT {cs : List (List Nat)} {seps : List (Nat × Nat)}
    (h : IsJT (clqHas cs) (fun i => i < cs.length) (sepEdge seps)) (hcount : seps.length + 1 = cs.length)
    (hsub : ∀ p ∈ seps, p ∈ candidateSeps cs) : IsJunctionTree cs seps := by
  have hget : ∀ (i v : Nat) c, cs[i]? = some c → v ∈ c → i < cs.length ∧ clqHas cs i v := by
    intro i v c hc hv
    have hi := (List.getElem?_eq_some_iff.1 hc).1
    refine ⟨hi, ?_⟩
    unfold clqHas
    rw [List.getD_eq_getElem?_getD, hc]
    exact hv
  have hback : ∀ i v, clqHas cs i v → ∃ c, cs[i]? = some c ∧ v ∈ c := by
    intro i v hv
    have hi := lt_of_clqHas hv
    unfold clqHas at hv
    rw [getD_of_lt hi] at hv
    exact ⟨cs[i], List.getElem?_eq_getElem hi, hv⟩
  refine ⟨?_, ?_, ?_, hcount, ?_⟩
  · intro p hp
    have := mem_candidateSeps.1 (hsub p hp)
    exact ⟨this.1, this.2.1⟩
  · intro i j hi hj
    exact conn_mono (fun _ _ hab => hab.1) (h.path hi hj)
  · intro p hp hcon
    refine h.bridge (Or.inl hp : sepEdge seps p.1 p.2) (conn_mono ?_ hcon)
    rintro a b ⟨h1, h2⟩
    refine ⟨h1, ?_⟩
    rintro (⟨rfl, rfl⟩ | ⟨rfl, rfl⟩)
    · exact h2 (Or.inl rfl)
    · exact h2 (Or.inr rfl)
  · intro v i j ci cj hi hj hvi hvj
    obtain ⟨hi1, hi2⟩ := hget i v ci hi hvi
    obtain ⟨hj1, hj2⟩ := hget j v cj hj hvj
    refine conn_mono ?_ (h.path hi1 hj1)
    rintro a b ⟨h1, h2⟩
    exact ⟨h1, hback a v (h2 v hi2 hj2).1, hback b v (h2 v hi2 hj2).2⟩

/-- C40.  For a network with at least one node whose nodes hang together, and whatever the order in which the candidate separators are
traversed, the construction ends with a tree of the cliques that has the running intersection property; every separator holds exactly
the common variables of its two cliques, of which there is at least one. -/
theorem C40_junction_tree {dims : List Nat} {ops : List EdgeOp} (hops : ∀ op ∈ ops, OpInRange dims.length op) {N : Net}
    (hN : (Net.empty dims).run ops = .ok N) (h0 : dims ≠ []) (hw : WeaklyConnected N)
    {order : List (Nat × Nat) → List (Nat × Nat)} (horder : ∀ l, (order l).Perm l) (cord : Nat → List Nat) :
    ∃ S, N.junctionShape order cord = .ok S ∧ N.cliques = .ok S.cliques ∧ IsJunctionTree S.cliques S.seps ∧
      ∀ p ∈ S.seps, ∃ a b, S.cliques[p.1]? = some a ∧ S.cliques[p.2]? = some b ∧ commonVars S.cliques p.1 p.2 ≠ [] ∧
        ∀ v, v ∈ commonVars S.cliques p.1 p.2 ↔ v ∈ a ∧ v ∈ b := by
  obtain ⟨hinv, hlen⟩ := netInv_of_run hops hN
  have hpos : 0 < N.nodes.length := by rw [hlen]; exact List.length_pos_iff.2 h0
  obtain ⟨S, h1, _, h3, _, _, h6, h7, _, h9⟩ := junctionShape_spec hinv hpos hw horder cord
  refine ⟨S, h1, h3, isJunctionTree_of_isJT h6 h7 h9, fun p hp => ?_⟩
  obtain ⟨hlt, hlt2, v, hv⟩ := mem_candidateSeps.1 (h9 p hp)
  have hlt1 : p.1 < S.cliques.length := by omega
  refine ⟨S.cliques[p.1], S.cliques[p.2], List.getElem?_eq_getElem hlt1, List.getElem?_eq_getElem hlt2,
    List.ne_nil_of_mem (mem_commonVars.2 hv), fun w => ?_⟩
  rw [mem_commonVars]
  unfold clqHas
  rw [getD_of_lt hlt1, getD_of_lt hlt2]

/-- C40 (finding): when the nodes do not hang together the construction dereferences a null pointer. -/
theorem C40_disconnected_ub {dims : List Nat} {ops : List EdgeOp} (hops : ∀ op ∈ ops, OpInRange dims.length op) {N : Net}
    (hN : (Net.empty dims).run ops = .ok N) (h0 : dims ≠ []) (hw : ¬ WeaklyConnected N)
    {order : List (Nat × Nat) → List (Nat × Nat)} (horder : ∀ l, (order l).Perm l) (cord : Nat → List Nat) :
    N.junctionShape order cord = .error .ub := by
  obtain ⟨hinv, hlen⟩ := netInv_of_run hops hN
  exact junctionShape_disconnected hinv (by rw [hlen]; exact List.length_pos_iff.2 h0) hw horder cord

/-- C40 (finding): a network without nodes makes the constructor throw. -/
theorem C40_no_nodes_throw {order : List (Nat × Nat) → List (Nat × Nat)} (cord : Nat → List Nat) :
    (Net.empty []).junctionShape order cord = .error .throw := rfl

/-- Two nodes without an edge. -/
example : (Net.empty [2, 2]).junctionShape id List.range = .error .ub := by decide +kernel

/-- The diamond is connected … -/
theorem diamond_connected : ∃ N, (Net.empty [2, 2, 2, 2]).run diamondOps = .ok N ∧ WeaklyConnected N := by
  refine ⟨_, rfl, ?_⟩
  have base : ∀ i, i < 4 → ∀ N : Net, (Net.empty [2, 2, 2, 2]).run diamondOps = .ok N → ReflTransGen (Linked N) 0 i := by
    intro i hi N hN
    have h01 : Linked N 0 1 := Or.inl (by cases hN; exact ⟨_, rfl, by decide⟩)
    have h02 : Linked N 0 2 := Or.inl (by cases hN; exact ⟨_, rfl, by decide⟩)
    have h13 : Linked N 1 3 := Or.inl (by cases hN; exact ⟨_, rfl, by decide⟩)
    match i, hi with
    | 0, _ => exact .refl
    | 1, _ => exact .single h01
    | 2, _ => exact .single h02
    | 3, _ => exact .head h01 (.single h13)
  intro i j hi hj
  exact (conn_symm (fun _ _ h => h.symm) (base i hi _ rfl)).trans (base j hj _ rfl)

/-- … and its tree has two cliques, also when the separators are traversed backwards. -/
example : (do
    let N ← (Net.empty [2, 2, 2, 2, 2]).run [.addDirected 0 1, .addDirected 0 2, .addDirected 1 3, .addDirected 3 4, .addDirected 2 4]
    let S ← N.junctionShape List.reverse (fun _ => [2, 0, 1])
    return (S.cliques, S.seps)) = .ok ([[0, 1, 2], [1, 2, 3], [2, 3, 4]], [(0, 1), (1, 2)]) := by decide +kernel

end FastPGM
