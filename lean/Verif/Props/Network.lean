import Verif.Lemmas.Network
import Verif.Lemmas.Combs
import Mathlib.Tactic.Ring
import Mathlib.Data.List.Range

/-!
Properties C17 – C20: edge operations of the network, the complete graph, parent configurations.
-/

namespace FastPGM

open Spec

/-! ### C17 -/

theorem cyclic_congr {E F : Nat → Nat → Prop} (h : ∀ a b, E a b ↔ F a b) : Cyclic E ↔ Cyclic F :=
  ⟨cyclic_mono fun a b => (h a b).1, cyclic_mono fun a b => (h a b).2⟩

theorem parentOf_iff_childOf {N : Net} (h : NetWF N) {p c : Nat} : ParentOf N p c ↔ ChildOf N p c := by
  rw [parentOf_iff, childOf_iff, h.sym]

theorem same_iff {e f : Edge} : e.same f = true ↔ e.node1 = f.node1 ∧ e.node2 = f.node2 ∧ e.end1 = f.end1 ∧ e.end2 = f.end2 := by
  simp [Edge.same, and_assoc]

/-- The state after a history. -/
theorem run_empty {dims : List Nat} {ops : List EdgeOp} (hops : ∀ op ∈ ops, OpInRange dims.length op) :
    ∃ N, (Net.empty dims).run ops = .ok N ∧ NetInv N ∧ N.nodes.length = dims.length := by
  obtain ⟨N, h1, h2, h3⟩ := run_inv (empty_inv dims) (ops := ops) (by simpa [Net.empty] using hops)
  exact ⟨N, h1, h2, by rw [h3]; simp [Net.empty]⟩

/-- C17.  After any history of edge operations with legal node indices there is no fault and no directed cycle, neither in the
child sets nor in the parent sets. -/
theorem C17_never_cyclic {dims : List Nat} {ops : List EdgeOp} (hops : ∀ op ∈ ops, OpInRange dims.length op) :
    ∃ N, (Net.empty dims).run ops = .ok N ∧ N.nodes.length = dims.length ∧ ¬ Cyclic (ChildOf N) ∧ ¬ Cyclic (ParentOf N) := by
  obtain ⟨N, h1, h2, h3⟩ := run_empty hops
  exact ⟨N, h1, h3, h2.acyclic, fun h => h2.acyclic ((cyclic_congr fun a b => parentOf_iff_childOf h2.wf).1 h)⟩

/-- C17.  What one more `AddDirectedEdge` does after any history: it returns true exactly when the new edge closes no cycle; a
rejected call leaves parents, children and edge list as they were; an accepted call adds exactly the one edge. -/
theorem C17_addDirectedEdge {dims : List Nat} {ops : List EdgeOp} (hops : ∀ op ∈ ops, OpInRange dims.length op) {N : Net}
    (hN : (Net.empty dims).run ops = .ok N) {p c : Nat} (hp : p < dims.length) (hc : c < dims.length) :
    ∃ N' b, N.addDirectedEdge p c = .ok (N', b) ∧
      (b = true ↔ ¬ Cyclic (fun x y => ParentOf N x y ∨ (x = p ∧ y = c))) ∧
      (b = false → (∀ x y, ParentOf N' x y ↔ ParentOf N x y) ∧ (∀ x y, ChildOf N' x y ↔ ChildOf N x y) ∧ N'.edges = N.edges) ∧
      (b = true → (∀ x y, ParentOf N' x y ↔ ParentOf N x y ∨ (x = p ∧ y = c)) ∧
        (∀ x y, ChildOf N' x y ↔ ChildOf N x y ∨ (x = p ∧ y = c)) ∧
        ∃ e, N'.edges = N.edges ++ [e] ∧ e.node1 = p ∧ e.node2 = c ∧ e.end1 = .tail ∧ e.end2 = .arrow) := by
  obtain ⟨N0, h1, h2, h3⟩ := run_empty hops
  rw [hN] at h1
  cases h1
  obtain ⟨N', b, e1, e2, _, _, e5, e6, e7⟩ := addDirectedEdge_spec h2 (p := p) (c := c) (by omega) (by omega)
  refine ⟨N', b, e1, ?_, ?_, ?_⟩
  · rw [e5, cyclic_congr]
    intro x y
    rw [withEdge, parentOf_iff_childOf h2.wf]
  · intro hb
    have hch : ∀ x y, ChildOf N' x y ↔ ChildOf N x y := fun x y => by rw [childOf_iff, childOf_iff, (e6 hb).1]
    exact ⟨fun x y => by rw [parentOf_iff_childOf h2.wf, parentOf_iff_childOf e2.wf, hch], hch, (e6 hb).2⟩
  · intro hb
    have hch : ∀ x y, ChildOf N' x y ↔ ChildOf N x y ∨ (x = p ∧ y = c) :=
      fun x y => by rw [childOf_iff, childOf_iff, (e7 hb).1]
    exact ⟨fun x y => by rw [parentOf_iff_childOf h2.wf, parentOf_iff_childOf e2.wf, hch], hch,
      mkDirected p c, (e7 hb).2, rfl, rfl, rfl, rfl⟩

/-- C17.  `DeleteDirectedEdge` of a listed edge takes exactly that edge out of parents and children; of an edge that is not listed
it changes nothing. -/
theorem C17_deleteDirectedEdge {dims : List Nat} {ops : List EdgeOp} (hops : ∀ op ∈ ops, OpInRange dims.length op) {N : Net}
    (hN : (Net.empty dims).run ops = .ok N) {p c : Nat} (hp : p < dims.length) (hc : c < dims.length) :
    ∃ N' b, N.deleteDirectedEdge p c = .ok (N', b) ∧ (b = true ↔ Listed N p c) ∧
      (b = false → N' = N) ∧
      (b = true → (∀ x y, ParentOf N' x y ↔ ParentOf N x y ∧ ¬ (x = p ∧ y = c)) ∧
        ∀ x y, ChildOf N' x y ↔ ChildOf N x y ∧ ¬ (x = p ∧ y = c)) := by
  obtain ⟨N0, h1, h2, h3⟩ := run_empty hops
  rw [hN] at h1
  cases h1
  obtain ⟨N', b, e1, e2, _, _, e5⟩ := deleteDirectedEdge_spec h2 (p := p) (c := c) (by omega) (by omega)
  have hl : Listed N p c ↔ ∃ e ∈ N.edges, e.same (mkDirected p c) = true := by
    simp only [Listed, same_iff]
    rfl
  refine ⟨N', b, e1, ?_⟩
  rcases e5 with ⟨hf, rfl, rfl⟩ | ⟨pos, hf, rfl, _, hm⟩
  · refine ⟨?_, fun _ => rfl, fun h => by cases h⟩
    rw [hl]
    simp only [Bool.false_eq_true, false_iff, not_exists, not_and]
    intro e he
    have := (List.findIdx?_eq_none_iff.1 hf) e he
    simpa using this
  · refine ⟨?_, fun h => (by cases h), fun _ => ?_⟩
    · rw [hl]
      simp only [true_iff]
      obtain ⟨hlt, hsame, _⟩ := List.findIdx?_eq_some_iff_getElem.1 hf
      exact ⟨_, List.getElem_mem hlt, hsame⟩
    · have hch : ∀ x y, ChildOf N' x y ↔ ChildOf N x y ∧ ¬ (x = p ∧ y = c) :=
        fun x y => by rw [childOf_iff, childOf_iff, hm]
      exact ⟨fun x y => by rw [parentOf_iff_childOf h2.wf, parentOf_iff_childOf e2.wf, hch], hch⟩

/-- C17: an illegal node index ends the program. -/
theorem C17_bad_index {N : Net} {p c : Nat} (h : N.nodes.length ≤ p ∨ N.nodes.length ≤ c) :
    N.addDirectedEdge p c = .error .exit ∧ N.deleteDirectedEdge p c = .error .exit ∧
      N.addUndirectedEdge p c = .error .exit ∧ N.deleteUndirectedEdge p c = .error .exit := by
  unfold Net.addDirectedEdge Net.deleteDirectedEdge Net.addUndirectedEdge Net.deleteUndirectedEdge
  by_cases hp : N.nodes.length ≤ p
  · by_cases hc : c < N.nodes.length
    · refine ⟨by simp [find_error hp], by simp [find_error hp], by simp [find_error hp], ?_⟩
      rw [if_pos (show p > c by omega)]
      simp [find_ok hc, find_error hp]
    · have hc : N.nodes.length ≤ c := by omega
      refine ⟨by simp [find_error hp], by simp [find_error hp], by simp [find_error hp], ?_⟩
      by_cases hpc : p > c
      · rw [if_pos hpc]
        simp [find_error hc]
      · rw [if_neg hpc]
        simp [find_error hp]
  · have hc : N.nodes.length ≤ c := by omega
    have hp' : p < N.nodes.length := by omega
    refine ⟨by simp [find_ok hp', find_error hc], by simp [find_ok hp', find_error hc], by simp [find_ok hp', find_error hc], ?_⟩
    rw [if_neg (show ¬ p > c by omega)]
    simp [find_ok hp', find_error hc]

/-- A history in which both an acceptance and a rejection occur. -/
example : (do
    let N ← (Net.empty [2, 2, 2]).run [.addDirected 0 1, .addUndirected 0 2, .addDirected 1 2]
    return ((← N.addDirectedEdge 2 0).2, (← N.addDirectedEdge 0 2).2, (← N.addDirectedEdge 1 1).2)) =
    .ok (false, true, false) := by decide

/-! ### C18 -/

/-- The directed edges of an edge list as pairs. -/
def dirPairs (es : List Edge) : List (Nat × Nat) :=
  es.filterMap (fun e => if e.end1 = .tail ∧ e.end2 = .arrow then some (e.node1, e.node2) else none)

theorem listed_iff {N : Net} {p c : Nat} : Listed N p c ↔ (p, c) ∈ dirPairs N.edges := by
  unfold Listed dirPairs
  rw [List.mem_filterMap]
  constructor
  · rintro ⟨e, he, h1, h2, h3, h4⟩
    exact ⟨e, he, by rw [if_pos ⟨h3, h4⟩, h1, h2]⟩
  · rintro ⟨e, he, h⟩
    split at h
    · rename_i hh
      simp only [Option.some.injEq, Prod.mk.injEq] at h
      exact ⟨e, he, h.1, h.2, hh.1, hh.2⟩
    · cases h

theorem dirPairs_append (es fs : List Edge) : dirPairs (es ++ fs) = dirPairs es ++ dirPairs fs := List.filterMap_append ..

theorem dirPairs_directed (p c : Nat) : dirPairs [mkDirected p c] = [(p, c)] := rfl

theorem dirPairs_undirected (p c : Nat) : dirPairs [mkUndirected p c] = [] := by
  unfold mkUndirected
  split <;> rfl

/-- An edge list cut at the position found. -/
theorem findEdge_some {es : List Edge} {f : Edge} {pos : Nat} (h : findEdge es f = some pos) :
    ∃ l1 e l2, es = l1 ++ e :: l2 ∧ es.eraseIdx pos = l1 ++ l2 ∧ e.same f = true := by
  obtain ⟨hlt, hsame, _⟩ := List.findIdx?_eq_some_iff_getElem.1 h
  refine ⟨es.take pos, es[pos], es.drop (pos + 1), ?_, ?_, hsame⟩
  · rw [← List.drop_eq_getElem_cons hlt, List.take_append_drop]
  · rw [List.eraseIdx_eq_take_drop_succ]

/-- The consistency invariant. -/
structure EdgeInv (N : Net) : Prop where
  inv : NetInv N
  nodup : (dirPairs N.edges).Nodup
  mem : ∀ p c, (p, c) ∈ dirPairs N.edges ↔ c ∈ N.ch p

theorem edgeInv_apply {N : Net} (h : EdgeInv N) {op : EdgeOp} (hop : OpInRange N.nodes.length op) (hf : Fresh N op) :
    ∃ N', N.apply op = .ok N' ∧ EdgeInv N' ∧ N'.nodes.length = N.nodes.length := by
  cases op with
  | addDirected p c =>
    obtain ⟨N', b, h1, h2, h3, _, _, h6, h7⟩ := addDirectedEdge_spec h.inv hop.1 hop.2
    refine ⟨N', by simp [Net.apply, h1, ok_bind, pure_eq_ok], ?_, h3⟩
    cases b with
    | false =>
      obtain ⟨hm, he⟩ := h6 rfl
      exact ⟨h2, by rw [he]; exact h.nodup, fun p c => by rw [he, hm]; exact h.mem p c⟩
    | true =>
      obtain ⟨hm, he⟩ := h7 rfl
      have hnew : (p, c) ∉ dirPairs N.edges := by
        rw [h.mem, h.inv.wf.sym, ← parentOf_iff]
        exact hf
      refine ⟨h2, ?_, ?_⟩
      · rw [he, dirPairs_append, dirPairs_directed, List.nodup_append]
        refine ⟨h.nodup, by simp, ?_⟩
        intro x hx y hy
        rw [List.mem_singleton] at hy
        subst hy
        rintro rfl
        exact hnew hx
      · intro x y
        rw [he, dirPairs_append, dirPairs_directed, List.mem_append, h.mem, hm]
        simp
  | deleteDirected p c =>
    obtain ⟨N', b, h1, h2, h3, _, h5⟩ := deleteDirectedEdge_spec h.inv hop.1 hop.2
    refine ⟨N', by simp [Net.apply, h1, ok_bind, pure_eq_ok], ?_, h3⟩
    rcases h5 with ⟨_, _, rfl⟩ | ⟨pos, hpos, _, he, hm⟩
    · exact h
    · obtain ⟨l1, e, l2, hs, her, hsame⟩ := findEdge_some hpos
      obtain ⟨s1, s2, s3, s4⟩ := same_iff.1 hsame
      have hd : dirPairs N.edges = dirPairs l1 ++ (p, c) :: dirPairs l2 := by
        rw [hs, dirPairs_append]
        congr 1
        show List.filterMap _ (e :: l2) = _
        rw [List.filterMap_cons, if_pos ⟨s3, s4⟩, s1, s2]
        rfl
      have hd' : dirPairs N'.edges = dirPairs l1 ++ dirPairs l2 := by rw [he, her, dirPairs_append]
      have hn := h.nodup
      rw [hd] at hn
      have hn' := List.nodup_middle.1 hn
      rw [List.nodup_cons] at hn'
      refine ⟨h2, by rw [hd']; exact hn'.2, ?_⟩
      intro x y
      rw [hm, ← h.mem, hd, hd']
      simp only [List.mem_append, List.mem_cons, Prod.mk.injEq]
      constructor
      · intro hxy
        refine ⟨by tauto, ?_⟩
        rintro ⟨rfl, rfl⟩
        exact hn'.1 (List.mem_append.2 hxy)
      · tauto
  | addUndirected p c =>
    refine ⟨{ N with edges := N.edges ++ [mkUndirected p c] }, ?_, ⟨h.inv.withEdges _, ?_, ?_⟩, rfl⟩
    · simp [Net.apply, Net.addUndirectedEdge, find_ok hop.1, find_ok hop.2, ok_bind, pure_eq_ok]
    · show (dirPairs (N.edges ++ [mkUndirected p c])).Nodup
      rw [dirPairs_append, dirPairs_undirected, List.append_nil]
      exact h.nodup
    · intro x y
      show (x, y) ∈ dirPairs (N.edges ++ [mkUndirected p c]) ↔ _
      rw [dirPairs_append, dirPairs_undirected, List.append_nil]
      exact h.mem x y
  | deleteUndirected p c =>
    obtain ⟨N', b, h1, h2⟩ := deleteUndirectedEdge_spec (N := N) hop.1 hop.2
    refine ⟨N', by simp [Net.apply, h1, ok_bind, pure_eq_ok], ?_⟩
    rcases h2 with ⟨_, _, rfl⟩ | ⟨pos, hpos, _, rfl⟩
    · exact ⟨h, rfl⟩
    · obtain ⟨l1, e, l2, hs, her, hsame⟩ := findEdge_some hpos
      obtain ⟨_, _, _, s4⟩ := same_iff.1 hsame
      have hs4 : e.end2 = .tail := by rw [s4]; unfold mkUndirected; split <;> rfl
      have hd : dirPairs (N.edges.eraseIdx pos) = dirPairs N.edges := by
        rw [her, hs, dirPairs_append, dirPairs_append]
        congr 1
        show _ = List.filterMap _ (e :: l2)
        rw [List.filterMap_cons, if_neg (by rw [hs4]; simp)]
        rfl
      refine ⟨⟨h.inv.withEdges _, ?_, ?_⟩, rfl⟩
      · show (dirPairs (N.edges.eraseIdx pos)).Nodup
        rw [hd]; exact h.nodup
      · intro x y
        show (x, y) ∈ dirPairs (N.edges.eraseIdx pos) ↔ _
        rw [hd]; exact h.mem x y

theorem edgeInv_run {N : Net} (h : EdgeInv N) {ops : List EdgeOp} (hop : ∀ op ∈ ops, OpInRange N.nodes.length op)
    (hf : FreshRun N ops) : ∃ N', N.run ops = .ok N' ∧ EdgeInv N' ∧ N'.nodes.length = N.nodes.length := by
  induction ops generalizing N with
  | nil => exact ⟨N, rfl, h, rfl⟩
  | cons op ops ih =>
    obtain ⟨N1, h1, h2, h3⟩ := edgeInv_apply h (hop op (by simp)) hf.1
    obtain ⟨N2, h4, h5, h6⟩ := ih h2 (fun o ho => by rw [h3]; exact hop o (by simp [ho])) (hf.2 N1 h1)
    refine ⟨N2, ?_, h5, by omega⟩
    unfold Net.run
    rw [List.foldlM_cons, h1, ok_bind]
    exact h4

theorem edgeInv_empty (dims : List Nat) : EdgeInv (Net.empty dims) := by
  refine ⟨empty_inv dims, by simp [Net.empty, dirPairs], fun p c => ?_⟩
  simp only [Net.empty, dirPairs, List.filterMap_nil, List.not_mem_nil, false_iff]
  unfold Net.ch
  simp only [List.getElem?_map]
  cases dims[p]? <;> simp

/-- C18.  After every history of edge operations that adds no directed edge already there, parent sets, child sets and the edge list
record the same directed edges, and the list records each once. -/
theorem C18_consistent {dims : List Nat} {ops : List EdgeOp} (hops : ∀ op ∈ ops, OpInRange dims.length op)
    (hf : FreshRun (Net.empty dims) ops) :
    ∃ N, (Net.empty dims).run ops = .ok N ∧ (∀ p c, ParentOf N p c ↔ ChildOf N p c) ∧ (∀ p c, ParentOf N p c ↔ Listed N p c) ∧
      ∀ p c, N.edges.countP (fun e => e.node1 = p ∧ e.node2 = c ∧ e.end1 = .tail ∧ e.end2 = .arrow) ≤ 1 := by
  obtain ⟨N, h1, h2, h3⟩ := edgeInv_run (edgeInv_empty dims) (ops := ops) (by simpa [Net.empty] using hops) hf
  refine ⟨N, h1, fun p c => parentOf_iff_childOf h2.inv.wf, fun p c => ?_, fun p c => ?_⟩
  · rw [parentOf_iff_childOf h2.inv.wf, childOf_iff, listed_iff, h2.mem]
  · have hcount : (dirPairs N.edges).count (p, c) =
        N.edges.countP (fun e => e.node1 = p ∧ e.node2 = c ∧ e.end1 = .tail ∧ e.end2 = .arrow) := by
      unfold dirPairs
      rw [List.count, List.countP_filterMap]
      apply List.countP_congr
      intro e _
      by_cases hh : e.end1 = .tail ∧ e.end2 = .arrow
      · simp [hh]
      · rw [if_neg hh]
        simp
        tauto
    rw [← hcount]
    exact List.nodup_iff_count_le_one.1 h2.nodup (p, c)

/-- The proviso is met by a history with additions, a rejection, undirected edges and deletions. -/
example : FreshRun (Net.empty [2, 3, 2])
      [.addDirected 0 1, .addDirected 1 2, .addDirected 2 0, .addUndirected 0 2, .deleteDirected 0 1, .addDirected 0 1] ∧
    ∃ N, (Net.empty [2, 3, 2]).run
      [.addDirected 0 1, .addDirected 1 2, .addDirected 2 0, .addUndirected 0 2, .deleteDirected 0 1, .addDirected 0 1] = .ok N ∧
      Listed N 0 1 := by
  constructor
  · have hd : ∀ (N : Net) (p c : Nat) (ops : List EdgeOp), (∀ s, N.nodes[c]? = some s → p ∉ s.parents) →
        (∀ N', N.apply (.addDirected p c) = .ok N' → FreshRun N' ops) → FreshRun N (.addDirected p c :: ops) := by
      rintro N p c ops h1 h2
      exact ⟨fun ⟨s, hs, hp⟩ => h1 s hs hp, h2⟩
    refine hd _ _ _ _ (by decide) (fun N' h => ?_); cases h
    refine hd _ _ _ _ (by decide) (fun N' h => ?_); cases h
    refine hd _ _ _ _ (by decide) (fun N' h => ?_); cases h
    refine ⟨trivial, fun N' h => ?_⟩; cases h
    refine ⟨trivial, fun N' h => ?_⟩; cases h
    refine hd _ _ _ _ (by decide) (fun N' h => ?_); cases h
    trivial
  · exact ⟨_, rfl, by unfold Listed; decide⟩

/-- Finding: without the proviso the property is false.  Adding `0 → 1` twice and deleting it once leaves the edge in the edge list
while 0 is no longer a parent of 1. -/
theorem C18_readding_breaks : ∃ N, (Net.empty [2, 2]).run [.addDirected 0 1, .addDirected 0 1, .deleteDirected 0 1] = .ok N ∧
    Listed N 0 1 ∧ ¬ ParentOf N 0 1 := by
  refine ⟨_, rfl, by unfold Listed; decide, ?_⟩
  rintro ⟨s, hs, hp⟩
  revert hs hp
  revert s
  decide

/-! ### C19 -/

/-- First slot of row `i`. -/
theorem rowStart_succ {n i : Nat} (hi : i < n) :
    (2 * n - (i + 1) - 1) * (i + 1) / 2 = (2 * n - i - 1) * i / 2 + (n - i - 1) := by
  obtain ⟨m, rfl⟩ : ∃ m, n = i + 1 + m := ⟨n - i - 1, by omega⟩
  have e1 : (2 * (i + 1 + m) - (i + 1) - 1) * (i + 1) = (2 * (i + 1 + m) - i - 1) * i + 2 * m := by
    have a1 : 2 * (i + 1 + m) - (i + 1) - 1 = i + 2 * m := by omega
    have a2 : 2 * (i + 1 + m) - i - 1 = i + 1 + 2 * m := by omega
    rw [a1, a2]; ring
  rw [e1]
  omega

theorem filter_gt_range (n i : Nat) :
    (List.range n).filter (fun j => decide (i < j)) = (List.range (n - i - 1)).map (fun k => i + 1 + k) := by
  by_cases h : i + 1 ≤ n
  · obtain ⟨m, rfl⟩ := Nat.exists_eq_add_of_le h
    rw [List.range_add, List.filter_append, List.filter_eq_nil_iff.2, List.filter_eq_self.2]
    · have : i + 1 + m - i - 1 = m := by omega
      rw [this]; rfl
    · intro a ha
      simp only [List.mem_map, List.mem_range] at ha
      obtain ⟨k, _, rfl⟩ := ha
      simp; omega
    · intro a ha
      simp at ha ⊢; omega
  · have : n - i - 1 = 0 := by omega
    rw [this, List.filter_eq_nil_iff.2]
    · rfl
    · intro a ha
      simp at ha ⊢; omega

/-- The edges of row `i`, first `k` of them. -/
def rowEdges (i k : Nat) : List Edge := (List.range k).map (fun k => mkUndirected i (i + 1 + k))

theorem completeGraph_row {n i : Nat} {P : List Edge} (hP : P.length = (2 * n - i - 1) * i / 2) (r : Nat)
    (hr : n - i - 1 ≤ r) :
    ((List.range n).filter (fun j => i < j)).foldlM (fun acc j =>
      wr acc ((2 * n - i - 1) * i / 2 + j - i - 1) (some (mkUndirected i j))) (P.map some ++ List.replicate r none) =
    .ok ((P ++ rowEdges i (n - i - 1)).map some ++ List.replicate (r - (n - i - 1)) none) := by
  rw [filter_gt_range, List.foldlM_map]
  have key := foldlM_range_eq (f := fun acc k =>
      wr acc ((2 * n - i - 1) * i / 2 + (i + 1 + k) - i - 1) (some (mkUndirected i (i + 1 + k))))
    (s := fun k => (P ++ rowEdges i k).map some ++ List.replicate (r - k) none) (n := n - i - 1) ?_
  · simpa [rowEdges] using key
  · intro k hk
    have hlen : ((P ++ rowEdges i k).map some).length = (2 * n - i - 1) * i / 2 + (i + 1 + k) - i - 1 := by
      simp [rowEdges, hP]; omega
    obtain ⟨r', hr'⟩ : ∃ r', r - k = r' + 1 := ⟨r - k - 1, by omega⟩
    have hr2 : r - (k + 1) = r' := by omega
    rw [← hlen, wr_ok (by simp; omega), hr', hr2, List.set_append_right _ _ (Nat.le_refl _), Nat.sub_self,
      List.replicate_succ, List.set_cons_zero]
    congr 1
    rw [rowEdges, rowEdges, List.range_succ]
    simp

theorem completeGraph_eq (n : Nat) :
    completeGraphEdges n = .ok (((List.range n).flatMap (fun i => rowEdges i (n - i - 1))).map some) := by
  unfold completeGraphEdges
  have hlen : ∀ k ≤ n, ((List.range k).flatMap (fun i => rowEdges i (n - i - 1))).length = (2 * n - k - 1) * k / 2 := by
    intro k
    induction k with
    | zero => simp
    | succ k ih =>
      intro hk
      rw [rowStart_succ hk, List.range_succ, List.flatMap_append, List.length_append, ih (by omega)]
      simp [rowEdges]
  have hmono : ∀ k ≤ n, (2 * n - k - 1) * k / 2 ≤ (n - 1) * n / 2 := by
    intro k hk
    have h2 : (2 * n - n - 1) * n / 2 = (n - 1) * n / 2 := by
      have : 2 * n - n - 1 = n - 1 := by omega
      rw [this]
    rw [← h2]
    induction n, hk using Nat.le_induction with
    | base => exact Nat.le_refl _
    | succ m hm ih =>
      clear ih h2 hlen
      apply Nat.div_le_div_right
      obtain ⟨d, rfl⟩ := Nat.exists_eq_add_of_le hm
      have a1 : 2 * (k + d + 1) - k - 1 = k + 2 * d + 1 := by omega
      have a2 : 2 * (k + d + 1) - (k + d + 1) - 1 = k + d := by omega
      rw [a1, a2]
      have : (k + d) * (k + d + 1) = (k + 2 * d + 1) * k + (d * d + d) := by ring
      rw [this]
      exact Nat.le_add_right _ _
  have key := foldlM_range_eq (f := fun acc i =>
      ((List.range n).filter (fun j => i < j)).foldlM (fun acc j =>
        wr acc ((2 * n - i - 1) * i / 2 + j - i - 1) (some (mkUndirected i j))) acc)
    (s := fun k => ((List.range k).flatMap (fun i => rowEdges i (n - i - 1))).map some ++
      List.replicate ((n - 1) * n / 2 - (2 * n - k - 1) * k / 2) none) (n := n) ?_
  · have hz : (n - 1) * n / 2 - (2 * n - n - 1) * n / 2 = 0 := by
      have : 2 * n - n - 1 = n - 1 := by omega
      rw [this, Nat.sub_self]
    rw [hz] at key
    simpa using key
  · intro i hi
    have h1 := hmono (i + 1) (by omega)
    rw [rowStart_succ hi] at h1
    refine (completeGraph_row (hlen i (by omega)) _ (by omega)).trans ?_
    rw [rowStart_succ hi, List.range_succ, List.flatMap_append]
    congr 3
    · simp
    · omega

/-- C19.  For every number of nodes the complete graph is built without fault: `n(n-1)/2` slots, every slot holds an edge, the slots
are pairwise different, they are exactly the undirected edges `i — j` with `i < j < n`, and the edge of a pair stands at the
position given by the formula. -/
theorem C19_completeGraph (n : Nat) :
    ∃ slots : List Edge, completeGraphEdges n = .ok (slots.map some) ∧ slots.length = n * (n - 1) / 2 ∧ slots.Nodup ∧
      (∀ e : Edge, e ∈ slots ↔ ∃ i j, i < j ∧ j < n ∧
        e = { node1 := i, node2 := j, end1 := .tail, end2 := .tail, ordered := false, label := .unset }) ∧
      ∀ i j, i < j → j < n → (slots[(2 * n - i - 1) * i / 2 + j - i - 1]?).map (fun e => (e.node1, e.node2)) = some (i, j) := by
  have hmk : ∀ i k, mkUndirected i (i + 1 + k) = { node1 := i, node2 := i + 1 + k, end1 := .tail, end2 := .tail } := by
    intro i k
    unfold mkUndirected
    rw [if_pos (by omega)]
  have hlen : ∀ k ≤ n, ((List.range k).flatMap (fun i => rowEdges i (n - i - 1))).length = (2 * n - k - 1) * k / 2 := by
    intro k
    induction k with
    | zero => simp
    | succ k ih =>
      intro hk
      rw [rowStart_succ hk, List.range_succ, List.flatMap_append, List.length_append, ih (by omega)]
      simp [rowEdges]
  refine ⟨_, completeGraph_eq n, ?_, ?_, ?_, ?_⟩
  · rw [hlen n (Nat.le_refl n)]
    have : 2 * n - n - 1 = n - 1 := by omega
    rw [this, Nat.mul_comm]
  · rw [List.nodup_flatMap]
    refine ⟨fun i _ => ?_, ?_⟩
    · unfold rowEdges
      refine (List.nodup_map_iff_inj_on List.nodup_range).2 ?_
      intro a _ b _ hab
      rw [hmk, hmk] at hab
      simp at hab
      exact hab
    · refine List.Pairwise.imp ?_ List.pairwise_lt_range
      intro i j hij e he he'
      unfold rowEdges at he he'
      simp only [List.mem_map] at he he'
      obtain ⟨k, _, rfl⟩ := he
      obtain ⟨k', _, hk⟩ := he'
      rw [hmk, hmk] at hk
      simp at hk
      omega
  · intro e
    simp only [List.mem_flatMap, List.mem_range, rowEdges, List.mem_map]
    constructor
    · rintro ⟨i, hi, k, hk, rfl⟩
      exact ⟨i, i + 1 + k, by omega, by omega, hmk i k⟩
    · rintro ⟨i, j, hij, hj, rfl⟩
      refine ⟨i, by omega, j - i - 1, by omega, ?_⟩
      rw [hmk]
      have : i + 1 + (j - i - 1) = j := by omega
      rw [this]
  · intro i j hij hj
    have hsplit : List.range n = List.range i ++ i :: (List.range (n - i - 1)).map (fun k => i + 1 + k) := by
      obtain ⟨m, rfl⟩ := Nat.exists_eq_add_of_le (show i + 1 ≤ n by omega)
      rw [List.range_add, List.range_succ]
      have : i + 1 + m - i - 1 = m := by omega
      rw [this]; simp
    rw [hsplit, List.flatMap_append, List.flatMap_cons]
    have hp : (2 * n - i - 1) * i / 2 + j - i - 1 =
        ((List.range i).flatMap (fun i => rowEdges i (n - i - 1))).length + (j - i - 1) := by
      rw [hlen i (by omega)]; omega
    rw [hp, List.getElem?_append_right (by omega), Nat.add_sub_cancel_left,
      List.getElem?_append_left (by simp [rowEdges]; omega)]
    unfold rowEdges
    rw [List.getElem?_map, List.getElem?_range (by omega), Option.map_some, Option.map_some, hmk]
    have : i + 1 + (j - i - 1) = j := by omega
    rw [this]

example : completeGraphEdges 3 = .ok ([mkUndirected 0 1, mkUndirected 0 2, mkUndirected 1 2].map some) := by decide

/-! ### C20 -/

theorem addParent_correct {dom : Nat → Nat} {s : NodeS} (hs : s.parents.Pairwise (· < ·)) (hc : CombsCorrect dom s) (p : Nat) :
    (s.addParent p (dom p)).parents.Pairwise (· < ·) ∧ CombsCorrect dom (s.addParent p (dom p)) ∧
      (∀ q, q ∈ (s.addParent p (dom p)).parents ↔ q ∈ s.parents ∨ q = p) := by
  unfold NodeS.addParent
  split
  · rename_i hp
    refine ⟨hs, hc, fun q => ?_⟩
    constructor
    · exact Or.inl
    · rintro (h | rfl)
      · exact h
      · exact hp
  · rename_i hp
    obtain ⟨h1, h2⟩ := extendCombs_spec p (dom p) s.combs
    refine ⟨setInsert_sorted hs, ⟨h1, fun c => ?_⟩, fun q => by rw [mem_setInsert, or_comm]⟩
    show c ∈ extendCombs p (dom p) s.combs ↔ IsParentConfig dom (setInsert p s.parents) c
    rw [h2]
    constructor
    · rintro ⟨i, hi, c0, hc0, rfl⟩
      obtain ⟨e1, e2⟩ := (hc.2 c0).1 hc0
      refine ⟨by rw [configInsert_fst (by rw [e1]; exact hp), e1], fun x hx => ?_⟩
      rcases mem_configInsert'.1 hx with rfl | hx
      · exact hi
      · exact e2 x hx
    · rintro ⟨e1, e2⟩
      have hpm : p ∈ c.map Prod.fst := by rw [e1]; exact mem_setInsert.2 (Or.inl rfl)
      obtain ⟨⟨p', i⟩, hx, rfl⟩ := List.mem_map.1 hpm
      have hsorted : (c.map Prod.fst).Pairwise (· < ·) := by rw [e1]; exact setInsert_sorted hs
      refine ⟨i, e2 _ hx, c.erase (p', i), (hc.2 _).2 ⟨?_, fun x hx' => e2 x (List.mem_of_mem_erase hx')⟩, ?_⟩
      · rw [erase_fst (nodup_of_sorted hsorted) hx, e1, erase_setInsert hp]
      · rw [configInsert_erase hsorted hx]

theorem empty_combs (dom : Nat → Nat) (d : Nat) : CombsCorrect dom { dim := d } := by
  refine ⟨by simp, fun c => ?_⟩
  unfold IsParentConfig
  constructor
  · intro h
    simp at h
    subst h
    simp
  · rintro ⟨h, _⟩
    simp at h
    subst h
    simp

/-- C20.  After any sequence of parent additions (repetitions allowed) to a new node the parents are the added ones, sorted, and the
recorded configurations are exactly the assignments of all of them to legal values, each once. -/
theorem C20_additions (dom : Nat → Nat) (d : Nat) (adds : List Nat) :
    let s := adds.foldl (fun s p => s.addParent p (dom p)) ({ dim := d } : NodeS)
    (∀ q, q ∈ s.parents ↔ q ∈ adds) ∧ s.parents.Pairwise (· < ·) ∧ CombsCorrect dom s := by
  have key : ∀ (adds : List Nat) (s : NodeS), s.parents.Pairwise (· < ·) → CombsCorrect dom s →
      (∀ q, q ∈ (adds.foldl (fun s p => s.addParent p (dom p)) s).parents ↔ q ∈ s.parents ∨ q ∈ adds) ∧
      (adds.foldl (fun s p => s.addParent p (dom p)) s).parents.Pairwise (· < ·) ∧
      CombsCorrect dom (adds.foldl (fun s p => s.addParent p (dom p)) s) := by
    intro adds
    induction adds with
    | nil => intro s h1 h2; exact ⟨by simp, h1, h2⟩
    | cons p adds ih =>
      intro s h1 h2
      obtain ⟨a1, a2, a3⟩ := addParent_correct h1 h2 p
      obtain ⟨b1, b2, b3⟩ := ih _ a1 a2
      refine ⟨fun q => ?_, b2, b3⟩
      rw [List.foldl_cons, b1, a3, List.mem_cons, or_assoc]
  obtain ⟨h1, h2, h3⟩ := key adds _ List.Pairwise.nil (empty_combs dom d)
  exact ⟨fun q => by rw [h1]; simp, h2, h3⟩

example : (([5, 3].foldl (fun s p => s.addParent p 2) ({ dim := 2 } : NodeS)).combs) =
    [[(3, 0), (5, 0)], [(3, 0), (5, 1)], [(3, 1), (5, 0)], [(3, 1), (5, 1)]] := by decide

/-- C20, removal, exact: after removing a parent with at least one value the recorded configurations are those of the remaining
parents and, if the removed parent had two or more values, also all old configurations (which still mention it). -/
theorem C20_removal_exact {dom : Nat → Nat} {s : NodeS} (hs : s.parents.Pairwise (· < ·)) (hc : CombsCorrect dom s) {p : Nat}
    (hp : p ∈ s.parents) (hd : 0 < dom p) (c : Config) :
    c ∈ (s.removeParent p (dom p)).combs ↔
      IsParentConfig dom (s.parents.erase p) c ∨ (2 ≤ dom p ∧ IsParentConfig dom s.parents c) := by
  unfold NodeS.removeParent
  rw [if_pos hp]
  show c ∈ shrinkCombs p (dom p) s.combs ↔ _
  rw [(shrinkCombs_spec p (dom p) s.combs).2]
  constructor
  · rintro ⟨i, hi, c0, hc0, rfl⟩
    obtain ⟨e1, e2⟩ := (hc.2 c0).1 hc0
    by_cases hm : (p, i) ∈ c0
    · refine Or.inl ⟨?_, fun x hx => e2 x (List.mem_of_mem_erase hx)⟩
      rw [erase_fst (by rw [e1]; exact nodup_of_sorted hs) hm, e1]
    · rw [List.erase_of_not_mem hm]
      refine Or.inr ⟨?_, e1, e2⟩
      obtain ⟨⟨p', j⟩, hx, rfl⟩ := List.mem_map.1 (show p ∈ c0.map Prod.fst by rw [e1]; exact hp)
      have hj := e2 _ hx
      have hne : j ≠ i := by rintro rfl; exact hm hx
      show 2 ≤ dom p'
      simp only at hj hi
      omega
  · rintro (⟨e1, e2⟩ | ⟨h2, e1, e2⟩)
    · have hnp : p ∉ c.map Prod.fst := by
        rw [e1]
        exact fun h => (List.Nodup.mem_erase_iff (nodup_of_sorted hs)).1 h |>.1 rfl
      refine ⟨0, hd, configInsert (p, 0) c, (hc.2 _).2 ⟨?_, ?_⟩, (erase_configInsert hnp).symm⟩
      · rw [configInsert_fst hnp, e1, setInsert_erase hs hp]
      · intro x hx
        rcases mem_configInsert'.1 hx with rfl | hx
        · exact hd
        · exact e2 x hx
    · obtain ⟨⟨p', j⟩, hx, rfl⟩ := List.mem_map.1 (show p ∈ c.map Prod.fst by rw [e1]; exact hp)
      have hnd : (c.map Prod.fst).Nodup := by rw [e1]; exact nodup_of_sorted hs
      have huniq : ∀ i, i ≠ j → (p', i) ∉ c := by
        intro i hi hm
        have := List.inj_on_of_nodup_map hnd hm hx rfl
        simp at this
        exact hi this
      simp only at h2 hd ⊢
      by_cases hj : j = 0
      · exact ⟨1, by omega, c, (hc.2 c).2 ⟨e1, e2⟩, (List.erase_of_not_mem (huniq 1 (by omega))).symm⟩
      · exact ⟨0, by omega, c, (hc.2 c).2 ⟨e1, e2⟩, (List.erase_of_not_mem (huniq 0 (by omega))).symm⟩

/-- C20, removal, the part that holds: a parent with exactly one value.  Missing: every other parent, where the property is false
(`C20_removal_wrong`). -/
theorem C20_removal_partial {dom : Nat → Nat} {s : NodeS} (hs : s.parents.Pairwise (· < ·)) (hc : CombsCorrect dom s) {p : Nat}
    (hp : p ∈ s.parents) (hd : dom p = 1) :
    (s.removeParent p (dom p)).parents = s.parents.erase p ∧ CombsCorrect dom (s.removeParent p (dom p)) := by
  have hpar : (s.removeParent p (dom p)).parents = s.parents.erase p := by unfold NodeS.removeParent; rw [if_pos hp]
  refine ⟨hpar, ?_, fun c => ?_⟩
  · unfold NodeS.removeParent
    rw [if_pos hp]
    exact (shrinkCombs_spec p (dom p) s.combs).1
  · rw [C20_removal_exact hs hc hp (by omega), hpar]
    constructor
    · rintro (h | ⟨h, _⟩)
      · exact h
      · omega
    · exact Or.inl

example : ∃ s : NodeS, s = ([5, 3].foldl (fun s p => s.addParent p (if p = 5 then 1 else 2)) ({ dim := 2 } : NodeS)) ∧
    5 ∈ s.parents ∧ (s.removeParent 5 1).combs = [[(3, 0)], [(3, 1)]] := ⟨_, rfl, by decide, by decide⟩

/-- Finding: removing a parent with two or more values never restores the configurations, whenever there is a configuration at all
(every parent has a value). -/
theorem C20_removal_wrong {dom : Nat → Nat} {s : NodeS} (hs : s.parents.Pairwise (· < ·)) (hc : CombsCorrect dom s) {p : Nat}
    (hp : p ∈ s.parents) (hd : 2 ≤ dom p) (hall : ∀ q ∈ s.parents, 0 < dom q) :
    ¬ CombsCorrect dom (s.removeParent p (dom p)) := by
  rintro ⟨_, h⟩
  have hpar : (s.removeParent p (dom p)).parents = s.parents.erase p := by unfold NodeS.removeParent; rw [if_pos hp]
  have hcfg : IsParentConfig dom s.parents (s.parents.map (fun q => (q, 0))) := by
    refine ⟨by rw [List.map_map]; exact List.map_id _, fun x hx => ?_⟩
    obtain ⟨q, hq, rfl⟩ := List.mem_map.1 hx
    exact hall q hq
  have h1 := (h _).1 ((C20_removal_exact hs hc hp (by omega) _).2 (Or.inr ⟨hd, hcfg⟩))
  rw [hpar] at h1
  have h2 := hcfg.1.symm.trans h1.1
  have : p ∈ s.parents.erase p := h2 ▸ hp
  exact ((List.Nodup.mem_erase_iff (nodup_of_sorted hs)).1 this).1 rfl

/-- Finding, at the level of the network: a rejected `AddDirectedEdge` leaves wrong configurations behind.  In `0 → 1` the call
`AddDirectedEdge(1, 0)` is rejected, and then node 0 without parents has three configurations. -/
theorem C20_rejected_add_wrong : ∃ N, (Net.empty [2, 2]).run [.addDirected 0 1, .addDirected 1 0] = .ok N ∧
    N.nodes[0]?.map (fun s => (s.parents, s.combs)) = some ([], [[], [(1, 1)], [(1, 0)]]) ∧
    ∀ s, N.nodes[0]? = some s → ¬ CombsCorrect (fun _ => 2) s := by
  have h0 : ∀ N : Net, N.nodes[0]?.map (fun s => (s.parents, s.combs)) = some ([], [[], [(1, 1)], [(1, 0)]]) →
      ∀ s, N.nodes[0]? = some s → ¬ CombsCorrect (fun _ => 2) s := by
    intro N hN s hs h
    rw [hs, Option.map_some, Option.some.injEq, Prod.mk.injEq] at hN
    have h1 := (h.2 [(1, 1)]).1 (by rw [hN.2]; simp)
    rw [hN.1] at h1
    exact absurd h1.1 (by simp)
  exact ⟨_, rfl, by decide, h0 _ (by decide)⟩

/-- The domain sizes and the configurations of all nodes are right. -/
structure CombsInv (dom : Nat → Nat) (N : Net) : Prop where
  dims : ∀ i, ∀ h : i < N.nodes.length, N.nodes[i].dim = dom i
  sorted : ∀ i, ∀ h : i < N.nodes.length, N.nodes[i].parents.Pairwise (· < ·)
  combs : ∀ i, ∀ h : i < N.nodes.length, CombsCorrect dom N.nodes[i]

theorem addParent_dim (s : NodeS) (p d : Nat) : (s.addParent p d).dim = s.dim := by
  unfold NodeS.addParent; split <;> rfl

theorem CombsInv.set {dom : Nat → Nat} {N : Net} (h : CombsInv dom N) {i : Nat} {s : NodeS} (h1 : s.dim = dom i)
    (h2 : s.parents.Pairwise (· < ·)) (h3 : CombsCorrect dom s) : CombsInv dom { N with nodes := N.nodes.set i s } := by
  refine ⟨fun j hj => ?_, fun j hj => ?_, fun j hj => ?_⟩
  · simp only [List.length_set] at hj
    simp only [List.getElem_set]
    split
    · rename_i e; subst e; exact h1
    · exact h.dims _ _
  · simp only [List.length_set] at hj
    simp only [List.getElem_set]
    split
    · exact h2
    · exact h.sorted _ _
  · simp only [List.length_set] at hj
    simp only [List.getElem_set]
    split
    · exact h3
    · exact h.combs _ _

theorem setParentChild_combs {dom : Nat → Nat} {N N1 : Net} (h : CombsInv dom N) {p c : Nat} (hp : p < N.nodes.length)
    (hc : c < N.nodes.length) (h1 : N.setParentChild p c = .ok N1) : CombsInv dom N1 := by
  have hstep : CombsInv dom { N with nodes := N.nodes.set p (N.nodes[p].addChild c) } :=
    h.set (h.dims p hp) (h.sorted p hp) (h.combs p hp)
  unfold Net.setParentChild at h1
  rw [find_ok hp, ok_bind] at h1
  simp only at h1
  have hc' : c < ({ N with nodes := N.nodes.set p (N.nodes[p].addChild c) } : Net).nodes.length := by simpa using hc
  rw [find_ok hc', ok_bind] at h1
  cases h1
  rw [h.dims p hp]
  obtain ⟨a1, a2, _⟩ := addParent_correct (hstep.sorted c hc') (hstep.combs c hc') p
  exact hstep.set (by rw [addParent_dim]; exact hstep.dims c hc') a1 a2

/-- C20 at the level of the network: after a history without deletions of directed edges and without rejected additions every node
records exactly the assignments of its parents.  (Undirected edges may be added and deleted.)  Missing: histories with a rejected
addition or a deletion, where the property is false. -/
theorem C20_network_partial {dims : List Nat} {ops : List EdgeOp} (hops : ∀ op ∈ ops, OpInRange dims.length op)
    (hacc : AcceptedRun (Net.empty dims) ops) :
    ∃ N, (Net.empty dims).run ops = .ok N ∧
      ∀ (i : Nat) s, N.nodes[i]? = some s → CombsCorrect (fun j => dims.getD j 0) s := by
  have key : ∀ (ops : List EdgeOp) (N : Net), NetInv N → CombsInv (fun j => dims.getD j 0) N →
      (∀ op ∈ ops, OpInRange N.nodes.length op) → AcceptedRun N ops →
      ∃ N', N.run ops = .ok N' ∧ CombsInv (fun j => dims.getD j 0) N' := by
    intro ops
    induction ops with
    | nil => intro N _ h _ _; exact ⟨N, rfl, h⟩
    | cons op ops ih =>
      intro N hN h hr ha
      obtain ⟨N1, e1, e2, e3⟩ := apply_inv hN (hr op (by simp))
      have hr0 := hr op (by simp)
      have hcomb : CombsInv (fun j => dims.getD j 0) N1 := by
        cases op with
        | addDirected p c =>
          obtain ⟨N', hN'⟩ := ha.1 p c rfl
          simp only [Net.apply, hN', ok_bind, pure_eq_ok, Except.ok.injEq] at e1
          subst e1
          obtain ⟨N2, f1, f2, _⟩ := setParentChild_spec hN.wf hr0.1 hr0.2
          unfold Net.addDirectedEdge at hN'
          rw [find_ok hr0.1, ok_bind, find_ok hr0.2, ok_bind, f1, ok_bind] at hN'
          obtain ⟨b, hb, _⟩ := containCircle_eq f2
          rw [hb, ok_bind] at hN'
          cases b with
          | true =>
            rw [if_pos rfl] at hN'
            cases hh : N2.removeParentChild p c with
            | error e => rw [hh] at hN'; cases hN'
            | ok N3 => rw [hh, ok_bind] at hN'; cases hN'
          | false =>
            rw [if_neg (by simp)] at hN'
            cases hN'
            have := setParentChild_combs h hr0.1 hr0.2 f1
            exact ⟨this.1, this.2, this.3⟩
        | deleteDirected p c => exact absurd rfl (ha.2.1 p c)
        | addUndirected p c =>
          simp only [Net.apply, Net.addUndirectedEdge, find_ok hr0.1, find_ok hr0.2, ok_bind, pure_eq_ok,
            Except.ok.injEq] at e1
          subst e1
          exact ⟨h.1, h.2, h.3⟩
        | deleteUndirected p c =>
          obtain ⟨N', b, h1, h2⟩ := deleteUndirectedEdge_spec (N := N) hr0.1 hr0.2
          simp only [Net.apply, h1, ok_bind, pure_eq_ok, Except.ok.injEq] at e1
          subst e1
          rcases h2 with ⟨_, _, rfl⟩ | ⟨_, _, _, rfl⟩
          · exact h
          · exact ⟨h.1, h.2, h.3⟩
      obtain ⟨N2, h4, h5⟩ := ih N1 e2 hcomb (fun o ho => by rw [e3]; exact hr o (by simp [ho])) (ha.2.2 N1 e1)
      refine ⟨N2, ?_, h5⟩
      unfold Net.run
      rw [List.foldlM_cons, e1, ok_bind]
      exact h4
  have hk := key ops _ (empty_inv dims) ?_ (by simpa [Net.empty] using hops) hacc
  · obtain ⟨N, h1, h2⟩ := hk
    refine ⟨N, h1, fun i s hs => ?_⟩
    obtain ⟨hi, rfl⟩ := List.getElem?_eq_some_iff.1 hs
    exact h2.combs i hi
  · refine ⟨fun i hi => ?_, fun i hi => ?_, fun i hi => ?_⟩
    · simp [Net.empty] at hi ⊢
      simp [hi]
    · simp [Net.empty]
    · simp only [Net.empty, List.getElem_map]
      exact empty_combs _ _

/-- The hypothesis is met by the history that builds the v-structure `0 → 2 ← 1`. -/
example : AcceptedRun (Net.empty [2, 3, 2]) [.addDirected 0 2, .addUndirected 0 1, .addDirected 1 2] := by
  refine ⟨fun p c h => ?_, by intros; simp, fun N' h => ?_⟩
  · cases h; exact ⟨_, rfl⟩
  cases h
  refine ⟨fun p c h => ?_, by intros; simp, fun N' h => ?_⟩
  · cases h
  cases h
  refine ⟨fun p c h => ?_, by intros; simp, fun N' h => ?_⟩
  · cases h; exact ⟨_, rfl⟩
  trivial

end FastPGM
