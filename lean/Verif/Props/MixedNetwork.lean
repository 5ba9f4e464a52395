import Verif.Lemmas.MixedNetwork
import Verif.Lemmas.NetDims

/-!
Networks that contain continuous nodes (C94).
-/

namespace FastPGM

open Spec

variable {kinds : List (Option Nat)}

/-- The kinds as flags. -/
def flags (kinds : List (Option Nat)) : List Bool := kinds.map Option.isNone

theorem contAt_flags {i : Nat} : contAt (flags kinds) i = true ↔ IsCont kinds i := by
  unfold contAt flags IsCont
  rw [List.getD_eq_getElem?_getD, List.getElem?_map]
  cases h : kinds[i]? with
  | none => simp
  | some k => cases k <;> simp

theorem contAt_flags_false {i : Nat} : contAt (flags kinds) i = false ↔ ¬ IsCont kinds i := by
  rw [← contAt_flags]; simp

theorem mparent_iff {M : MNet} {p c : Nat} : MParent M p c ↔ ParentOf M.toNet p c := by
  unfold MParent ParentOf MNet.toNet
  simp only [List.getElem?_map]
  cases M.nodes[c]? <;> simp

theorem mchild_iff {M : MNet} {p c : Nat} : MChild M p c ↔ ChildOf M.toNet p c := by
  unfold MChild ChildOf MNet.toNet
  simp only [List.getElem?_map]
  cases M.nodes[p]? <;> simp

/-- Invariant of the histories. -/
structure MInv (kinds : List (Option Nat)) (M : MNet) : Prop where
  kinds : KindsOk (flags kinds) M
  edges : EdgeInv M.toNet

theorem MInv.length {M : MNet} (h : MInv kinds M) : M.nodes.length = kinds.length := by
  rw [h.kinds.length]; simp [flags]

theorem minv_new : MInv kinds (MNet.ofNodes (kinds.map MNode.new)) := by
  have hch : ∀ i, (MNet.ofNodes (kinds.map MNode.new)).toNet.ch i = [] := by
    intro i
    unfold Net.ch MNet.toNet MNet.ofNodes
    simp only [List.getElem?_map]
    cases kinds[i]? with
    | none => rfl
    | some k => cases k <;> rfl
  have hpa : ∀ i, (MNet.ofNodes (kinds.map MNode.new)).toNet.pa i = [] := by
    intro i
    unfold Net.pa MNet.toNet MNet.ofNodes
    simp only [List.getElem?_map]
    cases kinds[i]? with
    | none => rfl
    | some k => cases k <;> rfl
  refine ⟨⟨?_, ?_⟩, ⟨⟨⟨fun i => by simp [hch], fun i => by simp [hpa], fun i => by simp [hch], fun p c => by simp [hch, hpa]⟩, ?_⟩, ?_, ?_⟩⟩
  · simp only [MNet.ofNodes, flags, List.map_map]
    apply List.map_congr_left
    intro k _
    cases k <;> rfl
  · intro n hn
    simp only [MNet.ofNodes, List.mem_map] at hn
    obtain ⟨k, _, rfl⟩ := hn
    cases k <;> exact ⟨List.Pairwise.nil, fun _ p hp => (by cases hp), List.nodup_nil, fun p => by simp [MNode.new], List.nodup_nil,
      fun p => by simp [MNode.new]⟩
  · rintro ⟨i, hi⟩
    have : ∀ a b, ¬ Relation.TransGen (ChildOf (MNet.ofNodes (kinds.map MNode.new)).toNet) a b := by
      intro a b hab
      induction hab with
      | single h => rw [childOf_iff, hch] at h; simp at h
      | tail _ _ ih => exact ih
    exact this i i hi
  · exact List.nodup_nil
  · intro p c
    rw [hch]
    simp [MNet.toNet, MNet.ofNodes, dirPairs]

theorem MInv.listed_parent {M : MNet} (h : MInv kinds M) {p c : Nat} : MListed M p c ↔ MParent M p c := by
  have h1 : MListed M p c ↔ Listed M.toNet p c := Iff.rfl
  rw [h1, listed_iff, h.edges.mem, h.edges.inv.wf.sym, mparent_iff, parentOf_iff]

/-- A forbidden edge ends the program. -/
theorem MInv.forbidden {M : MNet} (h : MInv kinds M) {op : EdgeOp} (hop : OpInRange kinds.length op) (hf : Forbidden kinds op) :
    M.apply op = .error .exit := by
  cases op with
  | addDirected p c =>
    obtain ⟨h1, h2⟩ := hf
    have hp : p < M.nodes.length := by rw [h.length]; exact hop.1
    have hc : c < M.nodes.length := by rw [h.length]; exact hop.2
    have k1 : M.nodes[p].cont = true := by rw [← h.kinds.contAt hp]; exact contAt_flags.2 h1
    have k2 : M.nodes[c].cont = false := by rw [← h.kinds.contAt hc]; exact contAt_flags_false.2 h2
    have : M.setParentChild p c = .error .exit := by
      unfold MNet.setParentChild
      rw [mfind_ok hp, ok_bind, mfind_ok hc, ok_bind]
      unfold MNode.addChild
      rw [if_pos (by simp [k1, k2])]
      rfl
    simp only [MNet.apply, MNet.addDirectedEdge, mfind_ok hp, mfind_ok hc, ok_bind, this]
    rfl
  | deleteDirected p c => exact absurd hf id
  | addUndirected p c => exact absurd hf id
  | deleteUndirected p c => exact absurd hf id

/-- The refinement: what the operation does to the graph is what it does in a network of discrete nodes. -/
theorem MInv.refines {M : MNet} (h : MInv kinds M) {op : EdgeOp} (hop : OpInRange kinds.length op) (hf : ¬ Forbidden kinds op) :
    ∃ M' N', M.apply op = .ok M' ∧ M.toNet.apply op = .ok N' ∧ KindsOk (flags kinds) M' ∧ SameGraph M'.toNet N' := by
  cases op with
  | addDirected p c =>
    obtain ⟨M', N', b, h1, h2, h3, h4⟩ := maddDirectedEdge h.kinds h.edges.inv.wf (p := p) (c := c) (by rw [h.length]; exact hop.1)
      (by rw [h.length]; exact hop.2) (by rw [contAt_flags, contAt_flags_false]; exact hf)
    exact ⟨M', N', by simp [MNet.apply, h1, ok_bind, pure_eq_ok], by simp [Net.apply, h2, ok_bind, pure_eq_ok], h3, h4⟩
  | deleteDirected p c =>
    have hc : c < M.nodes.length := by rw [h.length]; exact hop.2
    obtain ⟨M', N', b, h1, h2, h3, h4⟩ := mdeleteDirectedEdge h.kinds (p := p) (c := c) (by rw [h.length]; exact hop.1) hc (fun hl _ _ => by
      obtain ⟨n, hn, hp⟩ := h.listed_parent.1 hl
      rw [List.getElem?_eq_getElem hc] at hn
      cases hn
      exact hp)
    exact ⟨M', N', by simp [MNet.apply, h1, ok_bind, pure_eq_ok], by simp [Net.apply, h2, ok_bind, pure_eq_ok], h3, h4⟩
  | addUndirected p c =>
    have hp : p < M.nodes.length := by rw [h.length]; exact hop.1
    have hc : c < M.nodes.length := by rw [h.length]; exact hop.2
    refine ⟨{ M with edges := M.edges ++ [mkUndirected p c] }, { M.toNet with edges := M.edges ++ [mkUndirected p c] }, ?_, ?_, h.kinds.withEdges _, rfl, rfl⟩
    · simp [MNet.apply, MNet.addUndirectedEdge, mfind_ok hp, mfind_ok hc, ok_bind, pure_eq_ok]
    · have he : M.toNet.edges = M.edges := rfl
      simp [Net.apply, Net.addUndirectedEdge, find_ok (N := M.toNet) (by rw [toNet_length]; exact hp),
        find_ok (N := M.toNet) (by rw [toNet_length]; exact hc), ok_bind, pure_eq_ok, he]
  | deleteUndirected p c =>
    obtain ⟨M', N', b, h1, h2, h3, h4⟩ := mdeleteUndirectedEdge h.kinds (p := p) (c := c) (by rw [h.length]; exact hop.1)
      (by rw [h.length]; exact hop.2)
    exact ⟨M', N', by simp [MNet.apply, h1, ok_bind, pure_eq_ok], by simp [Net.apply, h2, ok_bind, pure_eq_ok], h3, h4⟩

theorem MInv.step {M : MNet} (h : MInv kinds M) {op : EdgeOp} (hop : OpInRange kinds.length op) (hf : ¬ Forbidden kinds op)
    (hfresh : ∀ p c, op = .addDirected p c → ¬ MParent M p c) : ∃ M', M.apply op = .ok M' ∧ MInv kinds M' := by
  obtain ⟨M', N', h1, h2, h3, h4⟩ := h.refines hop hf
  have hfr : Fresh M.toNet op := by
    cases op with
    | addDirected p c => exact fun hp => hfresh p c rfl (mparent_iff.2 hp)
    | _ => trivial
  obtain ⟨N'', e1, e2, _⟩ := edgeInv_apply h.edges (op := op) (by rw [toNet_length, h.length]; exact hop) hfr
  rw [h2] at e1
  cases e1
  exact ⟨M', h1, h3, h4.symm.edgeInv e2⟩

theorem MInv.run {ops : List EdgeOp} : ∀ {M : MNet}, MInv kinds M → (∀ op ∈ ops, OpInRange kinds.length op) → MFreshRun M ops →
    (¬ (∃ op ∈ ops, Forbidden kinds op) → ∃ M', M.run ops = .ok M' ∧ MInv kinds M') ∧
    ((∃ op ∈ ops, Forbidden kinds op) → M.run ops = .error .exit) := by
  induction ops with
  | nil => exact fun h _ _ => ⟨fun _ => ⟨_, rfl, h⟩, by simp⟩
  | cons op ops ih =>
    intro M h hop hfr
    unfold MNet.run
    rw [List.foldlM_cons]
    by_cases hf : Forbidden kinds op
    · rw [h.forbidden (hop op (by simp)) hf]
      exact ⟨fun hn => absurd ⟨op, by simp, hf⟩ hn, fun _ => rfl⟩
    · obtain ⟨M1, h1, h2⟩ := h.step (hop op (by simp)) hf hfr.1
      rw [h1, ok_bind]
      obtain ⟨i1, i2⟩ := ih h2 (fun o ho => hop o (by simp [ho])) (hfr.2 M1 h1)
      refine ⟨fun hn => i1 (fun ⟨o, ho, hh⟩ => hn ⟨o, by simp [ho], hh⟩), ?_⟩
      rintro ⟨o, ho, hh⟩
      rcases List.mem_cons.1 ho with rfl | ho
      · exact absurd hh hf
      · exact i2 ⟨o, ho, hh⟩

/-- C94.  A history of edge operations with legal indices that adds no edge twice ends the program exactly if it adds an edge from a continuous
to a discrete node.  Otherwise the network stays acyclic, the three records of the edges agree, no discrete node has a continuous parent, and
every node lists each of its continuous and each of its discrete parents exactly once. -/
theorem C94_history {ops : List EdgeOp} (hops : ∀ op ∈ ops, OpInRange kinds.length op)
    (hfresh : MFreshRun (MNet.ofNodes (kinds.map MNode.new)) ops) :
    ((∃ op ∈ ops, Forbidden kinds op) → (MNet.ofNodes (kinds.map MNode.new)).run ops = .error .exit) ∧
    (¬ (∃ op ∈ ops, Forbidden kinds op) → ∃ M, (MNet.ofNodes (kinds.map MNode.new)).run ops = .ok M ∧ M.nodes.length = kinds.length ∧
      ¬ Cyclic (MParent M) ∧ (∀ p c, (MParent M p c ↔ MChild M p c) ∧ (MParent M p c ↔ MListed M p c)) ∧
      (∀ p c, MParent M p c → IsCont kinds p → IsCont kinds c) ∧
      ∀ c n, M.nodes[c]? = some n → n.contParents.Nodup ∧ n.base.discParents.Nodup ∧
        (∀ p, p ∈ n.contParents ↔ MParent M p c ∧ IsCont kinds p) ∧ (∀ p, p ∈ n.base.discParents ↔ MParent M p c ∧ ¬ IsCont kinds p)) := by
  obtain ⟨h1, h2⟩ := (minv_new (kinds := kinds)).run hops hfresh
  refine ⟨h2, fun hn => ?_⟩
  obtain ⟨M, e, h⟩ := h1 hn
  have hpc : ∀ p c, MParent M p c ↔ MChild M p c := fun p c => by
    rw [mparent_iff, mchild_iff, parentOf_iff_childOf h.edges.inv.wf]
  refine ⟨M, e, h.length, ?_, fun p c => ⟨hpc p c, h.listed_parent.symm⟩, ?_, ?_⟩
  · intro hc
    exact h.edges.inv.acyclic ((cyclic_congr (fun a b => by rw [hpc, mchild_iff])).1 hc)
  · rintro p c ⟨n, hn, hp⟩ hcont
    obtain ⟨hi, hget⟩ := List.getElem?_eq_some_iff.1 hn
    have hok := h.kinds.ok n (List.mem_of_getElem? hn)
    rw [← contAt_flags, h.kinds.contAt hi, hget]
    cases hk : n.cont with
    | true => rfl
    | false =>
      have := hok.kinds hk p hp
      rw [contAt_flags.2 hcont] at this
      exact this.symm
  · intro c n hn
    have hok := h.kinds.ok n (List.mem_of_getElem? hn)
    have hm : ∀ p, MParent M p c ↔ p ∈ n.base.parents := by
      intro p
      unfold MParent
      rw [hn]
      simp
    refine ⟨hok.cnodup, hok.dnodup, fun p => ?_, fun p => ?_⟩
    · rw [hok.cmem, hm, contAt_flags]
    · rw [hok.dmem, hm, contAt_flags_false]

/-- C94.  What one more `AddDirectedEdge` does after such a history: an edge from a continuous to a discrete node ends the program; any other
call returns true exactly when the new edge closes no cycle, and then adds exactly this edge; a rejected call changes no edge. -/
theorem C94_addDirectedEdge {ops : List EdgeOp} (hops : ∀ op ∈ ops, OpInRange kinds.length op)
    (hfresh : MFreshRun (MNet.ofNodes (kinds.map MNode.new)) ops) {M : MNet} (hM : (MNet.ofNodes (kinds.map MNode.new)).run ops = .ok M)
    {p c : Nat} (hp : p < kinds.length) (hc : c < kinds.length) :
    ((IsCont kinds p ∧ ¬ IsCont kinds c) → M.addDirectedEdge p c = .error .exit) ∧
    (¬ (IsCont kinds p ∧ ¬ IsCont kinds c) → ∃ M' b, M.addDirectedEdge p c = .ok (M', b) ∧
      (b = true ↔ ¬ Cyclic (fun x y => MParent M x y ∨ (x = p ∧ y = c))) ∧
      (b = false → (∀ x y, MParent M' x y ↔ MParent M x y) ∧ M'.edges = M.edges) ∧
      (b = true → (∀ x y, MParent M' x y ↔ MParent M x y ∨ (x = p ∧ y = c)) ∧ M'.edges = M.edges ++ [{ node1 := p, node2 := c, end1 := .tail, end2 := .arrow }])) := by
  obtain ⟨h1, h2⟩ := (minv_new (kinds := kinds)).run hops hfresh
  by_cases hfb : ∃ op ∈ ops, Forbidden kinds op
  · rw [h2 hfb] at hM
    cases hM
  obtain ⟨M0, e, h⟩ := h1 hfb
  rw [hM] at e
  cases e
  refine ⟨fun hh => ?_, fun hh => ?_⟩
  · have := h.forbidden (op := .addDirected p c) ⟨hp, hc⟩ hh
    cases hr : M.addDirectedEdge p c with
    | error f =>
      simp only [MNet.apply, hr] at this
      cases this
      rfl
    | ok r =>
      simp only [MNet.apply, hr] at this
      cases this
  · obtain ⟨M', N', b, a1, a2, a3, a4⟩ := maddDirectedEdge h.kinds h.edges.inv.wf (p := p) (c := c) (by rw [h.length]; exact hp)
      (by rw [h.length]; exact hc) (by rw [contAt_flags, contAt_flags_false]; exact hh)
    obtain ⟨N'', b', b1, b2, _, _, b5, b6, b7⟩ := addDirectedEdge_spec h.edges.inv (p := p) (c := c) (by rw [toNet_length, h.length]; exact hp)
      (by rw [toNet_length, h.length]; exact hc)
    rw [a2] at b1
    cases b1
    have hw : NetWF M'.toNet := a4.symm.wf b2.wf
    have hr : ∀ x y, MParent M x y ↔ y ∈ M.toNet.ch x := fun x y => by
      rw [mparent_iff, parentOf_iff, h.edges.inv.wf.sym]
    have hr' : ∀ x y, MParent M' x y ↔ y ∈ N'.ch x := fun x y => by
      rw [mparent_iff, parentOf_iff, ← hw.sym, a4.ch]
    have hedge : M'.edges = N'.edges := a4.edges
    refine ⟨M', b, a1, ?_, fun hb => ?_, fun hb => ?_⟩
    · rw [b5]
      refine not_congr (cyclic_congr fun x y => ?_)
      rw [withEdge, hr, childOf_iff]
    · obtain ⟨c1, c2⟩ := b6 hb
      exact ⟨fun x y => by rw [hr, hr', c1], hedge.trans c2⟩
    · obtain ⟨c1, c2⟩ := b7 hb
      exact ⟨fun x y => by rw [hr, hr', c1], hedge.trans c2⟩

/-- The operations leave the cached order and the flag `pure_discrete` alone. -/
theorem mframe {M M' : MNet} {op : EdgeOp} (h : M.apply op = .ok M') : M'.topo = M.topo ∧ M'.pureDiscrete = M.pureDiscrete := by
  have hs : ∀ {M M' : MNet} {p c : Nat}, M.setParentChild p c = .ok M' → M'.topo = M.topo ∧ M'.pureDiscrete = M.pureDiscrete := by
    intro M M' p c h
    unfold MNet.setParentChild at h
    obtain ⟨_, _, h⟩ := bind_eq_ok h
    obtain ⟨_, _, h⟩ := bind_eq_ok h
    obtain ⟨_, _, h⟩ := bind_eq_ok h
    obtain ⟨_, _, h⟩ := bind_eq_ok h
    obtain ⟨_, _, h⟩ := bind_eq_ok h
    cases h
    exact ⟨rfl, rfl⟩
  have hr : ∀ {M M' : MNet} {p c : Nat}, M.removeParentChild p c = .ok M' → M'.topo = M.topo ∧ M'.pureDiscrete = M.pureDiscrete := by
    intro M M' p c h
    unfold MNet.removeParentChild at h
    obtain ⟨_, _, h⟩ := bind_eq_ok h
    obtain ⟨_, _, h⟩ := bind_eq_ok h
    obtain ⟨_, _, h⟩ := bind_eq_ok h
    cases h
    exact ⟨rfl, rfl⟩
  cases op with
  | addDirected p c =>
    obtain ⟨r, h1, h2⟩ := bind_eq_ok h
    cases h2
    unfold MNet.addDirectedEdge at h1
    obtain ⟨_, _, h1⟩ := bind_eq_ok h1
    obtain ⟨_, _, h1⟩ := bind_eq_ok h1
    obtain ⟨M1, e1, h1⟩ := bind_eq_ok h1
    obtain ⟨b, _, h1⟩ := bind_eq_ok h1
    cases b with
    | true =>
      rw [if_pos rfl] at h1
      obtain ⟨M2, e2, h1⟩ := bind_eq_ok h1
      cases h1
      exact ⟨(hr e2).1.trans (hs e1).1, (hr e2).2.trans (hs e1).2⟩
    | false =>
      rw [if_neg (by simp)] at h1
      cases h1
      exact ⟨(hs e1).1, (hs e1).2⟩
  | deleteDirected p c =>
    obtain ⟨r, h1, h2⟩ := bind_eq_ok h
    cases h2
    unfold MNet.deleteDirectedEdge at h1
    obtain ⟨_, _, h1⟩ := bind_eq_ok h1
    obtain ⟨_, _, h1⟩ := bind_eq_ok h1
    cases hf : findEdge M.edges (mkDirected p c) with
    | none =>
      simp only [hf] at h1
      cases h1
      exact ⟨rfl, rfl⟩
    | some pos =>
      simp only [hf] at h1
      obtain ⟨M1, e1, h1⟩ := bind_eq_ok h1
      cases h1
      exact ⟨(hr e1).1, (hr e1).2⟩
  | addUndirected p c =>
    unfold MNet.apply MNet.addUndirectedEdge at h
    obtain ⟨_, _, h⟩ := bind_eq_ok h
    obtain ⟨_, _, h⟩ := bind_eq_ok h
    cases h
    exact ⟨rfl, rfl⟩
  | deleteUndirected p c =>
    obtain ⟨r, h1, h2⟩ := bind_eq_ok h
    cases h2
    unfold MNet.deleteUndirectedEdge at h1
    simp only at h1
    obtain ⟨_, _, h1⟩ := bind_eq_ok h1
    obtain ⟨_, _, h1⟩ := bind_eq_ok h1
    split at h1
    · cases h1
      exact ⟨rfl, rfl⟩
    · cases h1
      exact ⟨rfl, rfl⟩

theorem mframe_run {ops : List EdgeOp} : ∀ {M M' : MNet}, M.run ops = .ok M' → M'.topo = M.topo ∧ M'.pureDiscrete = M.pureDiscrete := by
  induction ops with
  | nil => intro M M' h; cases h; exact ⟨rfl, rfl⟩
  | cons op ops ih =>
    intro M M' h
    unfold MNet.run at h
    rw [List.foldlM_cons] at h
    obtain ⟨M1, h1, h2⟩ := bind_eq_ok h
    exact ⟨(ih h2).1.trans (mframe h1).1, (ih h2).2.trans (mframe h1).2⟩

/-- C94.  The first `GetTopoOrd` after a history: a topological order if all nodes are discrete. -/
theorem C94_topo_discrete {ops : List EdgeOp} (hops : ∀ op ∈ ops, OpInRange kinds.length op)
    (hfresh : MFreshRun (MNet.ofNodes (kinds.map MNode.new)) ops) {M : MNet} (hM : (MNet.ofNodes (kinds.map MNode.new)).run ops = .ok M)
    (hd : ∀ i, ¬ IsCont kinds i) :
    ∃ order, M.getTopoOrd = .ok (order, { M with topo := order }) ∧ IsTopologicalOrder kinds.length (MParent M) order := by
  obtain ⟨h1, h2⟩ := (minv_new (kinds := kinds)).run hops hfresh
  by_cases hfb : ∃ op ∈ ops, Forbidden kinds op
  · rw [h2 hfb] at hM
    cases hM
  obtain ⟨M0, e, h⟩ := h1 hfb
  rw [hM] at e
  cases e
  obtain ⟨f1, f2⟩ := mframe_run hM
  have hpd : M.pureDiscrete = true := by
    rw [f2]
    simp only [MNet.ofNodes, List.all_eq_true, List.mem_map, forall_exists_index, and_imp, forall_apply_eq_imp_iff₂]
    intro k hk
    cases k with
    | none =>
      obtain ⟨i, hi, hget⟩ := List.mem_iff_getElem.1 hk
      exact absurd (List.getElem?_eq_some_iff.2 ⟨hi, hget⟩) (hd i)
    | some d => rfl
  obtain ⟨L, e1, e2⟩ := genTopoOrd_eq h.edges.inv.wf h.edges.inv.acyclic
  refine ⟨L, ?_, ?_⟩
  · unfold MNet.getTopoOrd
    rw [if_pos (show M.topo = [] from f1), hpd, if_pos rfl, e1, ok_bind]
    rfl
  · rw [toNet_length, h.length] at e2
    exact ⟨e2.1, e2.2.1, fun a b hab => e2.2.2 a b ((parentOf_iff_childOf h.edges.inv.wf).1 (mparent_iff.1 hab))⟩

/-- C94, finding: with a continuous node, `GetTopoOrd` always returns the empty order. -/
theorem C94_topo_mixed {ops : List EdgeOp} {M : MNet} (hM : (MNet.ofNodes (kinds.map MNode.new)).run ops = .ok M) {i : Nat} (hi : IsCont kinds i) :
    M.getTopoOrd = .ok ([], M) := by
  obtain ⟨f1, f2⟩ := mframe_run hM
  have hpd : M.pureDiscrete = false := by
    rw [f2]
    simp only [MNet.ofNodes, List.all_eq_false, List.mem_map]
    exact ⟨_, ⟨none, List.mem_of_getElem? hi, rfl⟩, by simp [MNode.new]⟩
  unfold MNet.getTopoOrd
  rw [if_pos (show M.topo = [] from f1), hpd]
  rfl

/-- C94, finding: adding an edge between continuous nodes twice and deleting it twice is undefined behaviour; between discrete nodes it is
not. -/
theorem C94_double_edge :
    (MNet.ofNodes ([none, none].map MNode.new)).run [.addDirected 0 1, .addDirected 0 1, .deleteDirected 0 1, .deleteDirected 0 1] = .error .ub ∧
    ∃ M, (MNet.ofNodes ([some 2, some 2].map MNode.new)).run [.addDirected 0 1, .addDirected 0 1, .deleteDirected 0 1, .deleteDirected 0 1] = .ok M :=
  ⟨by decide, _, rfl⟩

-- a network with two discrete and two continuous nodes: an accepted, a rejected and a deleted edge
example : (do
    let M ← (MNet.ofNodes ([some 2, some 3, none, none].map MNode.new)).run
      [.addDirected 0 1, .addDirected 1 2, .addDirected 2 3, .addDirected 3 2, .addDirected 0 3, .deleteDirected 0 1]
    return M.nodes.map (fun n : MNode => (n.base.parents, n.contParents, n.base.discParents))) =
    .ok [([], [], []), ([], [], []), ([1], [], [1]), ([0, 2], [2], [0])] := by decide

-- the history above adds no edge twice
example : MFreshRun (MNet.ofNodes ([some 2, some 3, none, none].map MNode.new)) [.addDirected 0 1, .addDirected 2 3, .deleteDirected 0 1] := by
  refine ⟨fun p c h => ?_, fun M' h' => ⟨fun p c h => ?_, fun M'' h'' => ⟨fun p c h => (by cases h), fun _ _ => trivial⟩⟩⟩
  · cases h
    rintro ⟨n, hn, hp⟩
    cases hn
    simp [MNode.new] at hp
  · cases h
    cases h'
    rintro ⟨n, hn, hp⟩
    cases hn
    revert hp
    decide

-- an edge from a continuous to a discrete node ends the program
example : (MNet.ofNodes ([some 2, none].map MNode.new)).run [.addDirected 1 0] = .error .exit := by decide

end FastPGM
