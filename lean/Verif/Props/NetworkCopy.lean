import Verif.Props.MixedNetwork

/-!
The copy constructor of `Network` (C95).
-/

namespace FastPGM

open Spec

theorem mcopy_nodes (M : MNet) : (List.range M.nodes.length).mapM (fun i => rdAt M.nodes i) = .ok M.nodes := by
  rw [mapM_ok (g := fun i => M.nodes.getD i (MNode.new none))]
  · congr 1
    apply List.ext_getElem
    · simp
    · intro i h1 h2
      simp [List.getD_eq_getElem?_getD, List.getElem?_eq_getElem h2]
  · intro i hi
    have hi : i < M.nodes.length := List.mem_range.1 hi
    simp [rdAt, hi, List.getD_eq_getElem?_getD]

theorem mgetTopoOrd_ok {kinds : List (Option Nat)} {M : MNet} (h : MInv kinds M) (ht : M.topo = []) :
    ∃ o, M.getTopoOrd = .ok (o, { M with topo := o }) := by
  unfold MNet.getTopoOrd
  rw [if_pos ht]
  cases hp : M.pureDiscrete with
  | true =>
    obtain ⟨L, e1, _⟩ := genTopoOrd_eq h.edges.inv.wf h.edges.inv.acyclic
    exact ⟨L, by rw [if_pos rfl, e1, ok_bind]; rfl⟩
  | false => exact ⟨[], by cases M; cases ht; cases hp; rfl⟩

variable {kinds : List (Option Nat)}

theorem mcopy_eq {ops : List EdgeOp} (hops : ∀ op ∈ ops, OpInRange kinds.length op)
    (hfresh : MFreshRun (MNet.ofNodes (kinds.map MNode.new)) ops) {M : MNet} (hM : (MNet.ofNodes (kinds.map MNode.new)).run ops = .ok M) :
    MInv kinds M ∧ ∃ o, M.getTopoOrd = .ok (o, { M with topo := o }) ∧
      M.copy = .ok ({ nodes := M.nodes, edges := [], topo := o, pureDiscrete := M.pureDiscrete }, { M with topo := o }) := by
  obtain ⟨h1, h2⟩ := (minv_new (kinds := kinds)).run hops hfresh
  by_cases hfb : ∃ op ∈ ops, Forbidden kinds op
  · rw [h2 hfb] at hM
    cases hM
  obtain ⟨M0, e, h⟩ := h1 hfb
  rw [hM] at e
  cases e
  obtain ⟨o, ho⟩ := mgetTopoOrd_ok h (mframe_run hM).1
  refine ⟨h, o, ho, ?_⟩
  unfold MNet.copy
  rw [ho, ok_bind]
  show (do let nodes ← (List.range M.nodes.length).mapM (fun i => rdAt M.nodes i); _) = _
  rw [mcopy_nodes, ok_bind]
  rfl

/-- C95 (partial: the edge list is lost, see `C95_copy_loses_edges`).  The copy of a network after a history has the same nodes, parents and
children, and its first `GetTopoOrd` gives what the source gives; the source keeps its nodes and edges. -/
theorem C95_copy_partial {ops : List EdgeOp} (hops : ∀ op ∈ ops, OpInRange kinds.length op)
    (hfresh : MFreshRun (MNet.ofNodes (kinds.map MNode.new)) ops) {M : MNet} (hM : (MNet.ofNodes (kinds.map MNode.new)).run ops = .ok M) :
    ∃ C M', M.copy = .ok (C, M') ∧ M'.nodes = M.nodes ∧ M'.edges = M.edges ∧ C.nodes = M.nodes ∧
      (∀ p c, (MParent C p c ↔ MParent M p c) ∧ (MChild C p c ↔ MChild M p c)) ∧
      ∃ order, M.getTopoOrd = .ok (order, M') ∧ C.getTopoOrd = .ok (order, C) := by
  obtain ⟨h, o, ho, hc⟩ := mcopy_eq hops hfresh hM
  refine ⟨_, _, hc, rfl, rfl, rfl, fun p c => ⟨Iff.rfl, Iff.rfl⟩, o, ho, ?_⟩
  unfold MNet.getTopoOrd
  dsimp only
  split
  · rename_i ho0
    subst ho0
    cases hp : M.pureDiscrete with
    | false => rfl
    | true =>
      unfold MNet.getTopoOrd at ho
      rw [if_pos (show M.topo = [] from (mframe_run hM).1), if_pos hp] at ho
      obtain ⟨o', e1, e2⟩ := bind_eq_ok ho
      have e3 : o' = [] := by
        simp only [pure_eq_ok, Except.ok.injEq, Prod.mk.injEq] at e2
        exact e2.1
      subst e3
      have e4 : (MNet.mk M.nodes [] [] true).toNet.genTopoOrd = M.toNet.genTopoOrd := rfl
      rw [if_pos rfl, e4, e1, ok_bind]
      rfl
  · rfl

/-- Additions read and write the nodes alone: the same calls on networks with the same nodes have the same results and the same effect on the
nodes. -/
theorem maddDirectedEdge_nodes {M C : MNet} (h : C.nodes = M.nodes) (p c : Nat) :
    (C.addDirectedEdge p c).map (fun r => (r.1.nodes, r.2)) = (M.addDirectedEdge p c).map (fun r => (r.1.nodes, r.2)) := by
  have hs : (C.setParentChild p c).map (·.nodes) = (M.setParentChild p c).map (·.nodes) := by
    unfold MNet.setParentChild MNet.find
    rw [h]
    cases M.nodes[p]? with
    | none => rfl
    | some pn =>
      cases M.nodes[c]? with
      | none => rfl
      | some cn =>
        simp only [ok_bind]
        cases pn.addChild c cn.cont with
        | error f => rfl
        | ok pn' =>
          simp only [ok_bind]
          cases (M.nodes.set p pn')[c]? with
          | none => rfl
          | some cn' =>
            simp only [ok_bind]
            cases cn'.addParent p pn' <;> rfl
  have hr : ∀ {M C : MNet}, C.nodes = M.nodes → (C.removeParentChild p c).map (·.nodes) = (M.removeParentChild p c).map (·.nodes) := by
    intro M C h
    unfold MNet.removeParentChild MNet.find
    rw [h]
    cases M.nodes[p]? with
    | none => rfl
    | some pn =>
      simp only [ok_bind]
      cases (M.nodes.set p { pn with base := pn.base.removeChild c })[c]? with
      | none => rfl
      | some cn =>
        simp only [ok_bind]
        cases cn.removeParent p { pn with base := pn.base.removeChild c } <;> rfl
  have hf : ∀ i, C.find i = M.find i := fun i => by unfold MNet.find; rw [h]
  unfold MNet.addDirectedEdge
  rw [hf, hf]
  cases M.find p with
  | error f => rfl
  | ok a =>
    cases M.find c with
    | error f => rfl
    | ok b =>
      simp only [ok_bind]
      cases e1 : C.setParentChild p c with
      | error f =>
        cases e2 : M.setParentChild p c with
        | error g =>
          rw [e1, e2] at hs
          cases hs
          rfl
        | ok M1 =>
          rw [e1, e2] at hs
          cases hs
      | ok C1 =>
        cases e2 : M.setParentChild p c with
        | error g =>
          rw [e1, e2] at hs
          cases hs
        | ok M1 =>
          rw [e1, e2] at hs
          have hn : C1.nodes = M1.nodes := by simpa [Except.map] using hs
          have hcc : C1.containCircle = M1.containCircle := by
            unfold MNet.containCircle Net.containCircle MNet.toNet Net.matrix Net.find
            rw [hn]
          simp only [ok_bind]
          rw [hcc]
          cases M1.containCircle with
          | error f => rfl
          | ok r =>
            simp only [ok_bind]
            cases r with
            | false => simp [Except.map, pure_eq_ok, hn]
            | true =>
              have h3 := hr hn
              cases e3 : C1.removeParentChild p c with
              | error f =>
                cases e4 : M1.removeParentChild p c with
                | error g =>
                  rw [e3, e4] at h3
                  cases h3
                  rfl
                | ok M2 =>
                  rw [e3, e4] at h3
                  cases h3
              | ok C2 =>
                cases e4 : M1.removeParentChild p c with
                | error g =>
                  rw [e3, e4] at h3
                  cases h3
                | ok M2 =>
                  rw [e3, e4] at h3
                  have hn2 : C2.nodes = M2.nodes := by simpa [Except.map] using h3
                  simp [Except.map, pure_eq_ok, ok_bind, hn2]

/-- C95 (partial: additions only).  `AddDirectedEdge` answers the same on the copy and on the source and changes their nodes alike. -/
theorem C95_add_partial {ops : List EdgeOp} (hops : ∀ op ∈ ops, OpInRange kinds.length op)
    (hfresh : MFreshRun (MNet.ofNodes (kinds.map MNode.new)) ops) {M C M' : MNet} (hM : (MNet.ofNodes (kinds.map MNode.new)).run ops = .ok M)
    (hC : M.copy = .ok (C, M')) (p c : Nat) :
    (C.addDirectedEdge p c).map (fun r => (r.1.nodes, r.2)) = (M.addDirectedEdge p c).map (fun r => (r.1.nodes, r.2)) := by
  obtain ⟨_, o, _, hc⟩ := mcopy_eq hops hfresh hM
  rw [hC] at hc
  cases hc
  exact maddDirectedEdge_nodes (C := MNet.mk M.nodes [] o M.pureDiscrete) (M := M) rfl p c

/-- C95, finding: the copy lists no edge.  So every edge of the source can be deleted there, but `DeleteDirectedEdge` on the copy returns false
and leaves the edge. -/
theorem C95_copy_loses_edges {ops : List EdgeOp} (hops : ∀ op ∈ ops, OpInRange kinds.length op)
    (hfresh : MFreshRun (MNet.ofNodes (kinds.map MNode.new)) ops) {M C M' : MNet} (hM : (MNet.ofNodes (kinds.map MNode.new)).run ops = .ok M)
    (hC : M.copy = .ok (C, M')) :
    (∀ p c, ¬ MListed C p c) ∧ ∀ p c, MParent M p c →
      C.deleteDirectedEdge p c = .ok (C, false) ∧ MParent C p c ∧
      ∃ M1, M.deleteDirectedEdge p c = .ok (M1, true) ∧ ¬ MParent M1 p c := by
  obtain ⟨h, o, _, hc⟩ := mcopy_eq hops hfresh hM
  rw [hC] at hc
  cases hc
  refine ⟨fun p c => by simp [MListed], fun p c hpc => ?_⟩
  have hcl : c < M.nodes.length := by
    obtain ⟨n, hn, _⟩ := hpc
    exact (List.getElem?_eq_some_iff.1 hn).1
  have hpl : p < M.nodes.length := by
    have := (parentOf_iff_childOf h.edges.inv.wf).1 (mparent_iff.1 hpc)
    obtain ⟨n, hn, _⟩ := mchild_iff.2 this
    exact (List.getElem?_eq_some_iff.1 hn).1
  refine ⟨?_, hpc, ?_⟩
  · unfold MNet.deleteDirectedEdge
    rw [mfind_ok (M := MNet.mk M.nodes [] o M.pureDiscrete) hpl, ok_bind, mfind_ok (M := MNet.mk M.nodes [] o M.pureDiscrete) hcl, ok_bind]
    rfl
  · obtain ⟨M1, N1, b, a1, a2, a3, a4⟩ := mdeleteDirectedEdge h.kinds hpl hcl (fun hl _ _ => by
      obtain ⟨n, hn, hp⟩ := h.listed_parent.1 hl
      rw [List.getElem?_eq_getElem hcl] at hn
      cases hn
      exact hp)
    obtain ⟨N', b', e1, e2, _, _, e5⟩ := deleteDirectedEdge_spec h.edges.inv (p := p) (c := c) (by rw [toNet_length]; exact hpl)
      (by rw [toNet_length]; exact hcl)
    rw [a2] at e1
    cases e1
    have hlist := h.listed_parent.2 hpc
    rcases e5 with ⟨hf, rfl, _⟩ | ⟨pos, hf, rfl, _, hm⟩
    · obtain ⟨e, he, k⟩ := hlist
      have := (List.findIdx?_eq_none_iff.1 hf) e he
      have hs : e.same (mkDirected p c) = true := same_iff.2 k
      simp [hs] at this
    · refine ⟨M1, a1, fun hpar => ?_⟩
      rw [mparent_iff, parentOf_iff, ← (a4.symm.wf e2.wf).sym, a4.ch, hm] at hpar
      exact hpar.2 ⟨rfl, rfl⟩

-- a network with an edge, its copy, and the deletion on both
example : (do
    let M ← (MNet.ofNodes ([some 2, some 3].map MNode.new)).run [.addDirected 0 1]
    let (C, M) ← M.copy
    let (C', b) ← C.deleteDirectedEdge 0 1
    let (M', b') ← M.deleteDirectedEdge 0 1
    return (C.topo, C'.nodes.map (fun n : MNode => n.base.parents), b, M'.nodes.map (fun n : MNode => n.base.parents), b')) =
    .ok ([0, 1], [[], [0]], false, [[], []], true) := by decide

-- the order cached in the copy is not refreshed by a new edge (as in C16)
example : (do
    let M ← (MNet.ofNodes ([some 2, some 3].map MNode.new)).run []
    let (C, _) ← M.copy
    let (C, b) ← C.addDirectedEdge 1 0
    let (o, _) ← C.getTopoOrd
    return (b, o)) = .ok (true, [0, 1]) := by decide

end FastPGM
