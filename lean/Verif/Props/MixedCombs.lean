import Verif.Props.MixedNetwork
import Verif.Lemmas.JTElim2
import Verif.Lemmas.NetDims

/-!
C94: the configurations of the discrete parents that the nodes of a network with continuous nodes record.
-/

namespace FastPGM

open Spec

variable {kinds : List (Option Nat)}

theorem filter_setInsert (f : Nat → Bool) (p : Nat) {l : List Nat} (hl : l.Pairwise (· < ·)) :
    (setInsert p l).filter f = if f p = true then setInsert p (l.filter f) else l.filter f := by
  have hf : (l.filter f).Pairwise (· < ·) := hl.filter _
  by_cases hp : f p = true
  · rw [if_pos hp]
    refine sorted_eq ((setInsert_sorted hl).filter _) (setInsert_sorted hf) (fun a ha => ?_) (fun a ha => ?_)
    · rw [List.mem_filter, mem_setInsert] at ha
      rw [mem_setInsert, List.mem_filter]
      exact ha.1.imp id (fun h => ⟨h, ha.2⟩)
    · rw [mem_setInsert, List.mem_filter] at ha
      rw [List.mem_filter, mem_setInsert]
      rcases ha with rfl | ha
      · exact ⟨.inl rfl, hp⟩
      · exact ⟨.inr ha.1, ha.2⟩
  · rw [if_neg hp]
    refine sorted_eq ((setInsert_sorted hl).filter _) hf (fun a ha => ?_) (fun a ha => ?_)
    · rw [List.mem_filter, mem_setInsert] at ha
      rw [List.mem_filter]
      rcases ha.1 with rfl | h
      · exact absurd ha.2 hp
      · exact ⟨h, ha.2⟩
    · rw [List.mem_filter] at ha
      rw [List.mem_filter, mem_setInsert]
      exact ⟨.inr ha.1, ha.2⟩

/-- What is known of node `i` during a history. -/
structure MNodeInv (kinds : List (Option Nat)) (i : Nat) (n : MNode) : Prop where
  kind : n.cont = true ↔ kinds[i]? = some none
  dim : n.base.dim = mdomain kinds i
  sorted : n.base.parents.Pairwise (· < ·)
  combs : MCombsCorrect kinds n

theorem MNodeInv.addParent {p c : Nat} {pn n n' : MNode} (hp : MNodeInv kinds p pn) (h : MNodeInv kinds c n)
    (e : n.addParent p pn = .ok n') : MNodeInv kinds c n' := by
  unfold MNode.addParent at e
  by_cases hc : pn.cont = true
  · rw [if_pos hc] at e
    by_cases hn : n.cont = true
    · rw [if_pos hn] at e
      cases e
      unfold MNode.addContinuousParent
      split
      · exact h
      · refine ⟨h.kind, h.dim, setInsert_sorted h.sorted, h.combs.1, fun x => ?_⟩
        have : discreteOf kinds { n with base := { n.base with parents := setInsert p n.base.parents }, contParents := n.contParents ++ [p] } =
            discreteOf kinds n := by
          unfold discreteOf
          rw [filter_setInsert _ _ h.sorted, if_neg (by simp [hp.kind.1 hc])]
        rw [this]
        exact h.combs.2 x
    · rw [if_neg hn] at e; cases e
  · rw [if_neg hc] at e
    cases e
    have hd : decide (kinds[p]? ≠ some none) = true := by
      rw [decide_eq_true_eq]
      exact fun h => hc (hp.kind.2 h)
    by_cases hin : p ∈ n.base.parents
    · have : n.base.addParent p pn.base.dim = n.base := by unfold NodeS.addParent; rw [if_pos hin]
      rw [this]
      exact h
    · rw [hp.dim]
      have hs := addParent_correct (dom := mdomain kinds) (s := { n.base with parents := discreteOf kinds n }) (h.sorted.filter _) h.combs p
      have hnot : p ∉ discreteOf kinds n := fun hx => hin (List.mem_filter.1 hx).1
      have e1 : n.base.addParent p (mdomain kinds p) =
          { n.base with parents := setInsert p n.base.parents, discParents := n.base.discParents ++ [p],
                        combs := extendCombs p (mdomain kinds p) n.base.combs } := by
        unfold NodeS.addParent; rw [if_neg hin]
      have e2 : ({ n.base with parents := discreteOf kinds n } : NodeS).addParent p (mdomain kinds p) =
          { n.base with parents := setInsert p (discreteOf kinds n), discParents := n.base.discParents ++ [p],
                        combs := extendCombs p (mdomain kinds p) n.base.combs } := by
        unfold NodeS.addParent; rw [if_neg hnot]
      rw [e1]
      rw [e2] at hs
      refine ⟨h.kind, h.dim, setInsert_sorted h.sorted, hs.2.1.1, fun x => ?_⟩
      refine (hs.2.1.2 x).trans ?_
      unfold discreteOf
      dsimp only
      rw [filter_setInsert _ _ h.sorted, if_pos hd]

/-- The invariant for all nodes. -/
def MNetInv (kinds : List (Option Nat)) (M : MNet) : Prop := ∀ i n, M.nodes[i]? = some n → MNodeInv kinds i n

theorem MNetInv.set {M : MNet} (h : MNetInv kinds M) {i : Nat} {n : MNode} (hn : MNodeInv kinds i n) :
    MNetInv kinds { M with nodes := M.nodes.set i n } := by
  intro j m hm
  simp only [List.getElem?_set] at hm
  by_cases e : i = j
  · subst e
    rw [if_pos rfl] at hm
    split at hm
    · cases hm; exact hn
    · cases hm
  · rw [if_neg e] at hm
    exact h j m hm

theorem mfind_eq_ok {M : MNet} {i : Nat} {n : MNode} (h : M.find i = .ok n) : M.nodes[i]? = some n := by
  unfold MNet.find at h
  split at h
  · cases h; assumption
  · cases h

theorem MNetInv.setParentChild {M M' : MNet} (h : MNetInv kinds M) {p c : Nat} (e : M.setParentChild p c = .ok M') : MNetInv kinds M' := by
  unfold MNet.setParentChild at e
  obtain ⟨pn, h1, e⟩ := bind_eq_ok e
  obtain ⟨cn, h2, e⟩ := bind_eq_ok e
  obtain ⟨pn', h3, e⟩ := bind_eq_ok e
  dsimp only at e
  obtain ⟨cn', h4, e⟩ := bind_eq_ok e
  obtain ⟨cn'', h5, e⟩ := bind_eq_ok e
  cases e
  have a1 := h p pn (mfind_eq_ok h1)
  have a2 : MNodeInv kinds p pn' := by
    unfold MNode.addChild at h3
    split at h3
    · cases h3
    · cases h3
      exact ⟨a1.kind, a1.dim, a1.sorted, a1.combs⟩
  have a3 := h.set a2
  exact a3.set (a2.addParent (a3 c cn' (mfind_eq_ok h4)) h5)

/-- C94.  After a history without deletions of directed edges and without rejected additions, every node, discrete or continuous, records
exactly the assignments of its discrete parents, each once. -/
theorem C94_combinations {ops : List EdgeOp} {M : MNet} (hM : (MNet.ofNodes (kinds.map MNode.new)).run ops = .ok M)
    (hacc : MAcceptedRun (MNet.ofNodes (kinds.map MNode.new)) ops) :
    ∀ (i : Nat) n, M.nodes[i]? = some n → MCombsCorrect kinds n := by
  have key : ∀ (ops : List EdgeOp) (M0 : MNet), MNetInv kinds M0 → MAcceptedRun M0 ops → ∀ M, M0.run ops = .ok M → MNetInv kinds M := by
    intro ops
    induction ops with
    | nil => intro M0 h _ M e; cases e; exact h
    | cons op ops ih =>
      intro M0 h ha M e
      unfold MNet.run at e
      rw [List.foldlM_cons] at e
      obtain ⟨M1, e1, e⟩ := bind_eq_ok e
      refine ih M1 ?_ (ha.2.2 M1 e1) M e
      cases op with
      | addDirected p c =>
        obtain ⟨M', hM'⟩ := ha.1 p c rfl
        simp only [MNet.apply, hM', ok_bind, pure_eq_ok, Except.ok.injEq] at e1
        subst e1
        unfold MNet.addDirectedEdge at hM'
        obtain ⟨_, _, hM'⟩ := bind_eq_ok hM'
        obtain ⟨_, _, hM'⟩ := bind_eq_ok hM'
        obtain ⟨M2, h2, hM'⟩ := bind_eq_ok hM'
        obtain ⟨b, hb, hM'⟩ := bind_eq_ok hM'
        cases b with
        | true =>
          rw [if_pos rfl] at hM'
          obtain ⟨_, _, hM'⟩ := bind_eq_ok hM'
          cases hM'
        | false =>
          rw [if_neg (by simp)] at hM'
          cases hM'
          have := h.setParentChild h2
          exact this
      | deleteDirected p c => exact absurd rfl (ha.2.1 p c)
      | addUndirected p c =>
        unfold MNet.apply MNet.addUndirectedEdge at e1
        obtain ⟨_, _, e1⟩ := bind_eq_ok e1
        obtain ⟨_, _, e1⟩ := bind_eq_ok e1
        cases e1
        exact h
      | deleteUndirected p c =>
        unfold MNet.apply MNet.deleteUndirectedEdge at e1
        obtain ⟨r, e2, e1⟩ := bind_eq_ok e1
        cases e1
        dsimp only at e2
        obtain ⟨_, _, e2⟩ := bind_eq_ok e2
        obtain ⟨_, _, e2⟩ := bind_eq_ok e2
        split at e2 <;> cases e2 <;> exact h
  have h0 : MNetInv kinds (MNet.ofNodes (kinds.map MNode.new)) := by
    intro i n hn
    simp only [MNet.ofNodes, List.getElem?_map] at hn
    cases hk : kinds[i]? with
    | none => rw [hk] at hn; cases hn
    | some k =>
      rw [hk] at hn
      cases hn
      have hc : ∀ d, MCombsCorrect kinds { cont := (MNode.new k).cont, base := { dim := d } } := fun d => by
        have := empty_combs (mdomain kinds) d
        exact ⟨this.1, this.2⟩
      cases k with
      | none => exact ⟨by simp [MNode.new, hk], by simp [MNode.new, mdomain, hk], List.Pairwise.nil, hc 0⟩
      | some d => exact ⟨by simp [MNode.new, hk], by simp [MNode.new, mdomain, hk], List.Pairwise.nil, hc d⟩
  intro i n hn
  exact (key ops _ h0 hacc M hM i n hn).combs

/-- A continuous node 2 with parents 0 and 1 (discrete, 2 and 3 values) and 3 (continuous). -/
example : ∃ M, (MNet.ofNodes ([some 2, some 3, none, none].map MNode.new)).run [.addDirected 1 2, .addDirected 3 2, .addDirected 0 2] = .ok M ∧
    (M.nodes[2]?.map (fun n => (n.base.parents, n.base.combs.length))) = some ([0, 1, 3], 6) ∧
    MAcceptedRun (MNet.ofNodes ([some 2, some 3, none, none].map MNode.new)) [.addDirected 1 2, .addDirected 3 2, .addDirected 0 2] := by
  refine ⟨_, rfl, by decide, ?_⟩
  refine ⟨fun p c h => ?_, by intros; simp, fun N' h => ?_⟩
  · cases h; exact ⟨_, rfl⟩
  cases h
  refine ⟨fun p c h => ?_, by intros; simp, fun N' h => ?_⟩
  · cases h; exact ⟨_, rfl⟩
  cases h
  refine ⟨fun p c h => ?_, by intros; simp, fun N' h => ?_⟩
  · cases h; exact ⟨_, rfl⟩
  trivial

end FastPGM
