import Verif.Spec.PrintEdges
import Verif.Lemmas.SaveFiles
import Verif.Lemmas.NetDims
import Verif.Props.Network

/-!
C117: printing the edges of a network.
-/

namespace FastPGM

open Spec

theorem printNode_eq {names : List Str} {i : Nat} (h : i < names.length) : printNode names i = .ok (shownNode names i) := by
  unfold printNode shownNode
  rw [rd_ok (List.getElem?_eq_getElem h), ok_bind, List.getD_eq_getElem?_getD, List.getElem?_eq_getElem h]
  rfl

theorem printEdge_eq {names : List Str} {edges : List Edge} {i : Nat} (hi : i < edges.length) (h1 : edges[i].node1 < names.length)
    (h2 : edges[i].node2 < names.length) (out : Str) :
    printEdge names edges out i = .ok (out ++ shownLine names (shownEdge edges[i]) i ++ [10]) := by
  unfold printEdge
  rw [show rdAt edges i = .ok edges[i] by unfold rdAt; rw [List.getElem?_eq_getElem hi], ok_bind]
  unfold shownLine shownEdge Edge.isDirected
  cases edges[i].end1 <;> cases edges[i].end2 <;>
    simp [printNode_eq h1, printNode_eq h2, pure_eq_ok, ok_bind, List.append_assoc]

theorem printEdges_fold {names : List Str} {edges : List Edge} (h : ∀ e ∈ edges, e.node1 < names.length ∧ e.node2 < names.length) (out : Str) :
    ∀ m ≤ edges.length, (List.range m).foldlM (printEdge names edges) out =
      .ok (out ++ textOf (((edges.take m).map shownEdge).mapIdx (fun k e => shownLine names e k))) := by
  intro m
  induction m with
  | zero => intro _; simp [textOf, pure_eq_ok]
  | succ m ih =>
    intro hm
    rw [List.range_succ, List.foldlM_append, ih (by omega), ok_bind, List.foldlM_cons,
      printEdge_eq (by omega) (h _ (List.getElem_mem _)).1 (h _ (List.getElem_mem _)).2, ok_bind, List.foldlM_nil]
    rw [List.take_add_one, List.getElem?_eq_getElem (by omega), Option.toList_some, List.map_append, List.mapIdx_append]
    have hl : min m edges.length = m := by omega
    simp [textOf, pure_eq_ok, hl]

/-- C117.  What `PrintEdges` prints for any network whose edges join named nodes: the first `num_edges` edges, one per line with its
direction; it throws if there are fewer edges. -/
theorem C117_print {names : List Str} {C : CountedNet} (h : ∀ e ∈ C.net.edges, e.node1 < names.length ∧ e.node2 < names.length) :
    (C.numEdges ≤ C.net.edges.length →
      printEdges names C = .ok (shownText names C.net.nodes.length C.numEdges ((C.net.edges.take C.numEdges).map shownEdge))) ∧
    (C.net.edges.length < C.numEdges → printEdges names C = .error .throw) := by
  unfold printEdges
  constructor
  · intro hle
    rw [printEdges_fold h [] _ hle, ok_bind]
    simp [shownText, textOf, pure_eq_ok]
  · intro hlt
    obtain ⟨k, hk⟩ := Nat.exists_eq_add_of_lt hlt
    rw [hk, show C.net.edges.length + k + 1 = C.net.edges.length + (k + 1) by omega, List.range_add, List.foldlM_append,
      printEdges_fold h [] _ (Nat.le_refl _), ok_bind, List.range_succ_eq_map (n := k), List.map_cons, List.foldlM_cons]
    have : printEdge names C.net.edges ([] ++ textOf (((C.net.edges.take C.net.edges.length).map shownEdge).mapIdx
        (fun k e => shownLine names e k))) (C.net.edges.length + 0) = .error .throw := by
      unfold printEdge rdAt
      rw [Nat.add_zero, List.getElem?_eq_none (Nat.le_refl _)]
      rfl
    rw [this]
    rfl

theorem apply_edges {N N' : Net} {op : EdgeOp} (h : NetInv N) (hop : OpInRange N.nodes.length op) (hN : N.apply op = .ok N')
    (he : ∀ e ∈ N.edges, e.node1 < N.nodes.length ∧ e.node2 < N.nodes.length) :
    NetInv N' ∧ N'.nodes.length = N.nodes.length ∧ ∀ e ∈ N'.edges, e.node1 < N.nodes.length ∧ e.node2 < N.nodes.length := by
  have hmk : ∀ p c, p < N.nodes.length → c < N.nodes.length → (mkUndirected p c).node1 < N.nodes.length ∧ (mkUndirected p c).node2 < N.nodes.length := by
    intro p c hp hc
    unfold mkUndirected
    split <;> exact ⟨by assumption, by assumption⟩
  cases op with
  | addDirected p c =>
    obtain ⟨N1, b, h1, h2, h3, _, _, h4, h5⟩ := addDirectedEdge_spec h hop.1 hop.2
    rw [Net.apply, h1] at hN
    cases hN
    refine ⟨h2, h3, fun e hm => ?_⟩
    cases b with
    | false => rw [(h4 rfl).2] at hm; exact he e hm
    | true =>
      rw [(h5 rfl).2] at hm
      rcases List.mem_append.1 hm with hm | hm
      · exact he e hm
      · rw [List.mem_singleton.1 hm]; exact hop
  | deleteDirected p c =>
    obtain ⟨N1, b, h1, h2, h3, _, h4⟩ := deleteDirectedEdge_spec h hop.1 hop.2
    rw [Net.apply, h1] at hN
    cases hN
    refine ⟨h2, h3, fun e hm => ?_⟩
    rcases h4 with ⟨_, _, rfl⟩ | ⟨pos, _, _, h4, _⟩
    · exact he e hm
    · rw [h4] at hm
      exact he e ((List.eraseIdx_sublist _ _).subset hm)
  | addUndirected p c =>
    simp only [Net.apply, Net.addUndirectedEdge, find_ok hop.1, find_ok hop.2, ok_bind, pure_eq_ok] at hN
    cases hN
    refine ⟨h.withEdges _, rfl, fun e hm => ?_⟩
    rcases List.mem_append.1 hm with hm | hm
    · exact he e hm
    · rw [List.mem_singleton.1 hm]; exact hmk p c hop.1 hop.2
  | deleteUndirected p c =>
    obtain ⟨N1, b, h1, h2⟩ := deleteUndirectedEdge_spec (N := N) hop.1 hop.2
    rw [Net.apply, h1] at hN
    cases hN
    rcases h2 with ⟨_, _, rfl⟩ | ⟨pos, _, _, rfl⟩
    · exact ⟨h, rfl, he⟩
    · exact ⟨h.withEdges _, rfl, fun e hm => he e ((List.eraseIdx_sublist _ _).subset hm)⟩

/-- A network as the public interface can leave it. -/
structure CountedInv (n : Nat) (C : CountedNet) : Prop where
  inv : NetInv C.net
  nodes : C.net.nodes.length = n
  edges : ∀ e ∈ C.net.edges, e.node1 < n ∧ e.node2 < n

theorem slots_mapM (slots : List Edge) : (slots.map some).mapM slotEdge = .ok slots := by
  induction slots with
  | nil => rfl
  | cons a l ih => rw [List.map_cons, List.mapM_cons, ih]; rfl

theorem counted_apply {n : Nat} {C : CountedNet} (h : CountedInv n C) {op : NetOp} (hop : NetOpInRange n op) :
    ∃ C', C.apply op = .ok C' ∧ CountedInv n C' ∧
      (∀ e, op = .edge e → C'.numEdges = C.numEdges ∧ C.net.apply e = .ok C'.net) ∧
      (op = .complete → C'.numEdges = n * (n - 1) / 2 ∧ C'.net.edges.length = n * (n - 1) / 2 ∧ C'.net.edges.Nodup ∧
        ∀ e, e ∈ C'.net.edges ↔ ∃ i j, i < j ∧ j < n ∧
          e = { node1 := i, node2 := j, end1 := .tail, end2 := .tail, ordered := false, label := .unset }) := by
  obtain ⟨h1, rfl, h3⟩ := h
  cases op with
  | edge e =>
    obtain ⟨N', hN, _, _⟩ := run_inv h1 (ops := [e]) (by simpa using (show OpInRange _ e from hop))
    replace hN : C.net.apply e = .ok N' := by
      rw [Net.run, List.foldlM_cons] at hN
      obtain ⟨N1, q1, q2⟩ := bind_eq_ok hN
      cases q2
      exact q1
    obtain ⟨i1, i2, i3⟩ := apply_edges h1 hop hN h3
    refine ⟨{ C with net := N' }, by simp [CountedNet.apply, hN, ok_bind, pure_eq_ok], ⟨i1, i2, i3⟩, fun e' q => ?_, fun q => (by cases q)⟩
    cases q
    exact ⟨rfl, hN⟩
  | complete =>
    obtain ⟨slots, s1, s2, s3, s4, _⟩ := C19_completeGraph C.net.nodes.length
    refine ⟨⟨{ C.net with edges := slots }, (C.net.nodes.length - 1) * C.net.nodes.length / 2⟩, ?_, ⟨h1.withEdges _, rfl, fun e he => ?_⟩,
      fun e q => (by cases q), fun _ => ⟨by rw [Nat.mul_comm], s2, s3, s4⟩⟩
    · rw [CountedNet.apply, s1, ok_bind, slots_mapM]
      rfl
    · obtain ⟨i, j, q1, q2, rfl⟩ := (s4 e).1 he
      exact ⟨by show i < _; omega, q2⟩

theorem counted_run {n : Nat} {C : CountedNet} (h : CountedInv n C) {ops : List NetOp} (hops : ∀ op ∈ ops, NetOpInRange n op) :
    ∃ C', C.run ops = .ok C' ∧ CountedInv n C' ∧ ((∀ op ∈ ops, op ≠ .complete) → C'.numEdges = C.numEdges) := by
  induction ops generalizing C with
  | nil => exact ⟨C, rfl, h, fun _ => rfl⟩
  | cons op ops ih =>
    obtain ⟨C1, a1, a2, a3, _⟩ := counted_apply h (hops op (by simp))
    obtain ⟨C2, b1, b2, b3⟩ := ih a2 (fun o ho => hops o (by simp [ho]))
    refine ⟨C2, ?_, b2, fun hc => ?_⟩
    · rw [CountedNet.run, List.foldlM_cons, a1, ok_bind]; exact b1
    · rw [b3 (fun o ho => hc o (by simp [ho]))]
      cases op with
      | edge e => exact (a3 e rfl).1
      | complete => exact absurd rfl (hc _ (by simp))

theorem counted_start (dims : List Nat) : CountedInv dims.length { net := Net.empty dims } :=
  ⟨empty_inv dims, by simp [Net.empty], by simp [Net.empty]⟩

/-- C117, the case in which printing is right: directly after `GenerateUndirectedCompleteGraph`, whatever happened before, every pair of
nodes is printed once. -/
theorem C117_complete_partial {dims : List Nat} {names : List Str} (hn : names.length = dims.length) {ops : List NetOp}
    (hops : ∀ op ∈ ops, NetOpInRange dims.length op) :
    ∃ C, CountedNet.run { net := Net.empty dims } (ops ++ [.complete]) = .ok C ∧ ∃ es : List (Nat × Nat), es.Nodup ∧
      (∀ i j, (i, j) ∈ es ↔ i < j ∧ j < dims.length) ∧ es.length = dims.length * (dims.length - 1) / 2 ∧
      printEdges names C = .ok (shownText names dims.length es.length (es.map (fun p => (p.1, p.2, false)))) := by
  obtain ⟨C1, a1, a2, _⟩ := counted_run (counted_start dims) hops
  obtain ⟨C2, b1, b2, _, b4⟩ := counted_apply a2 (op := .complete) trivial
  obtain ⟨c1, c2, c3, c4⟩ := b4 rfl
  refine ⟨C2, ?_, C2.net.edges.map (fun e => (e.node1, e.node2)), ?_, fun i j => ?_, by rw [List.length_map, c2], ?_⟩
  · rw [CountedNet.run, List.foldlM_append]
    show CountedNet.run _ ops >>= _ = _
    rw [a1, ok_bind, List.foldlM_cons, b1]
    rfl
  · refine (List.nodup_map_iff_inj_on c3).2 ?_
    intro e he f hf q
    obtain ⟨i, j, _, _, rfl⟩ := (c4 e).1 he
    obtain ⟨i', j', _, _, rfl⟩ := (c4 f).1 hf
    simp only [Prod.mk.injEq] at q
    rw [q.1, q.2]
  · rw [List.mem_map]
    constructor
    · rintro ⟨e, he, q⟩
      obtain ⟨i', j', q1, q2, rfl⟩ := (c4 e).1 he
      simp only [Prod.mk.injEq] at q
      omega
    · rintro ⟨q1, q2⟩
      exact ⟨_, (c4 _).2 ⟨i, j, q1, q2, rfl⟩, rfl⟩
  · rw [(C117_print (by rw [hn]; exact b2.edges)).1 (by omega), b2.nodes, c1, List.length_map, c2, ← c2, List.take_length, List.map_map]
    congr 2
    refine List.map_congr_left (fun e he => ?_)
    obtain ⟨i, j, _, _, rfl⟩ := (c4 e).1 he
    rfl

/-- C117, violated: the edge operations do not count.  Whatever edges were added, without `GenerateUndirectedCompleteGraph` no edge is
printed and the number printed is 0. -/
theorem C117_nothing_printed {dims : List Nat} {names : List Str} (hn : names.length = dims.length) {ops : List NetOp}
    (hops : ∀ op ∈ ops, NetOpInRange dims.length op) (hc : ∀ op ∈ ops, op ≠ .complete) :
    ∃ C, CountedNet.run { net := Net.empty dims } ops = .ok C ∧
      printEdges names C = .ok (lit "num nodes = " ++ intToStr dims.length ++ [10] ++ lit "num edges = 0" ++ [10]) := by
  obtain ⟨C, a1, a2, a3⟩ := counted_run (counted_start dims) hops
  refine ⟨C, a1, ?_⟩
  rw [(C117_print (by rw [hn]; exact a2.edges)).1 (by rw [a3 hc]; exact Nat.zero_le _), a3 hc, a2.nodes]
  simp [shownText, textOf, lit, intToStr]
  decide +kernel

/-- C117, violated: after `GenerateUndirectedCompleteGraph` and the deletion of an edge printing throws. -/
theorem C117_throws {dims : List Nat} {names : List Str} (hn : names.length = dims.length) {p c : Nat} (hp : p < c) (hc : c < dims.length) :
    ∃ C, CountedNet.run { net := Net.empty dims } [.complete, .edge (.deleteUndirected p c)] = .ok C ∧
      printEdges names C = .error .throw := by
  obtain ⟨C1, a1, a2, _, a4⟩ := counted_apply (counted_start dims) (op := .complete) trivial
  obtain ⟨c1, c2, c3, c4⟩ := a4 rfl
  obtain ⟨C2, b1, b2, b3, _⟩ := counted_apply a2 (op := .edge (.deleteUndirected p c)) ⟨by omega, hc⟩
  obtain ⟨d1, d2⟩ := b3 _ rfl
  refine ⟨C2, ?_, (C117_print (by rw [hn]; exact b2.edges)).2 ?_⟩
  · rw [CountedNet.run, List.foldlM_cons, a1, ok_bind, List.foldlM_cons, b1]
    rfl
  · rw [d1, c1, ← c2]
    obtain ⟨N', b, e1, e2⟩ := deleteUndirectedEdge_spec (N := C1.net) (p := p) (c := c) (by rw [a2.nodes]; omega) (by rw [a2.nodes]; exact hc)
    rw [Net.apply, e1] at d2
    cases d2
    have hmem : mkUndirected p c ∈ C1.net.edges := (c4 _).2 ⟨p, c, hp, hc, by unfold mkUndirected; rw [if_pos hp]⟩
    rcases e2 with ⟨e3, _⟩ | ⟨pos, e3, _, e4⟩
    · exfalso
      unfold findEdge at e3
      have := List.findIdx?_eq_none_iff.1 e3 _ hmem
      simp [Edge.same] at this
    · have hpos : pos < C1.net.edges.length := (List.findIdx?_eq_some_iff_getElem.1 e3).1
      have e5 : C2.net.edges = C1.net.edges.eraseIdx pos := congrArg Net.edges e4
      rw [e5, List.length_eraseIdx_of_lt hpos]
      omega

theorem check_fold (l : List NodeS) (a b : Nat) :
    l.foldl (fun (st : Nat × Nat) s => (st.1 + s.parents.length, st.2 + s.children.length)) (a, b) =
      (a + (l.map (fun s => s.parents.length)).sum, b + (l.map (fun s => s.children.length)).sum) := by
  induction l generalizing a b with
  | nil => rfl
  | cons s l ih => rw [List.foldl_cons, ih]; simp [Nat.add_assoc]

theorem sum_nodes (l : List NodeS) (f : NodeS → Nat) (g : Nat → Nat) (h : ∀ i s, l[i]? = some s → f s = g i) :
    (l.map f).sum = ∑ i ∈ Finset.range l.length, g i := by
  induction l using List.reverseRecOn with
  | nil => simp
  | append_singleton l s ih =>
    rw [List.map_append, List.sum_append, ih (fun i t ht => h i t (by
      rw [List.getElem?_append_left (List.getElem?_eq_some_iff.1 ht).1]; exact ht)), List.length_append, List.length_singleton,
      Finset.sum_range_succ, ← h l.length s (by simp)]
    simp

open Classical in
/-- C117.  After any history of edge operations `CheckEdges` prints the number of arrows twice. -/
theorem C117_check {dims : List Nat} {ops : List EdgeOp} (hops : ∀ op ∈ ops, OpInRange dims.length op) :
    ∃ N, (Net.empty dims).run ops = .ok N ∧ ∃ es : Finset (Nat × Nat), (∀ p c, (p, c) ∈ es ↔ ParentOf N p c) ∧
      checkEdges N = lit "num edges from parents = " ++ intToStr es.card ++ [10] ++ lit "num edges from children = " ++ intToStr es.card ++ [10] := by
  obtain ⟨N, h1, h2, h3⟩ := run_empty hops
  refine ⟨N, h1, ((Finset.range N.nodes.length) ×ˢ (Finset.range N.nodes.length)).filter (fun q => ParentOf N q.1 q.2), fun p c => ?_, ?_⟩
  · rw [Finset.mem_filter, Finset.mem_product, Finset.mem_range, Finset.mem_range]
    refine ⟨fun h => h.2, fun h => ⟨?_, h⟩⟩
    exact h2.wf.lt (childOf_iff.1 ((parentOf_iff_childOf h2.wf).1 h))
  · have hsorted : ∀ l : List Nat, l.Pairwise (· < ·) → (∀ v ∈ l, v < N.nodes.length) →
        l.length = ((Finset.range N.nodes.length).filter (fun v => v ∈ l)).card := by
      intro l hl hlt
      have hnd : l.Nodup := hl.imp (fun h => Nat.ne_of_lt h)
      rw [← List.toFinset_card_of_nodup hnd]
      congr 1
      ext v
      simp only [List.mem_toFinset, Finset.mem_filter, Finset.mem_range]
      exact ⟨fun h => ⟨hlt v h, h⟩, fun h => h.2⟩
    have hcard : (((Finset.range N.nodes.length) ×ˢ (Finset.range N.nodes.length)).filter (fun q => ParentOf N q.1 q.2)).card =
        ∑ p ∈ Finset.range N.nodes.length, ∑ c ∈ Finset.range N.nodes.length, if ParentOf N p c then 1 else 0 := by
      rw [Finset.card_filter, Finset.sum_product]
    have hpar : (N.nodes.map (fun s => s.parents.length)).sum =
        (((Finset.range N.nodes.length) ×ˢ (Finset.range N.nodes.length)).filter (fun q => ParentOf N q.1 q.2)).card := by
      rw [sum_nodes N.nodes _ (fun c => ((Finset.range N.nodes.length).filter (fun p => ParentOf N p c)).card), hcard, Finset.sum_comm]
      · refine Finset.sum_congr rfl (fun c _ => ?_)
        rw [Finset.card_filter]
      · intro c s hs
        have e : s.parents = N.pa c := by unfold Net.pa; rw [hs]; rfl
        rw [e, hsorted (N.pa c) (h2.wf.pa_sorted c) (fun p hp => (h2.wf.lt ((h2.wf.sym p c).2 hp)).1)]
        simp only [parentOf_iff]
    have hch : (N.nodes.map (fun s => s.children.length)).sum =
        (((Finset.range N.nodes.length) ×ˢ (Finset.range N.nodes.length)).filter (fun q => ParentOf N q.1 q.2)).card := by
      rw [sum_nodes N.nodes _ (fun p => ((Finset.range N.nodes.length).filter (fun c => ParentOf N p c)).card), hcard]
      · refine Finset.sum_congr rfl (fun p _ => ?_)
        rw [Finset.card_filter]
      · intro p s hs
        have e : s.children = N.ch p := by unfold Net.ch; rw [hs]; rfl
        rw [e, hsorted (N.ch p) (h2.wf.ch_sorted p) (fun c hc => (h2.wf.lt hc).2)]
        simp only [parentOf_iff, h2.wf.sym]
    unfold checkEdges
    rw [check_fold, Nat.zero_add, Nat.zero_add, hpar, hch]

/-- Two nodes `A`, `B`. -/
example : (do printEdges [lit "A", lit "B"] (← CountedNet.run { net := Net.empty [2, 2] } [.complete])) =
      .ok (lit "0: A (0) -- B (1)\nnum nodes = 2\nnum edges = 1\n") ∧
    (do printEdges [lit "A", lit "B"] (← CountedNet.run { net := Net.empty [2, 2] } [.edge (.addDirected 0 1)])) =
      .ok (lit "num nodes = 2\nnum edges = 0\n") ∧
    (do return checkEdges (← (Net.empty [2, 2]).run [.addDirected 0 1])) =
      (.ok (lit "num edges from parents = 1\nnum edges from children = 1\n") : Except Fault Str) ∧
    printEdges [lit "A", lit "B"] ⟨{ Net.empty [2, 2] with edges := [mkDirected 1 0, mkUndirected 0 1] }, 2⟩ =
      .ok (lit "0: B (1) -> A (0)\n1: A (0) -- B (1)\nnum nodes = 2\nnum edges = 2\n") := by decide +kernel

end FastPGM
