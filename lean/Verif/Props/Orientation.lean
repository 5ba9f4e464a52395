import Verif.Lemmas.Meek
import Verif.Lemmas.Orientation5

/-!
C32, C33, C56, C57: the orientation phase of PC-stable and the completion to a DAG.
-/

namespace FastPGM

open Spec

/-! ### C32 -/

/-- C32, acyclicity.  Whatever the skeleton, the separating sets, the random bits and the capacity of the edge vector: if the orientation
phase returns, the parent sets contain no cycle. -/
theorem C32_acyclic (cap fuel : Nat) (bits : Nat → Bool) (dag : Bool) (dims : List Nat) (k : Skeleton) {N : Net}
    (h : orientPhase cap bits dag fuel dims k = .ok N) : ¬ Cyclic (ParentOf N) ∧ ¬ Cyclic (ChildOf N) ∧ ∀ x y, ParentOf N x y ↔ ChildOf N x y := by
  have hi := orientPhase_keep h
  exact ⟨fun hc => hi.acyclic ((cyclic_congr fun a b => parentOf_iff_childOf hi.wf).1 hc), hi.acyclic, fun x y => parentOf_iff_childOf hi.wf⟩

/-- C32, partial: if the v-structures demanded by the separating sets do not contradict each other (their arrows contain no cycle), then
orientation succeeds and the edge list and the parent sets describe one partially directed graph with the pairs of the skeleton, each pair
with exactly one edge, in which all demanded arrows are present; with `dag` no undirected edge is left.  Missing: contradicting
v-structures, for which the claim is false (`C32_duplicate_edge`), and the completion of a complete skeleton, where the code has undefined
behaviour (`C33_reallocation`). -/
theorem C32_orientation_partial {n cap : Nat} {G : Nat → Nat → Prop} {k : Skeleton} (hk : Represents n G k) {dims : List Nat}
    (hd : dims.length = n) (hV : ¬ Cyclic (VArrow G k.sep)) (hcap : n * (n - 1) / 2 ≤ cap) (bits : Nat → Bool) (dag : Bool)
    (hdag : dag = true → k.edges = [] ∨ k.edges.length < cap) {fuel : Nat} (hf : k.edges.length < fuel) :
    ∃ N, orientPhase cap bits dag fuel dims k = .ok N ∧ PartiallyDirected n G N ∧ (∀ x y, VArrow G k.sep x y → ParentOf N x y) ∧
      (dag = true → ∀ e ∈ N.edges, e.end1 = .tail ∧ e.end2 = .arrow) := by
  obtain ⟨N, us, ds, ds1, h1, h2, h3, h4, h5, _⟩ := orientPhase_clean hk hd hV hcap bits dag hdag hf
  have hp := h2.partiallyDirected h3
  refine ⟨N, h1, hp, ?_, ?_⟩
  · intro x y hxy
    rw [← hp.children, h2.childOf]
    exact h4 x y hxy
  · intro hdag e he
    rw [h2.edges, h5 hdag] at he
    rw [List.map_nil, List.nil_append] at he
    obtain ⟨p, _, rfl⟩ := List.mem_map.1 he
    exact ⟨rfl, rfl⟩

/-- C32: the first step alone orients exactly the demanded arrows. -/
theorem C32_vstructures {n : Nat} {G : Nat → Nat → Prop} {k : Skeleton} (hk : Represents n G k) {dims : List Nat}
    (hd : dims.length = n) (hV : ¬ Cyclic (VArrow G k.sep)) :
    ∃ N, orientVStructure k.adj k.sep (skeletonNet dims k) = .ok N ∧ PartiallyDirected n G N ∧ ∀ x y, ParentOf N x y ↔ VArrow G k.sep x y := by
  obtain ⟨N, us, ds, h1, h2, h3, h4⟩ := orientV_clean hk hd hV
  have hp := h2.partiallyDirected h3
  refine ⟨N, h1, hp, fun x y => ?_⟩
  rw [← hp.children, h2.childOf, h4]

/-- Independence verdicts for `C32_duplicate_edge`: six variables. -/
def badVerdicts (x y : Nat) (S : List Nat) : Bool :=
  (x, y, S) ∈ [(0, 4, []), (1, 5, []), (2, 3, []), (3, 4, []), (3, 5, []), (4, 5, []), (1, 3, [0]), (2, 4, [1]), (0, 5, [2])]

/-- A test that answers according to given verdicts, for group size 1. -/
def singleTest (ind : Nat → Nat → List Nat → Bool) : CITest := fun x y z _ => .ok (ind x y z, some 0)

/-- The test answers according to the verdicts. -/
theorem answers_single (ind : Nat → Nat → List Nat → Bool) (n : Nat) : Answers (singleTest ind) ind n 1 := by
  refine ⟨fun x y _ _ => ⟨_, rfl⟩, fun x y d sets _ _ _ hne hlen _ => ?_⟩
  match sets, hne, hlen with
  | [s], _, _ =>
    refine ⟨some 0, by simp [singleTest], fun h => ?_⟩
    have h' : ind x y s = true := by simpa using h
    rw [List.findIdx_cons, h']
    rfl

/-- C32, violation: with these verdicts the learner ends with the pair {2, 5} both directed and undirected, with undirected edges behind
directed ones, and with undirected edges left although a DAG was requested. -/
theorem C32_duplicate_edge :
    (do let k ← learnSkeleton (singleTest badVerdicts) 6 2 1 128 (List.range 15) (fun _ _ l => l) 100
        let N ← orientPhase 15 (fun _ => false) true 100 [2, 2, 2, 2, 2, 2] k
        return (k.edges.map (fun e : WorkEdge => (e.x, e.y)), N.edges.map (fun e : Edge => (e.node1, e.node2, decide (e.end2 = EndPoint.arrow))))) =
      .ok ([(0, 1), (0, 2), (0, 3), (1, 2), (1, 4), (2, 5)],
        [(2, 0, true), (3, 0, true), (0, 1, true), (4, 1, true), (5, 2, true), (1, 2, false), (2, 5, false)]) := by
  decide +kernel

/-! ### C33 -/

/-- C33.  Completion, from any acyclic partially directed graph built by edge operations whose undirected edges stand before the directed
ones: for every sequence of random bits the exit is not reached, and the result is an acyclic orientation of the same pairs that keeps the
arrows there were.  Partial: the capacity of the edge vector must exceed the number of edges (see `C33_reallocation`). -/
theorem C33_completion_partial {n cap : Nat} {G : Nat → Nat → Prop} {dims : List Nat} {ops : List EdgeOp}
    (hops : ∀ op ∈ ops, OpInRange dims.length op) {N : Net} (hN : (Net.empty dims).run ops = .ok N) {k : Skeleton} (hk : Represents n G k)
    (hp : PartiallyDirected n G N) (hcap : N.edges.length < cap) (bits : Nat → Bool) {fuel : Nat} (hf : N.edges.length < fuel) (start : Nat) :
    ∃ N', directLeftEdges cap k.adj bits fuel start N = .ok N' ∧ PartiallyDirected n G N' ∧
      (∀ e ∈ N'.edges, e.end1 = .tail ∧ e.end2 = .arrow) ∧ (∀ x y, G x y ↔ ParentOf N' x y ∨ ParentOf N' y x) ∧
      ∀ x y, ParentOf N x y → ParentOf N' x y := by
  obtain ⟨N0, h1, h2, h3⟩ := run_empty hops
  rw [hN] at h1
  cases h1
  obtain ⟨us, ds, q1, q2⟩ := pd_of h2 hp hk.symm hk.range
  rw [q1.edges_length] at hcap hf
  obtain ⟨N', ds', e, p', c', s'⟩ := directLeftEdges_spec hk bits fuel start q1 q2 (Or.inl hcap) (by omega)
  have hp' := p'.partiallyDirected c'
  refine ⟨N', e, hp', ?_, ?_, ?_⟩
  · intro e he
    rw [p'.edges] at he
    rw [List.map_nil, List.nil_append] at he
    obtain ⟨p, _, rfl⟩ := List.mem_map.1 he
    exact ⟨rfl, rfl⟩
  · intro x y
    rw [c'.iff, ← hp'.children, ← hp'.children, p'.childOf, p'.childOf]
    simp
  · intro x y
    rw [← hp'.children, ← hp.children, p'.childOf, q1.childOf]
    exact s' _

/-- C33, violation: if every pair of variables is adjacent after the skeleton phase and `vec_edges` has the capacity that
`GenerateUndirectedCompleteGraph` gave it, directing the first edge reallocates the vector whose iterator the loop still uses. -/
theorem C33_reallocation {n : Nat} (hn : 2 ≤ n) {G : Nat → Nat → Prop} {k : Skeleton} (hk : Represents n G k)
    (hG : ∀ x y, x < n → y < n → x ≠ y → G x y) {dims : List Nat} (hd : dims.length = n) (bits : Nat → Bool) {fuel : Nat}
    (hf : k.edges.length < fuel) : orientPhase (n * (n - 1) / 2) bits true fuel dims k = .error .ub := by
  have hV : ¬ Cyclic (VArrow G k.sep) := by
    rintro ⟨x, hx⟩
    cases hx with
    | single h => exact complete_no_varrow hk hG _ _ h
    | tail _ h => exact complete_no_varrow hk hG _ _ h
  obtain ⟨N, us, ds, ds1, h1, h2, h3, _, _, h6⟩ := orientPhase_clean hk hd hV (le_refl _) bits false (fun h => (by cases h)) hf
  obtain ⟨h7, h8, _⟩ := h6 rfl
  have hds1 : ds1 = [] := by
    rw [List.eq_nil_iff_forall_not_mem]
    rintro ⟨x, y⟩ hm
    exact complete_no_varrow hk hG _ _ ((h8 x y).1 hm)
  have hrun : ∀ ds, MeekRun G [] ds → ds = [] := by
    intro ds h7
    induction h7 with
    | refl => rfl
    | step _ _ hm ih =>
      subst ih
      rcases hm with ⟨z, h, _⟩ | ⟨b, h, _⟩ | ⟨b, _, _, _, _, _, h, _⟩ <;> simp [arrows] at h
  have hds : ds = [] := hrun ds (hds1 ▸ h7)
  subst hds
  have hlen : n * (n - 1) / 2 ≤ us.length := by
    obtain ⟨slots, _, hl, hnd, hmem, _⟩ := C19_completeGraph n
    have hsub : (slots.map (fun e => (e.node1, e.node2))) ⊆ us := by
      intro p hp
      obtain ⟨e, he, rfl⟩ := List.mem_map.1 hp
      obtain ⟨i, j, hij, hj, rfl⟩ := (hmem e).1 he
      have := (h3.iff i j).1 (hG i j (by omega) hj (by omega))
      rw [ordPair_self hij] at this
      simpa using this
    have hnd' : (slots.map (fun e => (e.node1, e.node2))).Nodup := by
      refine hnd.map_on ?_
      intro e he e' he' heq
      obtain ⟨i, j, _, _, rfl⟩ := (hmem e).1 he
      obtain ⟨i', j', _, _, rfl⟩ := (hmem e').1 he'
      simp only [Prod.mk.injEq] at heq
      rw [heq.1, heq.2]
    have := (List.subperm_of_subset hnd' hsub).length_le
    rw [List.length_map, hl] at this
    exact this
  have hpos : 0 < n * (n - 1) / 2 := by
    have : 2 * 1 ≤ n * (n - 1) := Nat.mul_le_mul hn (by omega)
    omega
  unfold orientPhase at h1 ⊢
  cases hV' : orientVStructure k.adj k.sep (skeletonNet dims k) with
  | error e => rw [hV'] at h1; cases h1
  | ok N1 =>
  rw [hV', ok_bind] at h1
  rw [ok_bind]
  cases hI : orientImplied (n * (n - 1) / 2) k.adj fuel fuel N1 with
  | error e => rw [hI] at h1; cases h1
  | ok N2 =>
  rw [hI, ok_bind] at h1
  rw [ok_bind]
  have : N2 = N := by simpa using h1
  subst this
  simp only [if_true]
  match fuel, hf with
  | fuel + 1, _ =>
  match us, hlen, h2, h3 with
  | [], hlen, _, _ => simp only [List.length_nil] at hlen; omega
  | (x, y) :: us, hlen, h2, h3 =>
  have hxy := h2.us_lt (x, y) (by simp)
  have hedge : N2.edges[0]? = some (undEdge (x, y)) := by rw [h2.edges]; rfl
  have hu : N2.isUndirected k.adj x y = .ok true := by
    have h4 := isUndirected_eq hk h2 h3 (show x < n by omega) (show y < n by omega)
    rw [h4]
    congr 1
    rw [decide_eq_true_iff]
    rw [ordPair_self hxy.1]
    simp
  rw [directLeftEdges, hedge]
  simp only [undEdge_node1, undEdge_node2]
  rw [hu, ok_bind, if_pos rfl]
  cases bits 0 with
  | true =>
    simp only [if_true]
    rw [direct_full h2 hlen (by omega) (by omega) (by omega)]
    rfl
  | false =>
    simp only [Bool.false_eq_true, if_false]
    rw [direct_full h2 hlen (by omega) (by omega) (by omega)]
    rfl

/-- C33, violation: undirected edges that stand behind a directed one are not directed at all.  The loop stops at the first directed
edge (here `1 → 0` stands before `1 — 2`). -/
theorem C33_stops_early :
    (do let N ← (Net.empty [2, 2, 2]).run [.addDirected 1 0, .addUndirected 1 2]
        let N ← directLeftEdges 3 [[1], [0, 2], [1]] (fun _ => false) 10 0 N
        return N.edges.map (fun e : Edge => (e.node1, e.node2, decide (e.end2 = EndPoint.arrow)))) = .ok [(1, 0, true), (1, 2, false)] := by
  decide +kernel

/-! ### C56, C57: verdicts of a directed acyclic graph -/

/-- The separating sets that the skeleton phase records explain the graph the verdicts come from. -/
theorem explains_of_oracle {D : Nat → Nat → Prop} {n depth : Nat} {ind : Nat → Nat → List Nat → Bool} (h : DOracle D n ind)
    (hdepth : FewParents D depth) {sep : Sepset} (hs : SepInv ind n (max depth 1) sep) : Explains (Joined D) sep D := by
  have hfew : FewParents D (max depth 1) := fun x S h1 h2 => lt_of_lt_of_le (hdepth x S h1 h2) (le_max_left _ _)
  refine ⟨h.acyclic, fun x y => Iff.rfl, ?_⟩
  intro a b c hac hnj
  have hrange : ∀ {u v}, Joined D u v → u < n ∧ v < n := by
    rintro u v (h1 | h1)
    · exact h.range _ _ h1
    · exact (h.range _ _ h1).symm
  have hne : ∀ {u v}, Joined D u v → u ≠ v := by
    rintro u v hj rfl
    rcases hj with h1 | h1 <;> exact h.irrefl h1
  -- for two joined pairs the recorded set settles whether `b` is a collider
  have key : Joined D a b → Joined D b c → ((D a b ∧ D c b) ↔ b ∉ (sep a c).getD []) := by
    intro h1 h2
    have hc : c < n := (hrange h2).2
    obtain ⟨S, hS, hsort, _, hind, _, _, hor⟩ := hs.some_of_not a c hac hc (fun hj => hnj ((skeleton_joined h hfew).1 hj))
    have hmem : ∀ z ∈ S, z < n ∧ z ≠ a ∧ z ≠ c := by
      intro z hz
      rcases hor with ho | ho
      · obtain ⟨h3, h4⟩ := ho z hz
        obtain ⟨h5, h6, h7⟩ : a < n ∧ z < n ∧ a ≠ z := skeletonAt_antitone (Nat.zero_le _) h3
        exact ⟨h6, h7.symm, h4⟩
      · obtain ⟨h3, h4⟩ := ho z hz
        obtain ⟨h5, h6, h7⟩ : c < n ∧ z < n ∧ c ≠ z := skeletonAt_antitone (Nat.zero_le _) h3
        exact ⟨h6, h4, h7.symm⟩
    have hsep := (h.verdict a c S hac hc hsort hmem).1 hind
    rw [hS]
    show _ ↔ b ∉ S
    have hnd : [a, b, c].Nodup := by
      have h3 := hne h1
      have h4 := hne h2
      simp only [List.nodup_cons, List.mem_cons, List.not_mem_nil, or_false, not_or, not_false_eq_true, and_true, List.nodup_nil]
      exact ⟨⟨h3, by omega⟩, h4⟩
    constructor
    · intro hcol hb
      exact not_dSeparated_of_passes hnd h1 h2 (Or.inl ⟨hcol, b, hb, .refl⟩) hsep
    · intro hb
      by_contra hcol
      exact not_dSeparated_of_passes hnd h1 h2 (Or.inr ⟨hcol, hb⟩) hsep
  constructor
  · rintro ⟨h1, h2⟩
    exact ⟨hac, Or.inr h1, Or.inr h2, hnj, (key (Or.inl h1) (Or.inr h2)).1 ⟨h1, h2⟩⟩
  · rintro ⟨_, h1, h2, _, h3⟩
    exact (key h1.symm h2).2 h3

/-- C56.  If the independence verdicts are the d-separations of a directed acyclic graph `D` none of whose nodes has `depth` or more
parents, the learner (without completion) returns a partially directed graph with exactly the adjacencies of `D`, whose arrows are exactly the
compelled edges of `D`: the edges that have the same direction in every acyclic graph with the adjacencies and v-structures of `D`.  In
particular every arrow is an arrow of `D`, every unshielded collider of `D` is oriented, and none of the three orientation rules applies to an
edge that is left undirected.  This holds for every schedule, batching and group size. -/
theorem C56_recovers {D : Nat → Nat → Prop} {n depth : Nat} {ind : Nat → Nat → List Nat → Bool} (h : DOracle D n ind)
    (hdepth : FewParents D depth) :
    ∃ F, ∀ (ci : CITest) (g cap : Nat) (order : List Nat) (sched : Nat → Schedule) (fuel fuel' room : Nat) (bits : Nat → Bool) (dims : List Nat),
      Answers ci ind n g → 0 < g → 0 < cap → order.Perm (List.range (n * (n - 1) / 2)) → (∀ d r l, (sched d r l).Perm l) → F ≤ fuel →
      dims.length = n → n * (n - 1) / 2 ≤ room → n * (n - 1) / 2 < fuel' →
      ∃ k N, learnSkeleton ci n depth g cap order sched fuel = .ok k ∧ orientPhase room bits false fuel' dims k = .ok N ∧
        PartiallyDirected n (Joined D) N ∧ (∀ x y, ParentOf N x y ↔ Compelled D x y) ∧ (∀ x y, ParentOf N x y → D x y) ∧
        (∀ a b c, D a b → D c b → a ≠ c → ¬ Joined D a c → ParentOf N a b ∧ ParentOf N c b) ∧
        ∀ x y, Undirected (Joined D) (ParentOf N) x y → ¬ MeekApplies (Joined D) (ParentOf N) x y := by
  have hfew : FewParents D (max depth 1) := fun x S h1 h2 => lt_of_lt_of_le (hdepth x S h1 h2) (le_max_left _ _)
  obtain ⟨F, v, hl⟩ := learnSkeleton_eq ind n depth
  refine ⟨F, ?_⟩
  intro ci g cap order sched fuel fuel' room bits dims ha hg hc hord hsched hF hd hroom hf'
  obtain ⟨k, h1, _, h3, h4⟩ := hl ci g cap order sched fuel ha hg hc hord hsched hF
  have hG : skeletonAt ind n (max depth 1) = Joined D := by
    funext x y
    exact propext (skeleton_joined h hfew)
  rw [hG] at h3
  have hex := explains_of_oracle h hdepth h4
  have hV : ¬ Cyclic (VArrow (Joined D) k.sep) := by
    rintro ⟨x, hx⟩
    exact h.acyclic ⟨x, Relation.TransGen.mono (fun a b => Explains.varrow hex a b) _ _ hx⟩
  have hlen : k.edges.length ≤ n * (n - 1) / 2 := by
    have := pairs_length (n := n) h3.nodup (by
      rintro ⟨a, b⟩ hp
      obtain ⟨q1, q2⟩ := (h3.edge a b).1 hp
      exact ⟨q1, (h3.range _ _ (h3.symm _ _ q2)).1⟩)
    rwa [List.length_map] at this
  obtain ⟨N, us, ds, ds1, e1, p1, c1, v1, _, m1⟩ :=
    orientPhase_clean h3 hd hV hroom bits false (fun h => (by cases h)) (fuel := fuel') (by omega)
  obtain ⟨m2, m3, m4⟩ := m1 rfl
  have hp := p1.partiallyDirected c1
  have hpar : ∀ x y, ParentOf N x y ↔ (x, y) ∈ ds := fun x y => by rw [← hp.children, p1.childOf]
  have hsound : ∀ x y, (x, y) ∈ ds → D x y := m2.sound hex m3 (Explains.varrow hex)
  have hcol : ∀ a b c, D a b → D c b → a ≠ c → ¬ Joined D a c → ParentOf N a b ∧ ParentOf N c b := by
    intro a b c hab hcb hne hnj
    have hsel : VArrow (Joined D) k.sep a b ∧ VArrow (Joined D) k.sep c b := by
      rcases Nat.lt_or_gt_of_ne hne with hlt | hlt
      · have := (hex.colliders a b c hlt hnj).1 ⟨hab, hcb⟩
        exact ⟨⟨c, Or.inl this⟩, ⟨a, Or.inr this⟩⟩
      · have := (hex.colliders c b a hlt (fun hj => hnj hj.symm)).1 ⟨hcb, hab⟩
        exact ⟨⟨c, Or.inr this⟩, ⟨a, Or.inl this⟩⟩
    exact ⟨(hpar _ _).2 (v1 _ _ hsel.1), (hpar _ _).2 (v1 _ _ hsel.2)⟩
  have hclosed : ∀ x y, Undirected (Joined D) (ParentOf N) x y → ¬ MeekApplies (Joined D) (ParentOf N) x y := by
    intro x y hu hm
    have hP : ParentOf N = arrows ds := by
      funext a b
      exact propext (hpar a b)
    rw [hP] at hu hm
    -- the rule demands an arrow of `D`, which closes no cycle with the other arrows of `D`
    have hD := meek_sound hex (P := arrows ds) hsound v1 hu hm
    have hcyc : ¬ Cyclic (withEdge (arrows ds) x y) := by
      rintro ⟨z, hz⟩
      refine h.acyclic ⟨z, Relation.TransGen.mono ?_ _ _ hz⟩
      rintro a b (hab | ⟨rfl, rfl⟩)
      · exact hsound a b hab
      · exact hD
    have hus : ordPair x y ∈ us := by
      rcases (c1.iff x y).1 hu.1 with q | q | q
      · exact q
      · exact absurd q hu.2.1
      · exact absurd q hu.2.2
    have hcl := m4 _ hus
    unfold ordPair at hcl
    split at hcl
    · exact hcyc (hcl.1 hm)
    · exact hcyc (hcl.2 hm)
  refine ⟨k, N, h1, e1, hp, fun x y => ⟨fun hxy D' he => ?_, fun hc => ?_⟩, fun x y hxy => hsound x y ((hpar x y).1 hxy), hcol, hclosed⟩
  · -- the separating sets explain every equivalent graph as well
    have hex' : Explains (Joined D) k.sep D' := by
      refine ⟨he.acyclic, fun x y => (he.skeleton x y).symm, fun a b c hac hnj => ?_⟩
      rw [← hex.colliders a b c hac hnj]
      have hnj' : ¬ Joined D' a c := fun hj => hnj ((he.skeleton a c).1 hj)
      constructor
      · intro hd
        obtain ⟨_, q1, q2, _⟩ := (he.colliders a b c).1 ⟨by omega, hd.1, hd.2, hnj'⟩
        exact ⟨q1, q2⟩
      · intro hd
        obtain ⟨_, q1, q2, _⟩ := (he.colliders a b c).2 ⟨by omega, hd.1, hd.2, hnj⟩
        exact ⟨q1, q2⟩
    exact m2.sound hex' m3 (Explains.varrow hex') x y ((hpar x y).1 hxy)
  · exact meekArrow_of_closed h.acyclic (fun x y hxy => hsound x y ((hpar x y).1 hxy))
      (fun a b c hv => (hcol a b c hv.2.1 hv.2.2.1 hv.1 hv.2.2.2).1) hclosed ((meekArrow_iff_compelled h.acyclic h.range).2 hc)

/-- C57, partial: under the hypotheses of C56, if some pair is not adjacent in `D` (or no pair is), the completed graph is an acyclic
orientation of the adjacencies of `D` with all unshielded colliders of `D`, for every sequence of random bits, and the edges that have the same
direction in every graph equivalent to `D` have it in the completed graph as well.  Missing: that it has no other unshielded colliders, which
is false (`C57_new_collider`). -/
theorem C57_completion_partial {D : Nat → Nat → Prop} {n depth : Nat} {ind : Nat → Nat → List Nat → Bool} (h : DOracle D n ind)
    (hdepth : FewParents D depth) (hnc : ∃ x y, x < y ∧ y < n ∧ ¬ Joined D x y) :
    ∃ F, ∀ (ci : CITest) (g cap : Nat) (order : List Nat) (sched : Nat → Schedule) (fuel fuel' room : Nat) (bits : Nat → Bool) (dims : List Nat),
      Answers ci ind n g → 0 < g → 0 < cap → order.Perm (List.range (n * (n - 1) / 2)) → (∀ d r l, (sched d r l).Perm l) → F ≤ fuel →
      dims.length = n → n * (n - 1) / 2 ≤ room → n * (n - 1) / 2 < fuel' →
      ∃ k N, learnSkeleton ci n depth g cap order sched fuel = .ok k ∧ orientPhase room bits true fuel' dims k = .ok N ∧
        ¬ Cyclic (ParentOf N) ∧ (∀ x y, Joined D x y ↔ ParentOf N x y ∨ ParentOf N y x) ∧
        (∀ a b c, D a b → D c b → a ≠ c → ¬ Joined D a c → ParentOf N a b ∧ ParentOf N c b) ∧
        ∀ x y, Compelled D x y → ParentOf N x y := by
  obtain ⟨F', hrec⟩ := C56_recovers h hdepth
  have hfew : FewParents D (max depth 1) := fun x S h1 h2 => lt_of_lt_of_le (hdepth x S h1 h2) (le_max_left _ _)
  obtain ⟨F, v, hl⟩ := learnSkeleton_eq ind n depth
  refine ⟨max F F', ?_⟩
  intro ci g cap order sched fuel fuel' room bits dims ha hg hc hord hsched hF hd hroom hf'
  obtain ⟨k, h1, _, h3, h4⟩ := hl ci g cap order sched fuel ha hg hc hord hsched ((le_max_left _ _).trans hF)
  have hG : skeletonAt ind n (max depth 1) = Joined D := by
    funext x y
    exact propext (skeleton_joined h hfew)
  rw [hG] at h3
  have hex := explains_of_oracle h hdepth h4
  have hV : ¬ Cyclic (VArrow (Joined D) k.sep) := by
    rintro ⟨x, hx⟩
    exact h.acyclic ⟨x, Relation.TransGen.mono (fun a b => Explains.varrow hex a b) _ _ hx⟩
  obtain ⟨u, w, huw, hw, hnj⟩ := hnc
  have hlen := edges_room h3 huw hw hnj
  obtain ⟨N, us, ds, ds1, e1, p1, c1, v1, d1, _⟩ :=
    orientPhase_clean h3 hd hV hroom bits true (fun _ => Or.inr (by omega)) (fuel := fuel') (by omega)
  have hp := p1.partiallyDirected c1
  have hpar : ∀ x y, ParentOf N x y ↔ (x, y) ∈ ds := fun x y => by rw [← hp.children, p1.childOf]
  obtain ⟨k', N0, r1, r2, -, r3, -⟩ := hrec ci g cap order sched fuel fuel' room bits dims ha hg hc hord hsched ((le_max_right _ _).trans hF) hd hroom hf'
  rw [h1] at r1
  cases r1
  refine ⟨k, N, h1, e1, hp.acyclic, ?_, ?_, fun x y hxy => orientPhase_extends h3 hd hV hroom bits (Or.inr (by omega)) (by omega) r2 e1 ((r3 x y).2 hxy)⟩
  · intro x y
    rw [c1.iff, d1 rfl, hpar, hpar]
    simp
  · intro a b c hab hcb hne hnj
    have hsel : VArrow (Joined D) k.sep a b ∧ VArrow (Joined D) k.sep c b := by
      rcases Nat.lt_or_gt_of_ne hne with hlt | hlt
      · have := (hex.colliders a b c hlt hnj).1 ⟨hab, hcb⟩
        exact ⟨⟨c, Or.inl this⟩, ⟨a, Or.inr this⟩⟩
      · have := (hex.colliders c b a hlt (fun hj => hnj hj.symm)).1 ⟨hcb, hab⟩
        exact ⟨⟨c, Or.inr this⟩, ⟨a, Or.inl this⟩⟩
    exact ⟨(hpar _ _).2 (v1 _ _ hsel.1), (hpar _ _).2 (v1 _ _ hsel.2)⟩

/-- The chain `0 → 1 → 2`. -/
def chain (x y : Nat) : Prop := (x = 0 ∧ y = 1) ∨ (x = 1 ∧ y = 2)

/-- Its d-separations. -/
def chainVerdicts (x y : Nat) (S : List Nat) : Bool := x == 0 && y == 2 && S == [1]

theorem chain_lt {x y : Nat} (h : Relation.TransGen chain x y) : x < y := by
  induction h with
  | single h => unfold chain at h; omega
  | tail _ h ih => unfold chain at h; omega

theorem chain_oracle : DOracle chain 3 chainVerdicts ∧ FewParents chain 2 := by
  have hac : ¬ Cyclic chain := by
    rintro ⟨x, hx⟩
    exact absurd (chain_lt hx) (Nat.lt_irrefl x)
  refine ⟨⟨hac, fun x y h => by unfold chain at h; omega, ?_⟩, ?_⟩
  · intro x y S hxy hy hsort hS
    have hcases : (x = 0 ∧ y = 1) ∨ (x = 1 ∧ y = 2) ∨ (x = 0 ∧ y = 2) := by omega
    rcases hcases with ⟨rfl, rfl⟩ | ⟨rfl, rfl⟩ | ⟨rfl, rfl⟩
    · refine iff_of_false (by simp [chainVerdicts]) (not_dSeparated_of_joined (by decide) (Or.inl (Or.inl ⟨rfl, rfl⟩)))
    · refine iff_of_false (by simp [chainVerdicts]) (not_dSeparated_of_joined (by decide) (Or.inl (Or.inr ⟨rfl, rfl⟩)))
    · by_cases hm : 1 ∈ S
      · have hS1 : S = [1] := by
          refine List.Perm.eq_of_pairwise (le := (· < ·)) (fun a b _ _ h1 h2 => absurd h1 (Nat.lt_asymm h2)) hsort (by simp) ?_
          rw [List.perm_ext_iff_of_nodup (hsort.imp (fun h => Nat.ne_of_lt h)) (by simp)]
          intro a
          rw [List.mem_singleton]
          refine ⟨fun ha => ?_, fun ha => ha ▸ hm⟩
          have := hS a ha
          omega
        refine iff_of_true (by simp [chainVerdicts, hS1]) (dSeparated_symm (parents_separate hac (by decide) ?_ ?_ ?_))
        · unfold Joined chain; omega
        · intro h; exact absurd (chain_lt h) (by decide)
        · intro z
          rw [hS1, List.mem_singleton]
          unfold chain
          omega
      · refine iff_of_false ?_ (not_dSeparated_of_passes (b := 1) (by decide) (Or.inl (Or.inl ⟨rfl, rfl⟩)) (Or.inl (Or.inr ⟨rfl, rfl⟩)) ?_)
        · intro h
          simp only [chainVerdicts, Bool.and_eq_true, beq_iff_eq] at h
          rw [h.2] at hm
          simp at hm
        · exact Or.inr ⟨by unfold chain; omega, hm⟩
  · intro x S hn hS
    have : ∀ z ∈ S, z = x - 1 := by
      intro z hz
      have := hS z hz
      unfold chain at this
      omega
    match S, hn, this with
    | [], _, _ => decide
    | [_], _, _ => exact Nat.lt_succ_self 1
    | a :: b :: S, hn, h =>
      have h1 := h a (by simp)
      have h2 := h b (by simp)
      rw [List.nodup_cons] at hn
      exact absurd (by rw [h1, ← h2]; simp) hn.1

/-- The hypotheses of C56 and C57 hold for the chain. -/
example : ∃ k N, learnSkeleton (singleTest chainVerdicts) 3 2 1 128 (List.range 3) (fun _ _ l => l) 100 = .ok k ∧
    orientPhase 3 (fun _ => false) false 100 [2, 2, 2] k = .ok N ∧ N.edges.length = 2 := ⟨_, _, rfl, rfl, rfl⟩

example := C56_recovers chain_oracle.1 chain_oracle.2
example := C57_completion_partial chain_oracle.1 chain_oracle.2 ⟨0, 2, by decide, by decide, by unfold Joined chain; omega⟩

/-- C57, violation: the verdicts are the d-separations of the chain `0 → 1 → 2`; with the random bits 0, 1 the learner returns the collider
`0 → 1 ← 2`, in which 0 and 2 are independent, contrary to the verdicts. -/
theorem C57_new_collider :
    DOracle chain 3 chainVerdicts ∧ FewParents chain 2 ∧ chainVerdicts 0 2 [] = false ∧
    (do let k ← learnSkeleton (singleTest chainVerdicts) 3 2 1 128 (List.range 3) (fun _ _ l => l) 100
        let N ← orientPhase 3 (fun i => i == 1) true 100 [2, 2, 2] k
        return N.edges.map (fun e : Edge => (e.node1, e.node2, decide (e.end2 = EndPoint.arrow)))) = .ok [(0, 1, true), (2, 1, true)] :=
  ⟨chain_oracle.1, chain_oracle.2, rfl, by decide +kernel⟩

/-- Example for C32 and C33: the skeleton `0 - 2 - 1` with empty separating set of 0 and 1. -/
def colliderSkeleton : Skeleton :=
  { edges := [{ x := 0, y := 2 }, { x := 1, y := 2 }], adj := [[2], [2], [0, 1]], sep := fun x y => if x = 0 ∧ y = 1 then some [] else none }

/-- Its graph. -/
def colliderGraph (x y : Nat) : Prop := (x = 2 ∧ y < 2) ∨ (y = 2 ∧ x < 2)

theorem collider_represents : Represents 3 colliderGraph colliderSkeleton := by
  refine ⟨fun x y h => h.symm, fun x y h => by unfold colliderGraph at h; omega, by decide, ?_, by decide, rfl, ?_⟩
  · intro x y
    simp only [colliderSkeleton, colliderGraph, List.map_cons, List.map_nil, List.mem_cons, List.not_mem_nil, or_false, Prod.mk.injEq]
    omega
  · intro v l h
    simp only [colliderSkeleton] at h
    match v, h with
    | 0, h => cases h; exact ⟨by simp, fun z => by simp only [List.mem_cons, List.not_mem_nil, or_false, colliderGraph]; omega⟩
    | 1, h => cases h; exact ⟨by simp, fun z => by simp only [List.mem_cons, List.not_mem_nil, or_false, colliderGraph]; omega⟩
    | 2, h =>
      cases h
      refine ⟨by simp, fun z => ?_⟩
      show z ∈ [0, 1] ↔ (2 = 2 ∧ z < 2) ∨ (z = 2 ∧ 2 < 2)
      simp
      omega
    | v + 3, h => simp at h

theorem collider_varrow (x y : Nat) : VArrow colliderGraph colliderSkeleton.sep x y → x < 2 ∧ y = 2 := by
  rintro ⟨z, ⟨h1, h2, h3, h4, _⟩ | ⟨h1, h2, h3, h4, _⟩⟩ <;> unfold colliderGraph at h2 h3 h4 <;> omega

theorem collider_compatible : ¬ Cyclic (VArrow colliderGraph colliderSkeleton.sep) := by
  rintro ⟨x, hx⟩
  have : ∀ a b, Relation.TransGen (VArrow colliderGraph colliderSkeleton.sep) a b → a < b := by
    intro a b h
    induction h with
    | single h => have := collider_varrow _ _ h; omega
    | tail _ h ih => have := collider_varrow _ _ h; omega
  exact absurd (this x x hx) (Nat.lt_irrefl x)

example : VArrow colliderGraph colliderSkeleton.sep 0 2 := ⟨1, Or.inl ⟨by decide, Or.inl ⟨rfl, by decide⟩, Or.inl ⟨rfl, by decide⟩,
  by unfold colliderGraph; omega, by simp [colliderSkeleton]⟩⟩

example (bits : Nat → Bool) := C32_orientation_partial collider_represents (dims := [2, 2, 2]) rfl collider_compatible (le_refl _) bits true
  (fun _ => Or.inr (by decide)) (fuel := 3) (by decide)

example : (orientPhase 3 (fun _ => false) true 3 [2, 2, 2] colliderSkeleton).map (fun N => N.edges.map (fun e => (e.node1, e.node2))) =
    .ok [(0, 2), (1, 2)] := by decide +kernel

example (bits : Nat → Bool) :=
  C33_completion_partial (dims := [2, 2, 2]) (ops := [.addUndirected 0 2, .addUndirected 1 2]) (N := skeletonNet [2, 2, 2] colliderSkeleton)
    (by simp [OpInRange]) rfl collider_represents
    ((pd_skeletonNet collider_represents rfl).1.partiallyDirected (pd_skeletonNet (dims := [2, 2, 2]) collider_represents rfl).2)
    (cap := 3) (by decide) bits (fuel := 3) (by decide) 0

/-- Example for `C33_reallocation`: two dependent variables. -/
example (bits : Nat → Bool) : orientPhase 1 bits true 2 [2, 2] { edges := [{ x := 0, y := 1 }], adj := [[1], [0]], sep := fun _ _ => none } =
    .error .ub := by
  refine C33_reallocation (n := 2) (G := fun x y => x < 2 ∧ y < 2 ∧ x ≠ y) (le_refl 2) ⟨fun x y h => ⟨h.2.1, h.1, h.2.2.symm⟩, fun x y h => ⟨h.1, h.2.2⟩, by decide, ?_,
    by decide, rfl, ?_⟩ (fun x y h1 h2 h3 => ⟨h1, h2, h3⟩) rfl bits (by decide)
  · intro x y
    simp only [List.map_cons, List.map_nil, List.mem_cons, List.not_mem_nil, or_false, Prod.mk.injEq]
    omega
  · intro v l h
    match v, h with
    | 0, h => cases h; exact ⟨by simp, fun z => by simp only [List.mem_cons, List.not_mem_nil, or_false]; omega⟩
    | 1, h => cases h; exact ⟨by simp, fun z => by simp only [List.mem_cons, List.not_mem_nil, or_false]; omega⟩
    | v + 2, h => simp at h

end FastPGM
