import Verif.Spec.MixedNetwork
import Verif.Props.Network

/-!
Lemmas for networks with continuous nodes: every operation does to parents, children and edges what it does in a network of discrete nodes.
-/

namespace FastPGM

open Spec

/-! ### Equal parents and children -/

/-- Parents and children of a node. -/
def NodeS.view (s : NodeS) : List Nat × List Nat := (s.parents, s.children)

/-- The same parent sets, child sets and edges. -/
structure SameGraph (N N' : Net) : Prop where
  nodes : N.nodes.map NodeS.view = N'.nodes.map NodeS.view
  edges : N.edges = N'.edges

theorem SameGraph.length {N N' : Net} (h : SameGraph N N') : N.nodes.length = N'.nodes.length := by
  simpa using congrArg List.length h.nodes

theorem SameGraph.get {N N' : Net} (h : SameGraph N N') (i : Nat) : N.nodes[i]?.map NodeS.view = N'.nodes[i]?.map NodeS.view := by
  rw [← List.getElem?_map, ← List.getElem?_map, h.nodes]

theorem SameGraph.ch {N N' : Net} (h : SameGraph N N') (i : Nat) : N.ch i = N'.ch i := by
  have := h.get i
  unfold Net.ch
  cases h1 : N.nodes[i]? <;> cases h2 : N'.nodes[i]? <;> simp_all [NodeS.view]

theorem SameGraph.pa {N N' : Net} (h : SameGraph N N') (i : Nat) : N.pa i = N'.pa i := by
  have := h.get i
  unfold Net.pa
  cases h1 : N.nodes[i]? <;> cases h2 : N'.nodes[i]? <;> simp_all [NodeS.view]

theorem SameGraph.wf {N N' : Net} (h : SameGraph N N') (hw : NetWF N) : NetWF N' := by
  refine ⟨fun i => ?_, fun i => ?_, fun i c hc => ?_, fun p c => ?_⟩
  · rw [← h.ch]; exact hw.ch_sorted i
  · rw [← h.pa]; exact hw.pa_sorted i
  · rw [← h.ch] at hc
    rw [← h.length]
    exact hw.ch_lt i c hc
  · rw [← h.ch, ← h.pa]; exact hw.sym p c

theorem SameGraph.childOf {N N' : Net} (h : SameGraph N N') (p c : Nat) : ChildOf N p c ↔ ChildOf N' p c := by
  rw [childOf_iff, childOf_iff, h.ch]

theorem SameGraph.symm {N N' : Net} (h : SameGraph N N') : SameGraph N' N := ⟨h.nodes.symm, h.edges.symm⟩

theorem SameGraph.edgeInv {N N' : Net} (h : SameGraph N N') (hi : EdgeInv N) : EdgeInv N' := by
  refine ⟨⟨h.wf hi.inv.wf, fun hc => hi.inv.acyclic ((cyclic_congr h.childOf).2 hc)⟩, ?_, fun p c => ?_⟩
  · rw [← h.edges]; exact hi.nodup
  · rw [← h.edges, ← h.ch]; exact hi.mem p c

theorem SameGraph.containCircle {N N' : Net} (h : SameGraph N N') (hw : NetWF N) : N.containCircle = N'.containCircle := by
  obtain ⟨b, h1, h2⟩ := containCircle_eq hw
  obtain ⟨b', h1', h2'⟩ := containCircle_eq (h.wf hw)
  rw [h1, h1']
  have : b = true ↔ b' = true := by rw [h2, h2', cyclic_congr h.childOf]
  cases b <;> cases b' <;> simp_all

/-! ### Nodes -/

/-- Kind of node `i`. -/
def contAt (ks : List Bool) (i : Nat) : Bool := ks.getD i false

/-- A node of a network whose kinds are `ks`. -/
structure NodeOk (ks : List Bool) (n : MNode) : Prop where
  sorted : n.base.parents.Pairwise (· < ·)
  kinds : n.cont = false → ∀ p ∈ n.base.parents, contAt ks p = false
  cnodup : n.contParents.Nodup
  cmem : ∀ p, p ∈ n.contParents ↔ p ∈ n.base.parents ∧ contAt ks p = true
  dnodup : n.base.discParents.Nodup
  dmem : ∀ p, p ∈ n.base.discParents ↔ p ∈ n.base.parents ∧ contAt ks p = false

variable {ks : List Bool}

theorem addParent_view (s : NodeS) (p d : Nat) :
    (s.addParent p d).view = (if p ∈ s.parents then s.parents else setInsert p s.parents, s.children) := by
  unfold NodeS.addParent NodeS.view
  split <;> rfl

theorem NodeOk.addParent {n pn : MNode} {p : Nat} (h : NodeOk ks n) (hp : contAt ks p = pn.cont) (hok : ¬ (pn.cont = true ∧ n.cont = false)) (d : Nat) :
    ∃ n', n.addParent p pn = .ok n' ∧ NodeOk ks n' ∧ n'.cont = n.cont ∧ n'.base.view = (n.base.addParent p d).view ∧ p ∈ n'.base.parents := by
  unfold MNode.addParent
  cases hc : pn.cont with
  | true =>
    rw [if_pos rfl]
    cases hn : n.cont with
    | false => exact absurd ⟨hc, hn⟩ hok
    | true =>
      rw [if_pos rfl]
      refine ⟨_, rfl, ?_⟩
      unfold MNode.addContinuousParent
      rw [addParent_view]
      by_cases hin : p ∈ n.base.parents
      · simp only [if_pos hin]
        exact ⟨h, hn, rfl, hin⟩
      · simp only [if_neg hin]
        rw [hc] at hp
        refine ⟨⟨setInsert_sorted h.sorted, fun h0 => ?_, ?_, fun q => ?_, h.dnodup, fun q => ?_⟩, hn, rfl, mem_setInsert.2 (Or.inl rfl)⟩
        · simp only at h0
          rw [hn] at h0
          exact absurd h0 (by simp)
        · refine List.nodup_append.2 ⟨h.cnodup, by simp, ?_⟩
          intro a ha b hb e
          rw [List.mem_singleton] at hb
          subst e; subst hb
          exact hin ((h.cmem _).1 ha).1
        · simp only [List.mem_append, List.mem_singleton, mem_setInsert, h.cmem]
          constructor
          · rintro (⟨h1, h2⟩ | rfl)
            · exact ⟨Or.inr h1, h2⟩
            · exact ⟨Or.inl rfl, hp⟩
          · rintro ⟨rfl | h1, h2⟩
            · exact Or.inr rfl
            · exact Or.inl ⟨h1, h2⟩
        · simp only [mem_setInsert, h.dmem]
          constructor
          · rintro ⟨h1, h2⟩
            exact ⟨Or.inr h1, h2⟩
          · rintro ⟨rfl | h1, h2⟩
            · rw [hp] at h2; exact absurd h2 (by simp)
            · exact ⟨h1, h2⟩
  | false =>
    rw [if_neg (by simp)]
    refine ⟨_, rfl, ?_⟩
    rw [addParent_view]
    rw [hc] at hp
    unfold NodeS.addParent
    by_cases hin : p ∈ n.base.parents
    · simp only [if_pos hin]
      exact ⟨h, trivial, rfl, hin⟩
    · simp only [if_neg hin]
      refine ⟨⟨setInsert_sorted h.sorted, fun h0 q hq => ?_, h.cnodup, fun q => ?_, ?_, fun q => ?_⟩, trivial, rfl, mem_setInsert.2 (Or.inl rfl)⟩
      · rcases mem_setInsert.1 hq with rfl | hq
        · exact hp
        · exact h.kinds h0 q hq
      · simp only [mem_setInsert, h.cmem]
        constructor
        · rintro ⟨h1, h2⟩
          exact ⟨Or.inr h1, h2⟩
        · rintro ⟨rfl | h1, h2⟩
          · rw [hp] at h2; exact absurd h2 (by simp)
          · exact ⟨h1, h2⟩
      · refine List.nodup_append.2 ⟨h.dnodup, by simp, ?_⟩
        intro a ha b hb e
        rw [List.mem_singleton] at hb
        subst e; subst hb
        exact hin ((h.dmem _).1 ha).1
      · simp only [List.mem_append, List.mem_singleton, mem_setInsert, h.dmem]
        constructor
        · rintro (⟨h1, h2⟩ | rfl)
          · exact ⟨Or.inr h1, h2⟩
          · exact ⟨Or.inl rfl, hp⟩
        · rintro ⟨rfl | h1, h2⟩
          · exact Or.inr rfl
          · exact Or.inl ⟨h1, h2⟩

theorem NodeOk.addChild {n : MNode} {c : Nat} {b : Bool} (h : NodeOk ks n) (hok : ¬ (n.cont = true ∧ b = false)) :
    ∃ n', n.addChild c b = .ok n' ∧ NodeOk ks n' ∧ n'.cont = n.cont ∧ n'.base = n.base.addChild c := by
  unfold MNode.addChild
  rw [if_neg (by cases h1 : n.cont <;> cases h2 : b <;> simp_all)]
  exact ⟨_, rfl, ⟨h.sorted, h.kinds, h.cnodup, h.cmem, h.dnodup, h.dmem⟩, rfl, rfl⟩

theorem NodeOk.removeChild {n : MNode} (h : NodeOk ks n) (c : Nat) : NodeOk ks { n with base := n.base.removeChild c } :=
  ⟨h.sorted, h.kinds, h.cnodup, h.cmem, h.dnodup, h.dmem⟩

theorem removeParent_view (s : NodeS) (p d : Nat) : (s.removeParent p d).view = (s.parents.erase p, s.children) := by
  unfold NodeS.removeParent NodeS.view
  split
  · rfl
  · rename_i h
    rw [List.erase_of_not_mem h]

theorem NodeOk.removeParent {n pn : MNode} {p : Nat} (h : NodeOk ks n) (hp : contAt ks p = pn.cont)
    (hin : n.cont = true → pn.cont = true → p ∈ n.base.parents) (d : Nat) :
    ∃ n', n.removeParent p pn = .ok n' ∧ NodeOk ks n' ∧ n'.cont = n.cont ∧ n'.base.view = (n.base.removeParent p d).view := by
  unfold MNode.removeParent MNode.removeParentBase
  rw [removeParent_view]
  cases hc : pn.cont with
  | true =>
    simp only [if_true, Bool.and_true]
    rw [hc] at hp
    cases hn : n.cont with
    | true =>
      have hpp := hin hn hc
      rw [if_pos rfl, if_pos ((h.cmem p).2 ⟨hpp, hp⟩)]
      refine ⟨_, rfl, ⟨erase_sorted h.sorted, fun h0 => ?_, h.cnodup.erase _, fun q => ?_, h.dnodup, fun q => ?_⟩, rfl, rfl⟩
      · exact absurd h0 (by simp)
      · simp only [h.cnodup.mem_erase_iff, mem_erase_sorted h.sorted, h.cmem, and_assoc]
      · simp only [mem_erase_sorted h.sorted, h.dmem]
        constructor
        · rintro ⟨h1, h2⟩
          refine ⟨⟨?_, h1⟩, h2⟩
          rintro rfl
          rw [hp] at h2
          exact absurd h2 (by simp)
        · rintro ⟨⟨_, h1⟩, h2⟩
          exact ⟨h1, h2⟩
    | false =>
      rw [if_neg (by simp)]
      have hnot : p ∉ n.base.parents := fun h1 => by
        have := h.kinds hn p h1
        rw [hp] at this
        exact absurd this (by simp)
      refine ⟨_, rfl, ?_, rfl, rfl⟩
      rw [List.erase_of_not_mem hnot]
      exact ⟨h.sorted, fun _ => h.kinds hn, h.cnodup, h.cmem, h.dnodup, h.dmem⟩
  | false =>
    simp only [Bool.and_false]
    rw [if_neg (by simp), if_neg (by simp)]
    rw [hc] at hp
    refine ⟨_, rfl, ?_, rfl, removeParent_view _ _ _⟩
    unfold NodeS.removeParent
    split
    · refine ⟨erase_sorted h.sorted, fun h0 q hq => ?_, h.cnodup, fun q => ?_, h.dnodup.erase _, fun q => ?_⟩
      · exact h.kinds h0 q (List.mem_of_mem_erase hq)
      · simp only [mem_erase_sorted h.sorted, h.cmem]
        constructor
        · rintro ⟨h1, h2⟩
          refine ⟨⟨?_, h1⟩, h2⟩
          rintro rfl
          rw [hp] at h2
          exact absurd h2 (by simp)
        · rintro ⟨⟨_, h1⟩, h2⟩
          exact ⟨h1, h2⟩
      · simp only [h.dnodup.mem_erase_iff, mem_erase_sorted h.sorted, h.dmem, and_assoc]
    · exact h

/-! ### Networks -/

/-- A network whose kinds are `ks`. -/
structure KindsOk (ks : List Bool) (M : MNet) : Prop where
  kinds : M.nodes.map MNode.cont = ks
  ok : ∀ n ∈ M.nodes, NodeOk ks n

theorem KindsOk.length {M : MNet} (h : KindsOk ks M) : M.nodes.length = ks.length := by
  simpa using congrArg List.length h.kinds

theorem KindsOk.contAt {M : MNet} (h : KindsOk ks M) {i : Nat} (hi : i < M.nodes.length) : contAt ks i = M.nodes[i].cont := by
  unfold FastPGM.contAt
  rw [← h.kinds, List.getD_eq_getElem?_getD, List.getElem?_map, List.getElem?_eq_getElem hi]
  rfl

theorem KindsOk.set {M : MNet} (h : KindsOk ks M) {i : Nat} (hi : i < M.nodes.length) {n : MNode} (hn : NodeOk ks n) (hc : n.cont = M.nodes[i].cont)
    {M' : MNet} (hM : M'.nodes = M.nodes.set i n) : KindsOk ks M' := by
  refine ⟨?_, fun m hm => ?_⟩
  · rw [hM, List.map_set, hc]
    have : (M.nodes[i]).cont = (M.nodes.map MNode.cont)[i]'(by simpa using hi) := by simp
    rw [this, List.set_getElem_self]
    exact h.kinds
  · rw [hM] at hm
    rcases List.mem_or_eq_of_mem_set hm with hm | rfl
    · exact h.ok m hm
    · exact hn

theorem mfind_ok {M : MNet} {i : Nat} (h : i < M.nodes.length) : M.find i = .ok M.nodes[i] := by
  unfold MNet.find
  rw [List.getElem?_eq_getElem h]

theorem view_set (l : List NodeS) (i : Nat) (s : NodeS) : (l.set i s).map NodeS.view = (l.map NodeS.view).set i s.view := List.map_set

theorem msetParentChild {M : MNet} (h : KindsOk ks M) {p c : Nat} (hp : p < M.nodes.length) (hc : c < M.nodes.length)
    (hok : ¬ (contAt ks p = true ∧ contAt ks c = false)) :
    ∃ M1 N1, M.setParentChild p c = .ok M1 ∧ M.toNet.setParentChild p c = .ok N1 ∧ KindsOk ks M1 ∧ SameGraph M1.toNet N1 ∧
      M1.edges = M.edges ∧ M1.nodes.length = M.nodes.length ∧ (∀ n, M1.nodes[c]? = some n → p ∈ n.base.parents) := by
  rw [h.contAt hp, h.contAt hc] at hok
  obtain ⟨pn, a1, a2, a3, a4⟩ := (h.ok _ (List.getElem_mem hp)).addChild (c := c) hok
  have hlen : c < (M.nodes.set p pn).length := by simpa using hc
  have hk1 : KindsOk ks { M with nodes := M.nodes.set p pn } := h.set hp a2 a3 rfl
  have hcc : (M.nodes.set p pn)[c].cont = M.nodes[c].cont := by
    rw [List.getElem_set]
    split
    · rename_i e; subst e; exact a3
    · rfl
  obtain ⟨cn, b1, b2, b3, b4, b5⟩ := (hk1.ok _ (List.getElem_mem hlen)).addParent (p := p) (pn := pn) (by rw [h.contAt hp, a3])
    (by rw [a3, hcc]; exact hok) (M.nodes[p].base.dim)
  have hbase : ∀ i (hi : i < M.nodes.length), M.toNet.nodes[i]'(by simpa [MNet.toNet] using hi) = M.nodes[i].base := by
    intro i hi; simp [MNet.toNet]
  have hlt : ∀ s : NodeS, c < ((M.nodes.map MNode.base).set p s).length := by intro s; simpa using hc
  have hN : M.toNet.setParentChild p c = .ok (Net.mk (((M.nodes.map MNode.base).set p (M.nodes[p].base.addChild c)).set c
      ((((M.nodes.map MNode.base).set p (M.nodes[p].base.addChild c))[c]'(hlt _)).addParent p M.nodes[p].base.dim)) M.edges M.topo) := by
    unfold Net.setParentChild
    rw [find_ok (N := M.toNet) (by simpa [MNet.toNet] using hp), ok_bind]
    simp only
    rw [find_ok (by simpa [MNet.toNet] using hc), ok_bind]
    simp only [hbase p hp]
    rfl
  refine ⟨_, _, ?_, hN, hk1.set (M' := { M with nodes := (M.nodes.set p pn).set c cn }) hlen b2 b3 rfl, ?_, rfl, by simp, ?_⟩
  · unfold MNet.setParentChild
    rw [mfind_ok hp, ok_bind, mfind_ok hc, ok_bind, a1, ok_bind]
    simp only
    rw [mfind_ok (M := { M with nodes := M.nodes.set p pn }) hlen, ok_bind, b1, ok_bind]
    rfl
  · refine ⟨?_, rfl⟩
    show List.map _ (List.map _ _) = _
    simp only [List.map_set]
    rw [a4, b4]
    simp only [List.getElem_set, List.getElem_map]
    split
    · rw [a4]
    · rfl
  · intro n hn
    simp only at hn
    rw [List.getElem?_set_self (by simpa using hlen)] at hn
    cases hn
    exact b5

theorem mremoveParentChild {M : MNet} (h : KindsOk ks M) {p c : Nat} (hp : p < M.nodes.length) (hc : c < M.nodes.length)
    (hin : contAt ks p = true → contAt ks c = true → p ∈ M.nodes[c].base.parents) :
    ∃ M1 N1, M.removeParentChild p c = .ok M1 ∧ M.toNet.removeParentChild p c = .ok N1 ∧ KindsOk ks M1 ∧ SameGraph M1.toNet N1 ∧
      M1.edges = M.edges ∧ M1.nodes.length = M.nodes.length := by
  rw [h.contAt hp, h.contAt hc] at hin
  have a2 := (h.ok _ (List.getElem_mem hp)).removeChild c
  generalize hpn : ({ M.nodes[p] with base := M.nodes[p].base.removeChild c } : MNode) = pn at a2
  have a3 : pn.cont = M.nodes[p].cont := by subst hpn; rfl
  have a4 : pn.base = M.nodes[p].base.removeChild c := by subst hpn; rfl
  have hlen : c < (M.nodes.set p pn).length := by simpa using hc
  have hk1 : KindsOk ks { M with nodes := M.nodes.set p pn } := h.set hp a2 a3 rfl
  have hcc : (M.nodes.set p pn)[c].cont = M.nodes[c].cont ∧ (M.nodes.set p pn)[c].base.parents = M.nodes[c].base.parents := by
    rw [List.getElem_set]
    split
    · rename_i e; subst e; exact ⟨a3, by rw [a4]; rfl⟩
    · exact ⟨rfl, rfl⟩
  obtain ⟨cn, b1, b2, b3, b4⟩ := (hk1.ok _ (List.getElem_mem hlen)).removeParent (p := p) (pn := pn) (by rw [h.contAt hp, a3])
    (by rw [a3, hcc.1, hcc.2]; exact fun x y => hin y x) (M.nodes[p].base.dim)
  have hbase : ∀ i (hi : i < M.nodes.length), M.toNet.nodes[i]'(by simpa [MNet.toNet] using hi) = M.nodes[i].base := by
    intro i hi; simp [MNet.toNet]
  have hlt : ∀ s : NodeS, c < ((M.nodes.map MNode.base).set p s).length := by intro s; simpa using hc
  have hN : M.toNet.removeParentChild p c = .ok (Net.mk (((M.nodes.map MNode.base).set p (M.nodes[p].base.removeChild c)).set c
      ((((M.nodes.map MNode.base).set p (M.nodes[p].base.removeChild c))[c]'(hlt _)).removeParent p M.nodes[p].base.dim)) M.edges M.topo) := by
    unfold Net.removeParentChild
    rw [find_ok (N := M.toNet) (by simpa [MNet.toNet] using hp), ok_bind]
    simp only
    rw [find_ok (by simpa [MNet.toNet] using hc), ok_bind]
    simp only [hbase p hp]
    rfl
  refine ⟨_, _, ?_, hN, hk1.set (M' := { M with nodes := (M.nodes.set p pn).set c cn }) hlen b2 b3 rfl, ?_, rfl, by simp⟩
  · unfold MNet.removeParentChild
    rw [mfind_ok hp, ok_bind]
    simp only [hpn]
    rw [mfind_ok (M := { M with nodes := M.nodes.set p pn }) hlen, ok_bind, b1, ok_bind]
    rfl
  · refine ⟨?_, rfl⟩
    show List.map _ (List.map _ _) = _
    simp only [List.map_set]
    rw [a4, b4]
    simp only [List.getElem_set, List.getElem_map]
    split
    · rw [a4]
    · rfl

/-! ### Edge operations -/

theorem toNet_length (M : MNet) : M.toNet.nodes.length = M.nodes.length := by simp [MNet.toNet]

theorem SameGraph.withEdges {M : MNet} {N : Net} (h : SameGraph M.toNet N) (es : List Edge) {es' : List Edge} (he : es = es') :
    SameGraph ({ M with edges := es } : MNet).toNet { N with edges := es' } := ⟨h.nodes, he⟩

theorem KindsOk.withEdges {M : MNet} (h : KindsOk ks M) (es : List Edge) : KindsOk ks { M with edges := es } := ⟨h.kinds, h.ok⟩

/-- Removing the parent gives the same graph for networks with the same graph. -/
theorem SameGraph.removeParentChild {N N' : Net} (h : SameGraph N N') {p c : Nat} (hp : p < N.nodes.length) (hc : c < N.nodes.length) {R : Net}
    (hR : N.removeParentChild p c = .ok R) : ∃ R', N'.removeParentChild p c = .ok R' ∧ SameGraph R R' := by
  have hg : ∀ i (hi : i < N.nodes.length), N.nodes[i].view = (N'.nodes[i]'(by rw [← h.length]; exact hi)).view := by
    intro i hi
    have := h.get i
    rw [List.getElem?_eq_getElem hi, List.getElem?_eq_getElem (by rw [← h.length]; exact hi)] at this
    simpa using this
  have hp' : p < N'.nodes.length := by rw [← h.length]; exact hp
  have hc' : c < N'.nodes.length := by rw [← h.length]; exact hc
  unfold Net.removeParentChild at hR ⊢
  rw [find_ok hp, ok_bind] at hR
  rw [find_ok hp', ok_bind]
  simp only at hR ⊢
  rw [find_ok (by simpa using hc), ok_bind] at hR
  rw [find_ok (by simpa using hc'), ok_bind]
  refine ⟨_, rfl, ?_⟩
  cases hR
  refine ⟨?_, h.edges⟩
  have h1 : (N.nodes[p].removeChild c).view = (N'.nodes[p].removeChild c).view := by
    have := hg p hp
    simp only [NodeS.view, NodeS.removeChild, Prod.mk.injEq] at this ⊢
    exact ⟨this.1, by rw [this.2]⟩
  simp only [List.map_set, h.nodes, h1]
  congr 1
  rw [removeParent_view, removeParent_view]
  simp only [List.getElem_set]
  by_cases e : p = c
  · simp only [if_pos e]
    have := h1
    simp only [NodeS.view, Prod.mk.injEq] at this ⊢
    rw [this.1, this.2]
    exact ⟨rfl, rfl⟩
  · simp only [if_neg e]
    have := hg c hc
    simp only [NodeS.view, Prod.mk.injEq] at this ⊢
    rw [this.1, this.2]
    exact ⟨rfl, rfl⟩

theorem maddDirectedEdge {M : MNet} (h : KindsOk ks M) (hw : NetWF M.toNet) {p c : Nat} (hp : p < M.nodes.length) (hc : c < M.nodes.length)
    (hok : ¬ (contAt ks p = true ∧ contAt ks c = false)) :
    ∃ M' N' b, M.addDirectedEdge p c = .ok (M', b) ∧ M.toNet.addDirectedEdge p c = .ok (N', b) ∧ KindsOk ks M' ∧ SameGraph M'.toNet N' := by
  obtain ⟨M1, N1, a1, a2, a3, a4, a5, a6, a7⟩ := msetParentChild h hp hc hok
  have hp' : p < M.toNet.nodes.length := by rw [toNet_length]; exact hp
  have hc' : c < M.toNet.nodes.length := by rw [toNet_length]; exact hc
  obtain ⟨N1', b1, b2, _, _, b5, _⟩ := setParentChild_spec hw hp' hc'
  rw [a2] at b1
  cases b1
  have hcirc : M1.containCircle = N1.containCircle := a4.containCircle (a4.symm.wf b2)
  obtain ⟨b, hb, _⟩ := containCircle_eq b2
  unfold MNet.addDirectedEdge Net.addDirectedEdge
  rw [mfind_ok hp, ok_bind, mfind_ok hc, ok_bind, a1, ok_bind, hcirc, hb, ok_bind, find_ok hp', ok_bind, find_ok hc', ok_bind, a2, ok_bind, hb, ok_bind]
  cases b with
  | true =>
    rw [if_pos rfl, if_pos rfl]
    have hp1 : p < M1.nodes.length := by rw [a6]; exact hp
    have hc1 : c < M1.nodes.length := by rw [a6]; exact hc
    obtain ⟨M2, R, c1, c2, c3, c4, c5, c6⟩ := mremoveParentChild a3 hp1 hc1 (fun _ _ => a7 _ (List.getElem?_eq_getElem hc1))
    obtain ⟨R', d1, d2⟩ := a4.removeParentChild (by rw [toNet_length]; exact hp1) (by rw [toNet_length]; exact hc1) c2
    rw [c1, ok_bind, d1, ok_bind]
    exact ⟨_, _, _, rfl, rfl, c3, ⟨c4.nodes.trans d2.nodes, c4.edges.trans d2.edges⟩⟩
  | false =>
    rw [if_neg (by simp), if_neg (by simp)]
    exact ⟨_, _, _, rfl, rfl, a3.withEdges _, a4.withEdges _ (by rw [← a4.edges]; rfl)⟩

theorem mdeleteDirectedEdge {M : MNet} (h : KindsOk ks M) {p c : Nat} (hp : p < M.nodes.length) (hc : c < M.nodes.length)
    (hin : MListed M p c → contAt ks p = true → contAt ks c = true → p ∈ M.nodes[c].base.parents) :
    ∃ M' N' b, M.deleteDirectedEdge p c = .ok (M', b) ∧ M.toNet.deleteDirectedEdge p c = .ok (N', b) ∧ KindsOk ks M' ∧ SameGraph M'.toNet N' := by
  have hp' : p < M.toNet.nodes.length := by rw [toNet_length]; exact hp
  have hc' : c < M.toNet.nodes.length := by rw [toNet_length]; exact hc
  unfold MNet.deleteDirectedEdge Net.deleteDirectedEdge
  rw [mfind_ok hp, ok_bind, mfind_ok hc, ok_bind, find_ok hp', ok_bind, find_ok hc', ok_bind]
  have he : M.toNet.edges = M.edges := rfl
  rw [he]
  cases hf : findEdge M.edges (mkDirected p c) with
  | none => exact ⟨_, _, _, rfl, rfl, h, rfl, rfl⟩
  | some pos =>
    have hl : MListed M p c := by
      obtain ⟨l1, e, l2, hs, _, hsame⟩ := findEdge_some hf
      obtain ⟨s1, s2, s3, s4⟩ := same_iff.1 hsame
      exact ⟨e, by rw [hs]; simp, s1, s2, s3, s4⟩
    obtain ⟨M1, N1, a1, a2, a3, a4, a5, a6⟩ := mremoveParentChild h hp hc (hin hl)
    simp only [a1, a2, ok_bind]
    exact ⟨_, _, _, rfl, rfl, a3.withEdges _, a4.withEdges _ (by rw [← a4.edges]; rfl)⟩

theorem mdeleteUndirectedEdge {M : MNet} (h : KindsOk ks M) {p c : Nat} (hp : p < M.nodes.length) (hc : c < M.nodes.length) :
    ∃ M' N' b, M.deleteUndirectedEdge p c = .ok (M', b) ∧ M.toNet.deleteUndirectedEdge p c = .ok (N', b) ∧ KindsOk ks M' ∧ SameGraph M'.toNet N' := by
  have hp' : p < M.toNet.nodes.length := by rw [toNet_length]; exact hp
  have hc' : c < M.toNet.nodes.length := by rw [toNet_length]; exact hc
  unfold MNet.deleteUndirectedEdge Net.deleteUndirectedEdge
  have he : M.toNet.edges = M.edges := rfl
  by_cases hpc : p > c
  · simp only [if_pos hpc]
    rw [mfind_ok hp, mfind_ok hc, find_ok hp', find_ok hc', ok_bind, ok_bind, ok_bind, ok_bind, he]
    cases hf : findEdge M.edges (mkUndirected c p) with
    | none => exact ⟨_, _, _, rfl, rfl, h, rfl, rfl⟩
    | some pos => exact ⟨_, _, _, rfl, rfl, h.withEdges _, rfl, rfl⟩
  · simp only [if_neg hpc]
    rw [mfind_ok hp, mfind_ok hc, find_ok hp', find_ok hc', ok_bind, ok_bind, ok_bind, ok_bind, he]
    cases hf : findEdge M.edges (mkUndirected p c) with
    | none => exact ⟨_, _, _, rfl, rfl, h, rfl, rfl⟩
    | some pos => exact ⟨_, _, _, rfl, rfl, h.withEdges _, rfl, rfl⟩

end FastPGM
