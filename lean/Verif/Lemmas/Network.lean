import Verif.Spec.Network
import Verif.Lemmas.Graph
import Verif.Lemmas.StdSet

/-!
Lemmas about networks: the invariant kept by all edge operations.
-/

namespace FastPGM

open Spec

/-- Child set of node `i` (empty for a missing node). -/
def Net.ch (N : Net) (i : Nat) : List Nat := (N.nodes[i]?.map NodeS.children).getD []

/-- Parent set of node `i` (empty for a missing node). -/
def Net.pa (N : Net) (i : Nat) : List Nat := (N.nodes[i]?.map NodeS.parents).getD []

theorem childOf_iff {N : Net} {p c : Nat} : ChildOf N p c ↔ c ∈ N.ch p := by
  unfold ChildOf Net.ch
  cases N.nodes[p]? <;> simp

theorem parentOf_iff {N : Net} {p c : Nat} : ParentOf N p c ↔ p ∈ N.pa c := by
  unfold ParentOf Net.pa
  cases N.nodes[c]? <;> simp

/-- Shape of the parent and child sets. -/
structure NetWF (N : Net) : Prop where
  ch_sorted : ∀ i, (N.ch i).Pairwise (· < ·)
  pa_sorted : ∀ i, (N.pa i).Pairwise (· < ·)
  ch_lt : ∀ i, ∀ c ∈ N.ch i, c < N.nodes.length
  sym : ∀ p c, c ∈ N.ch p ↔ p ∈ N.pa c

theorem NetWF.lt {N : Net} (h : NetWF N) {p c : Nat} (hc : c ∈ N.ch p) : p < N.nodes.length ∧ c < N.nodes.length := by
  refine ⟨?_, h.ch_lt p c hc⟩
  by_contra hp
  unfold Net.ch at hc
  rw [List.getElem?_eq_none (by omega)] at hc
  simp at hc

theorem find_ok {N : Net} {i : Nat} (h : i < N.nodes.length) : N.find i = .ok N.nodes[i] := by
  unfold Net.find
  rw [List.getElem?_eq_getElem h]

theorem find_error {N : Net} {i : Nat} (h : N.nodes.length ≤ i) : N.find i = .error .exit := by
  unfold Net.find
  rw [List.getElem?_eq_none h]

theorem ch_of_lt {N : Net} {i : Nat} (h : i < N.nodes.length) : N.ch i = N.nodes[i].children := by
  unfold Net.ch
  rw [List.getElem?_eq_getElem h]; rfl

theorem pa_of_lt {N : Net} {i : Nat} (h : i < N.nodes.length) : N.pa i = N.nodes[i].parents := by
  unfold Net.pa
  rw [List.getElem?_eq_getElem h]; rfl

/-! ### Adjacency matrix -/

theorem matrix_row {n i : Nat} (hi : i < n) (l : List Nat) (hl : ∀ c ∈ l, c < n) (hn : l.Nodup) (g : Nat → Nat → Int)
    (d : Nat → Int) :
    l.foldlM (fun (st : List (List Int) × List Int) c => do
      let row ← rd st.1 i
      let row' ← wr row c 1
      let g ← wr st.1 i row'
      let d ← rd st.2 c
      let deg ← wr st.2 c (d + 1)
      (return (g, deg) : Except Fault _)) (matOf n g, tab n d) =
    .ok (matOf n (fun i' j => if i' = i ∧ j ∈ l then 1 else g i' j), tab n (fun j => d j + if j ∈ l then 1 else 0)) := by
  induction l generalizing g d with
  | nil => simp [pure_eq_ok]
  | cons c l ih =>
    have hc := hl c (by simp)
    rw [List.foldlM_cons]
    simp only [matOf, rd_tab hi, ok_bind, wr_tab hc, wr_tab hi, rd_tab hc, pure_eq_ok]
    have e1 : (tab n fun j => if j = i then tab n fun j => if j = c then (1 : Int) else g i j else tab n (g j)) =
        matOf n (fun i' j => if i' = i ∧ j = c then 1 else g i' j) := by
      apply tab_congr
      intro j _
      by_cases h : j = i
      · subst h; simp
      · simp [h]
    rw [e1]
    have := ih (fun x hx => hl x (by simp [hx])) (List.nodup_cons.1 hn).2 (fun i' j => if i' = i ∧ j = c then 1 else g i' j)
      (fun j => if j = c then d c + 1 else d j)
    refine this.trans ?_
    congr 2
    · apply tab_congr
      intro j _
      apply tab_congr
      intro k _
      by_cases h : j = i
      · by_cases h2 : k = c
        · simp [h, h2]
        · simp [h, h2]
      · simp [h]
    · apply tab_congr
      intro j _
      by_cases h2 : j = c
      · subst h2
        simp [(List.nodup_cons.1 hn).1]
      · simp [h2]

theorem matrix_eq {N : Net} (h : NetWF N) :
    N.matrix = .ok (matOf N.nodes.length (fun i j => if j ∈ N.ch i then 1 else 0),
      tab N.nodes.length (fun j => (indeg N.nodes.length (fun i j => decide (j ∈ N.ch i)) [] j : Int))) := by
  have key := foldlM_range_eq (f := fun (st : List (List Int) × List Int) i => do
      let s ← N.find i
      s.children.foldlM (fun (st : List (List Int) × List Int) c => do
        let row ← rd st.1 i
        let row' ← wr row c 1
        let g ← wr st.1 i row'
        let d ← rd st.2 c
        let deg ← wr st.2 c (d + 1)
        (return (g, deg) : Except Fault _)) st)
    (s := fun k => (matOf N.nodes.length (fun i j => if i < k ∧ j ∈ N.ch i then 1 else 0),
      tab N.nodes.length (fun j => (indeg k (fun i j => decide (j ∈ N.ch i)) [] j : Int)))) (n := N.nodes.length) ?_
  · unfold Net.matrix
    have hz : ((matOf N.nodes.length (fun i j => if i < 0 ∧ j ∈ N.ch i then (1 : Int) else 0),
      tab N.nodes.length (fun j => (indeg 0 (fun i j => decide (j ∈ N.ch i)) [] j : Int))) : List (List Int) × List Int) =
      (List.replicate N.nodes.length (List.replicate N.nodes.length 0), List.replicate N.nodes.length 0) := by
      rw [replicate_eq_tab, replicate_eq_tab]
      simp [matOf, indeg]
    rw [hz] at key
    refine key.trans ?_
    congr 2
    apply tab_congr
    intro i hi
    apply tab_congr
    intro j _
    simp [hi]
  · intro i hi
    rw [find_ok hi, ok_bind, ← ch_of_lt hi]
    refine (matrix_row hi (N.ch i) (h.ch_lt i) (nodup_of_sorted (h.ch_sorted i)) _ _).trans ?_
    congr 2
    · apply tab_congr
      intro i' _
      apply tab_congr
      intro j _
      by_cases h1 : i' = i
      · subst h1; simp
      · have : i' < i + 1 ↔ i' < i := by omega
        simp [h1, this]
    · apply tab_congr
      intro j _
      unfold indeg
      rw [List.range_succ, List.filter_append, List.filter_singleton, List.length_append]
      by_cases h1 : j ∈ N.ch i <;> simp [h1]

theorem containCircle_eq {N : Net} (h : NetWF N) :
    ∃ b, N.containCircle = .ok b ∧ (b = true ↔ Cyclic (ChildOf N)) := by
  unfold Net.containCircle
  rw [matrix_eq h, ok_bind]
  have hinit := kahnInv_init (n := N.nodes.length) (e := fun i j => decide (j ∈ N.ch i))
  obtain ⟨L, hL, _, h2⟩ := kahnLoop_spec (n := N.nodes.length) (e := fun i j => decide (j ∈ N.ch i))
    (g := fun i j => if j ∈ N.ch i then 1 else 0) (fun i j => by by_cases h : j ∈ N.ch i <;> simp [h]) N.nodes.length _ _
    hinit (by simp)
  refine ⟨decide (L.length ≠ N.nodes.length), ?_, ?_⟩
  · show directedGraphContainsCircle _ _ _ = _
    unfold directedGraphContainsCircle
    rw [initialQueue_tab, ok_bind]
    have hq : (List.range N.nodes.length).filter
        (fun j => decide ((indeg N.nodes.length (fun i j => decide (j ∈ N.ch i)) [] j : Int) = 0)) =
        (List.range N.nodes.length).filter
          (fun j => decide (indeg N.nodes.length (fun i j => decide (j ∈ N.ch i)) [] j = 0)) := by
      apply List.filter_congr
      intro j _
      have hiff : ((indeg N.nodes.length (fun i j => decide (j ∈ N.ch i)) [] j : Int) = 0) ↔
        (indeg N.nodes.length (fun i j => decide (j ∈ N.ch i)) [] j = 0) := by omega
      simp only [hiff]
    rw [hq]
    have h2' : circleLoop (matOf N.nodes.length fun i j => if j ∈ N.ch i then 1 else 0) N.nodes.length N.nodes.length
      (tab N.nodes.length fun j => (indeg N.nodes.length (fun i j => decide (j ∈ N.ch i)) [] j : Int))
      ((List.range N.nodes.length).filter
          (fun j => decide (indeg N.nodes.length (fun i j => decide (j ∈ N.ch i)) [] j = 0))) 0 = .ok L.length := h2
    rw [h2', ok_bind]
    rfl
  · rw [decide_eq_true_iff, Ne, kahn_complete_iff (E := ChildOf N) ?_ hL, not_not]
    intro i j
    rw [childOf_iff]
    constructor
    · intro hc
      exact ⟨(h.lt hc).1, (h.lt hc).2, by simpa using hc⟩
    · rintro ⟨_, _, hc⟩
      simpa using hc

theorem genTopoOrd_eq {N : Net} (h : NetWF N) (hac : ¬ Cyclic (ChildOf N)) :
    ∃ L, N.genTopoOrd = .ok L ∧ IsTopologicalOrder N.nodes.length (ChildOf N) L := by
  unfold Net.genTopoOrd
  rw [matrix_eq h, ok_bind]
  have hinit := kahnInv_init (n := N.nodes.length) (e := fun i j => decide (j ∈ N.ch i))
  obtain ⟨L, hL, h1, _⟩ := kahnLoop_spec (n := N.nodes.length) (e := fun i j => decide (j ∈ N.ch i))
    (g := fun i j => if j ∈ N.ch i then 1 else 0) (fun i j => by by_cases h : j ∈ N.ch i <;> simp [h]) N.nodes.length _ _
    hinit (by simp)
  have hE : ∀ i j, ChildOf N i j ↔ i < N.nodes.length ∧ j < N.nodes.length ∧ decide (j ∈ N.ch i) = true := by
    intro i j
    rw [childOf_iff]
    constructor
    · intro hc
      exact ⟨(h.lt hc).1, (h.lt hc).2, by simpa using hc⟩
    · rintro ⟨_, _, hc⟩
      simpa using hc
  have hm := hL.complete_iff.1 ((kahn_complete_iff (E := ChildOf N) hE hL).2 hac)
  refine ⟨L, ?_, by simpa using hL.nodup, hm, ?_⟩
  · show topoSort _ _ _ = _
    unfold topoSort
    rw [initialQueue_tab, ok_bind]
    have hq : (List.range N.nodes.length).filter
        (fun j => decide ((indeg N.nodes.length (fun i j => decide (j ∈ N.ch i)) [] j : Int) = 0)) =
        (List.range N.nodes.length).filter
          (fun j => decide (indeg N.nodes.length (fun i j => decide (j ∈ N.ch i)) [] j = 0)) := by
      apply List.filter_congr
      intro j _
      have hiff : ((indeg N.nodes.length (fun i j => decide (j ∈ N.ch i)) [] j : Int) = 0) ↔
        (indeg N.nodes.length (fun i j => decide (j ∈ N.ch i)) [] j = 0) := by omega
      simp only [hiff]
    rw [hq]
    exact h1
  · intro a b hab
    obtain ⟨ha, hb, he⟩ := (hE a b).1 hab
    exact hL.topological hm ha hb he

/-! ### Parent and child sets -/

theorem erase_sorted {l : List Nat} {x : Nat} (h : l.Pairwise (· < ·)) : (l.erase x).Pairwise (· < ·) :=
  h.sublist List.erase_sublist

theorem mem_erase_sorted {l : List Nat} {x y : Nat} (h : l.Pairwise (· < ·)) : y ∈ l.erase x ↔ y ≠ x ∧ y ∈ l :=
  (nodup_of_sorted h).mem_erase_iff

theorem setParentChild_spec {N : Net} (h : NetWF N) {p c : Nat} (hp : p < N.nodes.length) (hc : c < N.nodes.length) :
    ∃ N1, N.setParentChild p c = .ok N1 ∧ NetWF N1 ∧ N1.edges = N.edges ∧ N1.topo = N.topo ∧
      N1.nodes.length = N.nodes.length ∧ (∀ a b, b ∈ N1.ch a ↔ b ∈ N.ch a ∨ (a = p ∧ b = c)) := by
  unfold Net.setParentChild
  rw [find_ok hp, ok_bind]
  simp only
  rw [find_ok (by simpa using hc), ok_bind]
  refine ⟨_, rfl, ?_⟩
  generalize hN1 : ({ N with nodes := (N.nodes.set p (N.nodes[p].addChild c)).set c _ } : Net) = N1
  have hlen : N1.nodes.length = N.nodes.length := by subst hN1; simp
  have hch : ∀ a, N1.ch a = if a = p then setInsert c (N.ch a) else N.ch a := by
    intro a
    subst hN1
    unfold Net.ch
    simp only [List.getElem?_set, List.length_set]
    by_cases h1 : c = a
    · subst h1
      rw [if_pos rfl, if_pos hc]
      simp only [List.getElem_set, Option.map_some, Option.getD_some]
      by_cases h2 : p = c
      · subst h2
        simp only [NodeS.addChild, NodeS.addParent, if_true, List.getElem?_eq_getElem hp, Option.map_some, Option.getD_some]
        split <;> rfl
      · have h2' : ¬ c = p := fun e => h2 e.symm
        simp only [if_neg h2, if_neg h2', List.getElem?_eq_getElem hc, Option.map_some, Option.getD_some, NodeS.addParent]
        split <;> rfl
    · rw [if_neg h1]
      by_cases h2 : p = a
      · subst h2
        simp [hp, NodeS.addChild]
      · rw [if_neg h2, if_neg (fun e => h2 e.symm)]
  have hpa : ∀ b, N1.pa b = if b = c then (if p ∈ N.pa b then N.pa b else setInsert p (N.pa b)) else N.pa b := by
    intro b
    subst hN1
    unfold Net.pa
    simp only [List.getElem?_set, List.length_set]
    by_cases h1 : c = b
    · subst h1
      rw [if_pos rfl, if_pos hc]
      simp only [List.getElem_set, Option.map_some, Option.getD_some, if_true, List.getElem?_eq_getElem hc]
      by_cases h2 : p = c
      · subst h2
        simp only [NodeS.addChild, NodeS.addParent, if_true]
        split <;> rfl
      · simp only [if_neg h2, NodeS.addParent]
        split <;> rfl
    · have h1' : ¬ b = c := fun e => h1 e.symm
      simp only [if_neg h1, if_neg h1']
      by_cases h2 : p = b
      · subst h2
        simp [hp, NodeS.addChild]
      · rw [if_neg h2]
  have hmem : ∀ a b, b ∈ N1.ch a ↔ b ∈ N.ch a ∨ (a = p ∧ b = c) := by
    intro a b
    rw [hch]
    split
    · rename_i e; rw [mem_setInsert]; tauto
    · rename_i e; tauto
  have hmem' : ∀ a b, a ∈ N1.pa b ↔ a ∈ N.pa b ∨ (a = p ∧ b = c) := by
    intro a b
    rw [hpa]
    split
    · rename_i e
      split
      · rename_i e2
        constructor
        · exact Or.inl
        · rintro (h1 | ⟨rfl, rfl⟩)
          · exact h1
          · exact e2
      · rw [mem_setInsert]; tauto
    · rename_i e; tauto
  refine ⟨⟨?_, ?_, ?_, ?_⟩, ?_, ?_, hlen, hmem⟩
  · intro i
    rw [hch]
    split
    · exact setInsert_sorted (h.ch_sorted i)
    · exact h.ch_sorted i
  · intro i
    rw [hpa]
    split
    · split
      · exact h.pa_sorted i
      · exact setInsert_sorted (h.pa_sorted i)
    · exact h.pa_sorted i
  · intro i x hx
    rw [hlen]
    rcases (hmem i x).1 hx with h1 | ⟨_, rfl⟩
    · exact h.ch_lt i x h1
    · exact hc
  · intro a b
    rw [hmem, hmem', h.sym]
  · subst hN1; rfl
  · subst hN1; rfl

theorem removeParentChild_spec {N : Net} (h : NetWF N) {p c : Nat} (hp : p < N.nodes.length) (hc : c < N.nodes.length) :
    ∃ N1, N.removeParentChild p c = .ok N1 ∧ NetWF N1 ∧ N1.edges = N.edges ∧ N1.topo = N.topo ∧
      N1.nodes.length = N.nodes.length ∧ (∀ a b, b ∈ N1.ch a ↔ b ∈ N.ch a ∧ ¬ (a = p ∧ b = c)) := by
  unfold Net.removeParentChild
  rw [find_ok hp, ok_bind]
  simp only
  rw [find_ok (by simpa using hc), ok_bind]
  refine ⟨_, rfl, ?_⟩
  generalize hN1 : ({ N with nodes := (N.nodes.set p (N.nodes[p].removeChild c)).set c _ } : Net) = N1
  have hlen : N1.nodes.length = N.nodes.length := by subst hN1; simp
  have hch : ∀ a, N1.ch a = if a = p then (N.ch a).erase c else N.ch a := by
    intro a
    subst hN1
    unfold Net.ch
    simp only [List.getElem?_set, List.length_set]
    by_cases h1 : c = a
    · subst h1
      rw [if_pos rfl, if_pos hc]
      simp only [List.getElem_set, Option.map_some, Option.getD_some]
      by_cases h2 : p = c
      · subst h2
        simp only [NodeS.removeChild, NodeS.removeParent, if_true, List.getElem?_eq_getElem hp, Option.map_some,
          Option.getD_some]
        split <;> rfl
      · have h2' : ¬ c = p := fun e => h2 e.symm
        simp only [if_neg h2, if_neg h2', List.getElem?_eq_getElem hc, Option.map_some, Option.getD_some, NodeS.removeParent]
        split <;> rfl
    · rw [if_neg h1]
      by_cases h2 : p = a
      · subst h2
        simp [hp, NodeS.removeChild]
      · rw [if_neg h2, if_neg (fun e => h2 e.symm)]
  have hpa : ∀ b, N1.pa b = if b = c then (N.pa b).erase p else N.pa b := by
    intro b
    subst hN1
    unfold Net.pa
    simp only [List.getElem?_set, List.length_set]
    by_cases h1 : c = b
    · subst h1
      rw [if_pos rfl, if_pos hc]
      simp only [List.getElem_set, Option.map_some, Option.getD_some, if_true, List.getElem?_eq_getElem hc]
      by_cases h2 : p = c
      · subst h2
        simp only [NodeS.removeChild, NodeS.removeParent, if_true]
        split
        · rfl
        · rename_i hne
          exact (List.erase_of_not_mem hne).symm
      · simp only [if_neg h2, NodeS.removeParent]
        split
        · rfl
        · rename_i hne
          exact (List.erase_of_not_mem hne).symm
    · have h1' : ¬ b = c := fun e => h1 e.symm
      simp only [if_neg h1, if_neg h1']
      by_cases h2 : p = b
      · subst h2
        simp [hp, NodeS.removeChild]
      · rw [if_neg h2]
  have hmem : ∀ a b, b ∈ N1.ch a ↔ b ∈ N.ch a ∧ ¬ (a = p ∧ b = c) := by
    intro a b
    rw [hch]
    split
    · rename_i e; rw [mem_erase_sorted (h.ch_sorted a)]; tauto
    · rename_i e; tauto
  have hmem' : ∀ a b, a ∈ N1.pa b ↔ a ∈ N.pa b ∧ ¬ (a = p ∧ b = c) := by
    intro a b
    rw [hpa]
    split
    · rename_i e; rw [mem_erase_sorted (h.pa_sorted b)]; tauto
    · rename_i e; tauto
  refine ⟨⟨?_, ?_, ?_, ?_⟩, ?_, ?_, hlen, hmem⟩
  · intro i
    rw [hch]
    split
    · exact erase_sorted (h.ch_sorted i)
    · exact h.ch_sorted i
  · intro i
    rw [hpa]
    split
    · exact erase_sorted (h.pa_sorted i)
    · exact h.pa_sorted i
  · intro i x hx
    rw [hlen]
    exact h.ch_lt i x ((hmem i x).1 hx).1
  · intro a b
    rw [hmem, hmem', h.sym]
  · subst hN1; rfl
  · subst hN1; rfl

/-! ### The invariant of all edge operations -/

/-- Well-formed and acyclic. -/
structure NetInv (N : Net) : Prop where
  wf : NetWF N
  acyclic : ¬ Cyclic (ChildOf N)

theorem cyclic_mono {E F : Nat → Nat → Prop} (h : ∀ a b, E a b → F a b) : Cyclic E → Cyclic F := by
  rintro ⟨i, hi⟩
  exact ⟨i, Relation.TransGen.mono (fun a b => h a b) _ _ hi⟩

/-- `E` with the edge `p → c`. -/
def withEdge (E : Nat → Nat → Prop) (p c a b : Nat) : Prop := E a b ∨ (a = p ∧ b = c)

theorem addDirectedEdge_spec {N : Net} (h : NetInv N) {p c : Nat} (hp : p < N.nodes.length) (hc : c < N.nodes.length) :
    ∃ N' b, N.addDirectedEdge p c = .ok (N', b) ∧ NetInv N' ∧ N'.nodes.length = N.nodes.length ∧ N'.topo = N.topo ∧
      (b = true ↔ ¬ Cyclic (withEdge (ChildOf N) p c)) ∧
      (b = false → (∀ a d, d ∈ N'.ch a ↔ d ∈ N.ch a) ∧ N'.edges = N.edges) ∧
      (b = true → (∀ a d, d ∈ N'.ch a ↔ d ∈ N.ch a ∨ (a = p ∧ d = c)) ∧ N'.edges = N.edges ++ [mkDirected p c]) := by
  obtain ⟨N1, h1, hwf1, hed1, ht1, hlen1, hm1⟩ := setParentChild_spec h.wf hp hc
  obtain ⟨b, hb, hcyc⟩ := containCircle_eq hwf1
  have hrel : ∀ a d, ChildOf N1 a d ↔ withEdge (ChildOf N) p c a d := by
    intro a d; rw [childOf_iff, hm1, withEdge, childOf_iff]
  have hcyc' : b = true ↔ Cyclic (withEdge (ChildOf N) p c) := by
    rw [hcyc]
    exact ⟨cyclic_mono (fun a d => (hrel a d).1), cyclic_mono (fun a d => (hrel a d).2)⟩
  unfold Net.addDirectedEdge
  rw [find_ok hp, ok_bind, find_ok hc, ok_bind, h1, ok_bind, hb, ok_bind]
  cases b with
  | true =>
    rw [if_pos rfl]
    obtain ⟨N2, h2, hwf2, hed2, ht2, hlen2, hm2⟩ := removeParentChild_spec hwf1 (p := p) (c := c) (by omega) (by omega)
    rw [h2, ok_bind]
    have hnew : c ∉ N.ch p := by
      intro hin
      apply h.acyclic
      refine cyclic_mono ?_ (hcyc'.1 rfl)
      rintro a d (hh | ⟨rfl, rfl⟩)
      · exact hh
      · exact childOf_iff.2 hin
    have hsame : ∀ a d, d ∈ N2.ch a ↔ d ∈ N.ch a := by
      intro a d
      rw [hm2, hm1]
      constructor
      · rintro ⟨h3 | h3, h4⟩
        · exact h3
        · exact absurd h3 h4
      · intro h3
        refine ⟨Or.inl h3, ?_⟩
        rintro ⟨rfl, rfl⟩
        exact hnew h3
    refine ⟨N2, false, rfl, ⟨hwf2, ?_⟩, by omega, by rw [ht2, ht1], ?_, fun _ => ⟨hsame, by rw [hed2, hed1]⟩, ?_⟩
    · intro hcy
      exact h.acyclic (cyclic_mono (fun a d => by rw [childOf_iff, childOf_iff, hsame]; exact id) hcy)
    · simp only [Bool.false_eq_true, false_iff, not_not]
      exact hcyc'.1 rfl
    · intro h; cases h
  | false =>
    rw [if_neg (by simp)]
    refine ⟨_, true, rfl, ⟨⟨hwf1.1, hwf1.2, hwf1.3, hwf1.4⟩, ?_⟩, hlen1, ht1, ?_, ?_, fun _ => ⟨hm1, ?_⟩⟩
    · intro hcy
      have := hcyc.2 hcy
      cases this
    · simp only [true_iff]
      intro hcy
      exact absurd (hcyc'.2 hcy) (by simp)
    · intro h; cases h
    · show N1.edges ++ _ = _
      rw [hed1]

theorem NetInv.withEdges {N : Net} (h : NetInv N) (es : List Edge) : NetInv { N with edges := es } :=
  ⟨⟨h.wf.1, h.wf.2, h.wf.3, h.wf.4⟩, h.acyclic⟩

theorem deleteDirectedEdge_spec {N : Net} (h : NetInv N) {p c : Nat} (hp : p < N.nodes.length) (hc : c < N.nodes.length) :
    ∃ N' b, N.deleteDirectedEdge p c = .ok (N', b) ∧ NetInv N' ∧ N'.nodes.length = N.nodes.length ∧ N'.topo = N.topo ∧
      ((findEdge N.edges (mkDirected p c) = none ∧ b = false ∧ N' = N) ∨
        ∃ pos, findEdge N.edges (mkDirected p c) = some pos ∧ b = true ∧ N'.edges = N.edges.eraseIdx pos ∧
          ∀ a d, d ∈ N'.ch a ↔ d ∈ N.ch a ∧ ¬ (a = p ∧ d = c)) := by
  unfold Net.deleteDirectedEdge
  rw [find_ok hp, ok_bind, find_ok hc, ok_bind]
  cases hf : findEdge N.edges (mkDirected p c) with
  | none => exact ⟨N, false, rfl, h, rfl, rfl, Or.inl ⟨rfl, rfl, rfl⟩⟩
  | some pos =>
    obtain ⟨N1, h1, hwf1, hed1, ht1, hlen1, hm1⟩ := removeParentChild_spec h.wf hp hc
    simp only [h1, ok_bind]
    refine ⟨_, true, rfl, NetInv.withEdges ⟨hwf1, ?_⟩ _, hlen1, ht1, Or.inr ⟨pos, rfl, rfl, ?_, hm1⟩⟩
    · intro hcy
      refine h.acyclic (cyclic_mono ?_ hcy)
      intro a d
      rw [childOf_iff, childOf_iff, hm1]
      exact fun h => h.1
    · show N1.edges.eraseIdx pos = _
      rw [hed1]

theorem deleteUndirectedEdge_spec {N : Net} {p c : Nat} (hp : p < N.nodes.length) (hc : c < N.nodes.length) :
    ∃ N' b, N.deleteUndirectedEdge p c = .ok (N', b) ∧
      ((findEdge N.edges (mkUndirected p c) = none ∧ b = false ∧ N' = N) ∨
        ∃ pos, findEdge N.edges (mkUndirected p c) = some pos ∧ b = true ∧ N' = { N with edges := N.edges.eraseIdx pos }) := by
  unfold Net.deleteUndirectedEdge
  have hsym : mkUndirected c p = mkUndirected p c := by
    unfold mkUndirected
    rcases Nat.lt_trichotomy p c with h | h | h
    · rw [if_neg (by omega), if_pos h]
    · subst h; rfl
    · rw [if_pos h, if_neg (by omega)]
  by_cases h : p > c
  · simp only [if_pos h]
    rw [find_ok hc, ok_bind, find_ok hp, ok_bind, hsym]
    cases hf : findEdge N.edges (mkUndirected p c) with
    | none => exact ⟨N, false, rfl, Or.inl ⟨rfl, rfl, rfl⟩⟩
    | some pos => exact ⟨_, true, rfl, Or.inr ⟨pos, rfl, rfl, rfl⟩⟩
  · simp only [if_neg h]
    rw [find_ok hp, ok_bind, find_ok hc, ok_bind]
    cases hf : findEdge N.edges (mkUndirected p c) with
    | none => exact ⟨N, false, rfl, Or.inl ⟨rfl, rfl, rfl⟩⟩
    | some pos => exact ⟨_, true, rfl, Or.inr ⟨pos, rfl, rfl, rfl⟩⟩

theorem apply_inv {N : Net} (h : NetInv N) {op : EdgeOp} (hop : OpInRange N.nodes.length op) :
    ∃ N', N.apply op = .ok N' ∧ NetInv N' ∧ N'.nodes.length = N.nodes.length := by
  cases op with
  | addDirected p c =>
    obtain ⟨N', b, h1, h2, h3, _⟩ := addDirectedEdge_spec h hop.1 hop.2
    exact ⟨N', by simp [Net.apply, h1, ok_bind, pure_eq_ok], h2, h3⟩
  | deleteDirected p c =>
    obtain ⟨N', b, h1, h2, h3, _⟩ := deleteDirectedEdge_spec h hop.1 hop.2
    exact ⟨N', by simp [Net.apply, h1, ok_bind, pure_eq_ok], h2, h3⟩
  | addUndirected p c =>
    refine ⟨{ N with edges := N.edges ++ [mkUndirected p c] }, ?_, h.withEdges _, rfl⟩
    simp [Net.apply, Net.addUndirectedEdge, find_ok hop.1, find_ok hop.2, ok_bind, pure_eq_ok]
  | deleteUndirected p c =>
    obtain ⟨N', b, h1, h2⟩ := deleteUndirectedEdge_spec (N := N) hop.1 hop.2
    refine ⟨N', by simp [Net.apply, h1, ok_bind, pure_eq_ok], ?_⟩
    rcases h2 with ⟨_, _, rfl⟩ | ⟨pos, _, _, rfl⟩
    · exact ⟨h, rfl⟩
    · exact ⟨h.withEdges _, rfl⟩

theorem run_inv {N : Net} (h : NetInv N) {ops : List EdgeOp} (hop : ∀ op ∈ ops, OpInRange N.nodes.length op) :
    ∃ N', N.run ops = .ok N' ∧ NetInv N' ∧ N'.nodes.length = N.nodes.length := by
  induction ops generalizing N with
  | nil => exact ⟨N, rfl, h, rfl⟩
  | cons op ops ih =>
    obtain ⟨N1, h1, h2, h3⟩ := apply_inv h (hop op (by simp))
    obtain ⟨N2, h4, h5, h6⟩ := ih h2 (fun o ho => by rw [h3]; exact hop o (by simp [ho]))
    refine ⟨N2, ?_, h5, by omega⟩
    unfold Net.run
    rw [List.foldlM_cons, h1, ok_bind]
    exact h4

theorem empty_inv (dims : List Nat) : NetInv (Net.empty dims) := by
  have hch : ∀ i, (Net.empty dims).ch i = [] := by
    intro i
    unfold Net.ch Net.empty
    simp only [List.getElem?_map]
    cases dims[i]? <;> rfl
  have hpa : ∀ i, (Net.empty dims).pa i = [] := by
    intro i
    unfold Net.pa Net.empty
    simp only [List.getElem?_map]
    cases dims[i]? <;> rfl
  refine ⟨⟨fun i => by simp [hch], fun i => by simp [hpa], fun i => by simp [hch], fun p c => by simp [hch, hpa]⟩, ?_⟩
  rintro ⟨i, hi⟩
  have : ∀ a b, ¬ Relation.TransGen (ChildOf (Net.empty dims)) a b := by
    intro a b hab
    induction hab with
    | single h => rw [childOf_iff, hch] at h; simp at h
    | tail _ _ ih => exact ih
  exact this i i hi

end FastPGM
