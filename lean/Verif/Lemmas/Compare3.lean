import Verif.Lemmas.Compare2
import Verif.Props.Network
import Verif.Spec.Compelled
import Mathlib.Algebra.BigOperators.Intervals
import Mathlib.Algebra.Order.BigOperators.Group.Finset

/-!
Edge lists of histories, the whole of `FindCompelled` on them, and the structural Hamming distance.
-/

namespace FastPGM

open Spec Relation

theorem bind_eq_ok' {ε α β : Type} {x : Except ε α} {f : α → Except ε β} {b : β} (h : (x >>= f) = .ok b) : ∃ a, x = .ok a ∧ f a = .ok b := by
  cases x with
  | error e => cases h
  | ok a => exact ⟨a, rfl, h⟩

/-- The edges come from the two constructors and no order is cached. -/
structure PlainNet (N : Net) : Prop where
  made : ∀ e ∈ N.edges, ∃ a b, e = mkDirected a b ∨ e = mkUndirected a b
  topo : N.topo = []

theorem setParentChild_rest {N N' : Net} {p c : Nat} (h : N.setParentChild p c = .ok N') : N'.edges = N.edges ∧ N'.topo = N.topo := by
  obtain ⟨_, _, h⟩ := bind_eq_ok' h
  obtain ⟨_, _, h⟩ := bind_eq_ok' h
  cases h
  exact ⟨rfl, rfl⟩

theorem removeParentChild_rest {N N' : Net} {p c : Nat} (h : N.removeParentChild p c = .ok N') : N'.edges = N.edges ∧ N'.topo = N.topo := by
  obtain ⟨_, _, h⟩ := bind_eq_ok' h
  obtain ⟨_, _, h⟩ := bind_eq_ok' h
  cases h
  exact ⟨rfl, rfl⟩

theorem plainNet_apply {N N' : Net} (hp : PlainNet N) {op : EdgeOp} (h : N.apply op = .ok N') : PlainNet N' := by
  cases op with
  | addDirected p c =>
    obtain ⟨r, hr, h'⟩ := bind_eq_ok' h
    clear h
    cases h'
    rename' hr => h
    obtain ⟨_, _, h⟩ := bind_eq_ok' h
    obtain ⟨_, _, h⟩ := bind_eq_ok' h
    obtain ⟨N1, h1, h⟩ := bind_eq_ok' h
    obtain ⟨b, _, h⟩ := bind_eq_ok' h
    obtain ⟨e1, t1⟩ := setParentChild_rest h1
    cases b with
    | true =>
      obtain ⟨N2, h2, h⟩ := bind_eq_ok' h
      cases h
      obtain ⟨e2, t2⟩ := removeParentChild_rest h2
      exact ⟨by rw [e2, e1]; exact hp.made, by rw [t2, t1]; exact hp.topo⟩
    | false =>
      cases h
      refine ⟨?_, by rw [← hp.topo, ← t1]⟩
      intro e he
      rcases List.mem_append.1 he with he | he
      · exact hp.made e (by rw [← e1]; exact he)
      · exact ⟨p, c, Or.inl (List.mem_singleton.1 he)⟩
  | deleteDirected p c =>
    obtain ⟨r, hr, h'⟩ := bind_eq_ok' h
    clear h
    cases h'
    rename' hr => h
    obtain ⟨_, _, h⟩ := bind_eq_ok' h
    obtain ⟨_, _, h⟩ := bind_eq_ok' h
    split at h
    · cases h
      exact hp
    · obtain ⟨N1, h1, h⟩ := bind_eq_ok' h
      cases h
      obtain ⟨e1, t1⟩ := removeParentChild_rest h1
      exact ⟨fun e he => hp.made e (by rw [← e1]; exact List.mem_of_mem_eraseIdx he), by rw [← hp.topo, ← t1]⟩
  | addUndirected p c =>
    obtain ⟨_, _, h⟩ := bind_eq_ok' h
    obtain ⟨_, _, h⟩ := bind_eq_ok' h
    cases h
    refine ⟨?_, hp.topo⟩
    intro e he
    rcases List.mem_append.1 he with he | he
    · exact hp.made e he
    · exact ⟨p, c, Or.inr (List.mem_singleton.1 he)⟩
  | deleteUndirected p c =>
    obtain ⟨r, hr, h'⟩ := bind_eq_ok' h
    clear h
    cases h'
    rename' hr => h
    unfold Net.deleteUndirectedEdge at h
    split at h
    rename_i p' c' _
    obtain ⟨_, _, h⟩ := bind_eq_ok' h
    obtain ⟨_, _, h⟩ := bind_eq_ok' h
    split at h
    · cases h
      exact hp
    · cases h
      exact ⟨fun e he => hp.made e (List.mem_of_mem_eraseIdx he), hp.topo⟩

theorem plainNet_run {ops : List EdgeOp} : ∀ {N N' : Net}, PlainNet N → N.run ops = .ok N' → PlainNet N' := by
  induction ops with
  | nil => intro N N' hp h; cases h; exact hp
  | cons op ops ih =>
    intro N N' hp h
    unfold Net.run at h
    rw [List.foldlM_cons] at h
    obtain ⟨N1, h1, h⟩ := bind_eq_ok' h
    exact ih (plainNet_apply hp h1) h

theorem plainNet_empty (dims : List Nat) : PlainNet (Net.empty dims) := ⟨by simp [Net.empty], rfl⟩

theorem mkDirected_isDirected (a b : Nat) : (mkDirected a b).isDirected = true := rfl

theorem mkUndirected_isDirected (a b : Nat) : (mkUndirected a b).isDirected = false := by
  unfold mkUndirected
  split <;> rfl

/-- The edge list of a history with only directed edges left. -/
theorem history_edges {dims : List Nat} {ops : List EdgeOp} (hops : ∀ op ∈ ops, OpInRange dims.length op)
    (hf : FreshRun (Net.empty dims) ops) {N : Net} (hN : (Net.empty dims).run ops = .ok N) (hdir : ∀ e ∈ N.edges, e.isDirected = true) :
    NetInv N ∧ N.nodes.length = dims.length ∧ N.topo = [] ∧ ∃ keys : List (Nat × Nat), keys.Nodup ∧
      (∀ k, k ∈ keys ↔ k.1 ∈ N.pa k.2) ∧ N.edges = edgesOf keys (fun _ => false) (fun _ => .unset) ∧ keys = N.edges.map (fun e => (e.node1, e.node2)) := by
  obtain ⟨N', h1, h2, h3⟩ := edgeInv_run (edgeInv_empty dims) (ops := ops) (by simpa [Net.empty] using hops) hf
  rw [hN] at h1
  cases h1
  have hp := plainNet_run (plainNet_empty dims) hN
  have hd : ∀ e ∈ N.edges, e = mkDirected e.node1 e.node2 := by
    intro e he
    obtain ⟨a, b, rfl | rfl⟩ := hp.made e he
    · rfl
    · have := hdir _ he
      rw [mkUndirected_isDirected] at this
      cases this
  have hk : dirPairs N.edges = N.edges.map (fun e => (e.node1, e.node2)) := by
    unfold dirPairs
    rw [← List.filterMap_eq_map]
    apply List.filterMap_congr
    intro e he
    rw [hd e he]
    rfl
  refine ⟨h2.inv, by simpa [Net.empty] using h3, hp.topo, dirPairs N.edges, h2.nodup, ?_, ?_, hk⟩
  · rintro ⟨p, c⟩
    rw [h2.mem, h2.inv.wf.sym]
  · rw [hk]
    unfold edgesOf
    rw [List.map_map]
    conv_lhs => rw [← List.map_id N.edges]
    apply List.map_congr_left
    intro e he
    exact hd e he

section label
open Classical

theorem lastParent_iff {T : List Nat} {D : Nat → Nat → Prop} {x y : Nat} : LastParent D T.idxOf x y ↔ LastParentIn T D x y :=
  ⟨fun h => ⟨h.par, h.last⟩, fun h => ⟨h.1, h.2⟩⟩

/-- Labels that obey the rules exist for the parent relation of a network. -/
theorem net_labels {N : Net} (hinv : NetInv N) {T : List Nat} (hf : TopoFacts N T) :
    ∃ L, LabelRules (fun p c => p ∈ N.pa c) T.idxOf L := by
  apply exists_labels
  · exact fun x y h => hf.before x y h
  · intro y p hp
    obtain ⟨x, hx, hmax⟩ := (N.pa y).toFinset.exists_max_image (fun v => T.idxOf v) ⟨p, List.mem_toFinset.2 hp⟩
    rw [List.mem_toFinset] at hx
    refine ⟨x, hx, fun q hq hqx => ?_⟩
    have h1 := hmax q (List.mem_toFinset.2 hq)
    rcases Nat.lt_or_ge (T.idxOf q) (T.idxOf x) with h | h
    · exact h
    · exfalso
      have hl := fun v (hv : v ∈ N.pa y) => hf.get (hinv.wf.lt ((hinv.wf.sym _ _).2 hv)).1
      apply hqx
      rw [← (hl q hq).2, ← (hl x hx).2, le_antisymm h1 h]

/-- `FindCompelled` after `OrderEdge`. -/
theorem findCompelled_eq {N : Net} (hinv : NetInv N) {keys : List (Nat × Nat)} (hn : keys.Nodup) (hkeys : ∀ k, k ∈ keys ↔ k.1 ∈ N.pa k.2)
    {T : List Nat} (hf : TopoFacts N T) (hone : AtMostOneOutsider T (ParentOf N)) :
    Net.findCompelled { nodes := N.nodes, edges := edgesOf keys (fun _ => true) (fun _ => .unset), topo := T } (pending (orderKeys N T)) =
      .ok { nodes := N.nodes, topo := T,
            edges := edgesOf keys (fun _ => true) (fun k => if Compelled (ParentOf N) k.1 k.2 then .compelled else .reversible) } := by
  have hD : (ParentOf N) = (fun p c => p ∈ N.pa c) := by
    funext p c
    exact propext parentOf_iff
  rw [hD] at hone ⊢
  obtain ⟨L, hL⟩ := net_labels hinv hf
  have hbound : ∀ x y, (fun p c => p ∈ N.pa c) x y → x < N.nodes.length ∧ y < N.nodes.length :=
    fun x y h => hinv.wf.lt ((hinv.wf.sym _ _).2 h)
  have hLC : ∀ x y, x ∈ N.pa y → (L x y ↔ Compelled (fun p c => p ∈ N.pa c) x y) := fun x y h => hL.compelled_iff hbound h
  have hone' : OneHit (fun p c => p ∈ N.pa c) L T.idxOf := by
    intro x y hxy
    rcases hone x y (lastParent_iff.1 hxy) with ⟨w, h1, h2, h3⟩ | h
    · exact Or.inl ⟨w, (hLC w x h1).2 h2, h3⟩
    · exact Or.inr h
  unfold Net.findCompelled
  have hinv' : NetInv { nodes := N.nodes, edges := edgesOf keys (fun _ => true) (fun _ => .unset), topo := T } :=
    ⟨⟨hinv.wf.ch_sorted, hinv.wf.pa_sorted, hinv.wf.ch_lt, hinv.wf.sym⟩, hinv.acyclic⟩
  have hloop := compelLoop_eq (N := { nodes := N.nodes, edges := edgesOf keys (fun _ => true) (fun _ => .unset), topo := T }) (T := T)
    hinv' ⟨hf.nodup, hf.mem, hf.before⟩ hn hkeys hL hone' (fun _ => true) T.length 0 (by omega) (pending (orderKeys N T)).length
    (by
      simp only [pending, edgesOf, List.length_map]
      unfold orderKeys
      rw [List.range_eq_range']
      exact le_refl _)
  have h0 : edgesOf keys (fun _ => true) (labelsBelow T L 0) = edgesOf keys (fun _ => true) (fun _ => .unset) := by
    apply edgesOf_congr
    intro k _
    exact ⟨rfl, by unfold labelsBelow; rw [if_neg (by omega)]⟩
  have h1 : edgesOf keys (fun _ => true) (labelsBelow T L T.length) =
      edgesOf keys (fun _ => true) (fun k => if Compelled (fun p c => p ∈ N.pa c) k.1 k.2 then .compelled else .reversible) := by
    apply edgesOf_congr
    intro k hk
    refine ⟨rfl, ?_⟩
    unfold labelsBelow
    have hk2 := (hkeys k).1 hk
    rw [if_pos (hf.get (hbound _ _ hk2).2).1]
    simp only [hLC _ _ hk2]
  rw [h0, h1] at hloop
  have hO : pending ((List.range' 0 T.length).flatMap (orderBlock { nodes := N.nodes, edges := edgesOf keys (fun _ => true) (fun _ => .unset), topo := T } T)) =
      pending (orderKeys N T) := by
    unfold orderKeys
    rw [List.range_eq_range']
    rfl
  rw [hO] at hloop
  simp only []
  rw [hloop]
  rfl

end label

/-! ### The distance -/

/-- What the status of a pair is for the edge found. -/
def edgeStatus (i : Nat) (e : Edge) : PairStatus :=
  if e.end2 = .arrow then (if e.node1 = i then .forward else .backward) else .undirected

theorem getEdge_none {N : Net} {i j : Nat} (h : N.getEdge i j = none) : pairStatus N.edges i j = .absent := by
  unfold Net.getEdge at h
  rw [List.findIdx?_eq_none_iff] at h
  unfold pairStatus
  rw [if_neg, if_neg, if_neg]
  all_goals
    rw [List.any_eq_true]
    rintro ⟨e, he, h1⟩
    have := h e he
    simp at this h1
    tauto

theorem getEdge_some {N : Net} (hs : SimpleEdges N.edges) {i j p : Nat} (hij : i < j) (h : N.getEdge i j = some p) :
    ∃ e, rdAt N.edges p = .ok e ∧ e ∈ N.edges ∧ ((e.node1 = i ∧ e.node2 = j) ∨ (e.node1 = j ∧ e.node2 = i ∧ e.end2 = .arrow)) ∧
      pairStatus N.edges i j = edgeStatus i e := by
  unfold Net.getEdge at h
  obtain ⟨hlt, hp, _⟩ := List.findIdx?_eq_some_iff_getElem.1 h
  set e := N.edges[p] with he
  have hem : e ∈ N.edges := List.getElem_mem hlt
  have hends : (e.node1 = i ∧ e.node2 = j) ∨ (e.node1 = j ∧ e.node2 = i) := by
    simp at hp
    tauto
  have harrow : e.node1 = j → e.end2 = .arrow := by
    intro h1
    cases h2 : e.end2 with
    | arrow => rfl
    | tail =>
      have := hs.small e hem h2
      omega
  refine ⟨e, by unfold rdAt; rw [List.getElem?_eq_getElem hlt], hem, ?_, ?_⟩
  · rcases hends with h1 | h1
    · exact Or.inl h1
    · exact Or.inr ⟨h1.1, h1.2, harrow h1.1⟩
  · have hu : ∀ f ∈ N.edges, (f.node1 = i ∧ f.node2 = j) ∨ (f.node1 = j ∧ f.node2 = i) →
        f.node1 = e.node1 ∧ f.node2 = e.node2 ∧ f.end2 = e.end2 := by
      intro f hf hh
      apply hs.once f hf e hem
      omega
    unfold pairStatus edgeStatus
    have a1 : N.edges.any (fun e => e.node1 = i && e.node2 = j && e.end2 = .arrow) = decide (e.node1 = i ∧ e.end2 = .arrow) := by
      rw [Bool.eq_iff_iff, List.any_eq_true, decide_eq_true_eq]
      constructor
      · rintro ⟨f, hf, hh⟩
        simp only [Bool.and_eq_true, decide_eq_true_eq] at hh
        obtain ⟨c1, c2, c3⟩ := hu f hf (Or.inl hh.1)
        rw [← c1, ← c3]
        exact ⟨hh.1.1, hh.2⟩
      · rintro ⟨c1, c2⟩
        refine ⟨e, hem, ?_⟩
        have : e.node2 = j := by omega
        simp [c1, c2, this]
    have a2 : N.edges.any (fun e => e.node1 = j && e.node2 = i && e.end2 = .arrow) = decide (e.node1 = j) := by
      rw [Bool.eq_iff_iff, List.any_eq_true, decide_eq_true_eq]
      constructor
      · rintro ⟨f, hf, hh⟩
        simp only [Bool.and_eq_true, decide_eq_true_eq] at hh
        obtain ⟨c1, c2, c3⟩ := hu f hf (Or.inr hh.1)
        rw [← c1]
        exact hh.1.1
      · intro c1
        refine ⟨e, hem, ?_⟩
        have : e.node2 = i := by omega
        simp [c1, this, harrow c1]
    have a3 : N.edges.any (fun e => e.node1 = i && e.node2 = j) = decide (e.node1 = i) := by
      rw [Bool.eq_iff_iff, List.any_eq_true, decide_eq_true_eq]
      constructor
      · rintro ⟨f, hf, hh⟩
        simp only [Bool.and_eq_true, decide_eq_true_eq] at hh
        obtain ⟨c1, c2, c3⟩ := hu f hf (Or.inl hh)
        rw [← c1]
        exact hh.1
      · intro c1
        refine ⟨e, hem, ?_⟩
        have : e.node2 = j := by omega
        simp [c1, this]
    rw [a1, a2, a3]
    rcases hends with h1 | h1
    · have : e.node1 ≠ j := by omega
      cases h2 : e.end2 <;> simp [h1.1, show i ≠ j by omega]
    · simp [h1.1, harrow h1.1, show j ≠ i by omega]

theorem shdOneEdge_eq {T L : Net} (hT : SimpleEdges T.edges) (hL : SimpleEdges L.edges) {i j : Nat} (hij : i < j) (hjT : j < T.nodes.length)
    (hjL : j < L.nodes.length) :
    shdOneEdge T L i j = .ok (if pairStatus T.edges i j ≠ pairStatus L.edges i j then 1 else 0) := by
  unfold shdOneEdge
  rw [find_ok (by omega), find_ok hjT, find_ok (by omega), find_ok hjL]
  simp only [ok_bind]
  cases h1 : T.getEdge i j with
  | none =>
    rw [getEdge_none h1]
    cases h2 : L.getEdge i j with
    | none =>
      rw [getEdge_none h2]
      rfl
    | some q =>
      obtain ⟨e, -, -, -, e4⟩ := getEdge_some hL hij h2
      rw [e4, if_pos]
      · rfl
      · unfold edgeStatus
        split
        · split <;> simp
        · simp
  | some p =>
    obtain ⟨e, e1, e2, e3, e4⟩ := getEdge_some hT hij h1
    cases h2 : L.getEdge i j with
    | none =>
      rw [getEdge_none h2, e4, if_pos]
      · rfl
      · unfold edgeStatus
        split
        · split <;> simp
        · simp
    | some q =>
      obtain ⟨f, f1, f2, f3, f4⟩ := getEdge_some hL hij h2
      simp only []
      rw [e1, ok_bind, f1, ok_bind, e4, f4]
      by_cases hc : e.node1 = f.node1 ∧ e.node2 = f.node2 ∧ e.end2 = f.end2
      · rw [if_pos hc, if_neg]
        · rfl
        · unfold edgeStatus
          rw [hc.1, hc.2.2]
          simp
      · rw [if_neg hc, if_pos]
        · rfl
        · unfold edgeStatus
          intro heq
          apply hc
          have hji : j ≠ i := by omega
          rcases e3 with a | a <;> rcases f3 with b | b <;> cases ha : e.end2 <;> cases hb : f.end2 <;> simp_all

theorem sum_later (n i : Nat) (g : Nat → Nat) :
    (((List.range n).filter (fun j => i < j)).map g).sum = ∑ j ∈ Finset.range n, if i < j then g j else 0 := by
  induction n with
  | zero => rfl
  | succ n ih =>
    rw [List.range_succ, List.filter_append, List.map_append, List.sum_append, ih, Finset.sum_range_succ]
    congr 1
    by_cases h : i < n
    · simp [h]
    · simp [h]

theorem sum_range_list (n : Nat) (g : Nat → Nat) : ((List.range n).map g).sum = ∑ j ∈ Finset.range n, g j := by
  induction n with
  | zero => rfl
  | succ n ih => rw [List.range_succ, List.map_append, List.sum_append, ih, Finset.sum_range_succ]; simp

theorem foldlM_add {l : List Nat} {f : Nat → Except Fault Nat} {g : Nat → Nat} (h : ∀ x ∈ l, f x = .ok (g x)) (b : Nat) :
    l.foldlM (fun (acc : Nat) x => (do return acc + (← f x) : Except Fault Nat)) b = .ok (b + (l.map g).sum) := by
  induction l generalizing b with
  | nil => rfl
  | cons x l ih =>
    rw [List.foldlM_cons, h x (by simp)]
    show List.foldlM _ (b + g x) l = _
    rw [ih (fun y hy => h y (by simp [hy]))]
    simp [Nat.add_assoc]

theorem shdLoop_eq {T L : Net} (hT : SimpleEdges T.edges) (hL : SimpleEdges L.edges) (hn : T.nodes.length = L.nodes.length) :
    shdLoop T L = .ok (hamming L.nodes.length (pairStatus T.edges) (pairStatus L.edges)) := by
  unfold shdLoop
  set n := L.nodes.length with hnL
  set g : Nat → Nat → Nat := fun i j => if pairStatus T.edges i j ≠ pairStatus L.edges i j then 1 else 0 with hg
  have hin : ∀ i ∈ List.range n, ∀ b, ((List.range n).filter (fun i2 => i < i2)).foldlM (fun error i2 =>
      (do return error + (← shdOneEdge T L i i2) : Except Fault Nat)) b = .ok (b + ∑ j ∈ Finset.range n, if i < j then g i j else 0) := by
    intro i hi b
    rw [foldlM_add (g := g i), sum_later]
    intro j hj
    rw [List.mem_filter, List.mem_range] at hj
    exact shdOneEdge_eq hT hL (by simpa using hj.2) (by omega) (by omega)
  have hout : ∀ (l : List Nat), (∀ i ∈ l, i ∈ List.range n) → ∀ b, l.foldlM (fun error i1 =>
      ((List.range n).filter (fun i2 => i1 < i2)).foldlM (fun error i2 =>
      (do return error + (← shdOneEdge T L i1 i2) : Except Fault Nat)) error) b =
      .ok (b + (l.map (fun i => ∑ j ∈ Finset.range n, if i < j then g i j else 0)).sum) := by
    intro l
    induction l with
    | nil => intro _ b; rfl
    | cons x l ih =>
      intro hl b
      rw [List.foldlM_cons, hin x (hl x (by simp)), ok_bind, ih (fun y hy => hl y (by simp [hy]))]
      simp [Nat.add_assoc]
  rw [hout _ (fun _ h => h), sum_range_list]
  unfold hamming
  rw [Finset.card_filter, Finset.sum_product]
  congr 1
  rw [Nat.zero_add]
  apply Finset.sum_congr rfl
  intro i _
  apply Finset.sum_congr rfl
  intro j _
  rw [hg]
  by_cases h1 : i < j
  · simp [h1]
  · simp [h1]

end FastPGM
