import Verif.Lemmas.Ownership

/-!
C111: what the commands of `fastpgm_api.cpp` release.

`Network::~Network` releases its nodes through `Node*`.  The nodes are `DiscreteNode` objects and `Node` has no virtual destructor, so every
command ends in undefined behaviour (`C111_undefined`).  With a virtual destructor for `Node` and nothing else changed, every command
releases each object at most once and uses none that it has released, and the objects that are never released are exactly those listed
(`C111_release_partial`).
-/

namespace FastPGM

/-- Releasing the reference network, when deleting nodes through `Node*` is allowed. -/
theorem HeapHas.compare {virt : Cls → Bool} (hv : virt .node = true) {h : Heap} {L : List LiveObj} {net : NetObj} {c : Cls}
    (hh : HeapHas h (net.objs c ++ L)) (ref : Option Nat) :
    ∃ h', compareReference virt h net ref = .ok h' ∧ HeapHas h' (net.objs c ++ L) := by
  cases ref with
  | none => exact ⟨h, rfl, hh⟩
  | some k =>
    have g1 := (hh.net .customNetwork).addNodes k
    obtain ⟨h', e, g, _⟩ := HeapHas.delAll (NetObj.fits hv (s := .customNetwork) (Or.inl rfl)) g1
    refine ⟨h', ?_, g⟩
    unfold compareReference
    simp only []
    rw [g1.use (as := _) ?_, ok_bind, e]
    intro a ha
    simp only [NetObj.objs, List.map_append, List.map_map, List.mem_append, List.mem_cons, List.map_cons, List.map_nil,
      List.not_mem_nil, or_false] at ha ⊢
    have e1 : ∀ l : List Nat, l.map (LiveObj.addr ∘ fun a => ⟨a, Cls.discreteNode, false⟩) = l := fun l => List.map_id l
    rw [e1, e1]
    tauto

/-- Without that, either the reference network has no node or the comparison ends in undefined behaviour. -/
theorem HeapHas.compare_faulty {virt : Cls → Bool} (hv : virt .node = false) {h : Heap} {L : List LiveObj} {net : NetObj} {c : Cls}
    (hh : HeapHas h (net.objs c ++ L)) (ref : Option Nat) :
    (∃ h', compareReference virt h net ref = .ok h' ∧ HeapHas h' (net.objs c ++ L)) ∨ compareReference virt h net ref = .error .ub := by
  cases ref with
  | none => exact Or.inl ⟨h, rfl, hh⟩
  | some k =>
    have g1 := (hh.net .customNetwork).addNodes k
    have hu : Heap.use ((newNetObj h .customNetwork).1.addNodes (newNetObj h .customNetwork).2 k).2
        (((newNetObj h .customNetwork).1.addNodes (newNetObj h .customNetwork).2 k).1.self ::
          ((newNetObj h .customNetwork).1.addNodes (newNetObj h .customNetwork).2 k).1.nodes ++ (net.self :: net.nodes)) = .ok () := by
      refine g1.use fun a ha => ?_
      simp only [NetObj.objs, List.map_append, List.map_map, List.mem_append, List.mem_cons, List.map_cons, List.map_nil,
        List.not_mem_nil, or_false] at ha ⊢
      have e1 : ∀ l : List Nat, l.map (LiveObj.addr ∘ fun a => ⟨a, Cls.discreteNode, false⟩) = l := fun l => List.map_id l
      rw [e1, e1]
      tauto
    by_cases hn : ((newNetObj h .customNetwork).1.addNodes (newNetObj h .customNetwork).2 k).1.nodes = []
    · obtain ⟨h', e, g, _⟩ := HeapHas.delAll (virt := virt) (ds := [⟨.customNetwork, false, some h.next⟩])
        (B := [⟨h.next, .customNetwork, false⟩]) (.cons (fits_same ..) .nil) (R := net.objs c ++ L) (g1.of_perm (by
          unfold NetObj.objs
          rw [hn]
          exact .refl _))
      refine Or.inl ⟨h', ?_, g⟩
      unfold compareReference
      simp only []
      rw [hu, ok_bind]
      unfold NetObj.deletions
      rw [hn]
      exact e
    · refine Or.inr ?_
      unfold compareReference
      simp only []
      rw [hu, ok_bind]
      exact NetObj.faulty hv hn g1

theorem NetObj.mem {n : NetObj} {c : Cls} {a : Nat} (h : a = n.self ∨ a ∈ n.nodes) : a ∈ (n.objs c).map LiveObj.addr := by
  simp only [NetObj.objs, List.map_append, List.map_map, List.mem_append, List.map_cons, List.map_nil, List.mem_cons, List.not_mem_nil,
    or_false]
  have e1 : n.nodes.map (LiveObj.addr ∘ fun a => ⟨a, Cls.discreteNode, false⟩) = n.nodes := List.map_id _
  rw [e1]
  tauto

theorem DatasetObj.mem {d : DatasetObj} {a : Nat} (h : a = d.self ∨ (d.columns.isSome ∧ a ∈ d.cols)) : a ∈ d.objs.map LiveObj.addr := by
  obtain ⟨self, rows, allVars, cols, columns⟩ := d
  simp only [DatasetObj.objs, List.map_append, List.mem_append, List.map_cons, List.map_nil, List.mem_cons, List.not_mem_nil, or_false]
  rcases h with h | ⟨h1, h2⟩
  · exact Or.inr h
  · refine Or.inl (Or.inr ?_)
    obtain ⟨b, hb⟩ := Option.isSome_iff_exists.1 h1
    cases hb
    exact List.mem_map.2 ⟨⟨a, .int, true⟩, List.mem_append_left _ (List.mem_map.2 ⟨a, h2, rfl⟩), rfl⟩

/-- Structure learning: the heap just before the network is released. -/
theorem bnsl_prefix (virt : Cls → Bool) (rows vars : Nat) (ref : Option Nat) :
    ∃ (net : NetObj) (h : Heap) (b : Nat), net.nodes.length = vars ∧ HeapHas h (net.objs .network ++ [⟨b, .pcStable, false⟩]) ∧
      bnslObjects virt rows vars ref = compareReference virt h net ref >>= fun h => h.delAll virt (net.deletions .network) := by
  have g1 := (HeapHas.empty.dataset).loaded rfl rfl rows vars
  generalize hd : (newDataset {}).1.load (newDataset {}).2 rows vars = dh at g1
  have g2 := g1.net .network
  have g3 := g2.new .pcStable false
  have g4 := (g3.of_perm (L' := (newNetObj dh.2 .network).1.objs .network ++ (⟨(newNetObj dh.2 .network).2.next, .pcStable, false⟩ ::
    (dh.1.objs ++ []))) (by rw [List.perm_iff_count]; intro a; simp only [List.count_append, List.count_cons]; omega)).addNodes vars
  generalize hn : (newNetObj dh.2 .network).1.addNodes ((newNetObj dh.2 .network).2.new .pcStable).2 vars = nh at g4
  obtain ⟨h', e, g, _⟩ := HeapHas.delAll (dh.1.fits virt) (R := nh.1.objs .network ++ [⟨(newNetObj dh.2 .network).2.next, .pcStable, false⟩])
    (g4.of_perm (by rw [List.perm_iff_count]; intro a; simp only [List.count_append, List.count_cons, List.count_nil]; omega))
  refine ⟨nh.1, h', (newNetObj dh.2 .network).2.next, ?_, g, ?_⟩
  · rw [← hn]
    simp [NetObj.addNodes, newNetObj, Heap.newMany]
  · unfold bnslObjects
    simp only []
    rw [hd, hn, g4.use ?_, ok_bind, e, ok_bind]
    intro a ha
    have hc : dh.1.columns.isSome := by rw [← hd]; rfl
    have k1 := fun h => NetObj.mem (n := nh.1) (c := .network) (a := a) h
    have k2 := fun h => DatasetObj.mem (d := dh.1) (a := a) h
    have hb : ((newNetObj dh.2 .network).2.new .pcStable).1 = (newNetObj dh.2 .network).2.next := rfl
    rw [hb] at ha
    simp only [List.map_append, List.mem_append, List.map_cons, List.mem_cons, List.map_nil, List.not_mem_nil, or_false] at ha ⊢
    tauto

theorem HeapHas.compare_any {virt : Cls → Bool} {h : Heap} {L : List LiveObj} {net : NetObj} {c : Cls}
    (hh : HeapHas h (net.objs c ++ L)) (ref : Option Nat) :
    (∃ h', compareReference virt h net ref = .ok h' ∧ HeapHas h' (net.objs c ++ L)) ∨
      (virt .node = false ∧ compareReference virt h net ref = .error .ub) := by
  cases hv : virt .node with
  | true => exact Or.inl (hh.compare hv ref)
  | false => exact (hh.compare_faulty hv ref).imp id (fun h => ⟨rfl, h⟩)

/-- A command does what it should when `Node` has a virtual destructor, and is undefined when it does not. -/
def Outcome (virt : Cls → Bool) (n : Nat) (L : List Cls) (x : Except Fault Heap) : Prop :=
  (virt .node = true → ∃ h, x = .ok h ∧ (h.live.map LiveObj.cls).Perm L) ∧ (virt .node = false → n ≠ 0 → x = .error .ub)

/-- The end of a command: the network is released. -/
theorem HeapHas.release {virt : Cls → Bool} {net : NetObj} {c : Cls} {h : Heap} {L : List LiveObj} (hh : HeapHas h (net.objs c ++ L))
    (k : Heap → Except Fault Heap) {M : List Cls}
    (hk : ∀ h', HeapHas h' L → ∃ h'', k h' = .ok h'' ∧ (h''.live.map LiveObj.cls).Perm M) :
    Outcome virt net.nodes.length M (h.delAll virt (net.deletions c) >>= k) := by
  refine ⟨fun hv => ?_, fun hv hn => ?_⟩
  · obtain ⟨h', e, g, _⟩ := HeapHas.delAll (NetObj.fits hv (s := c) (Or.inl rfl)) hh
    rw [e, ok_bind]
    exact hk h' g
  · rw [NetObj.faulty hv (by rwa [ne_eq, ← List.length_eq_zero_iff]) hh]
    rfl

theorem bind_self (x : Except Fault Heap) : (x >>= fun h => .ok h) = x := by
  cases x <;> rfl

theorem bnsl_outcome (virt : Cls → Bool) (rows vars : Nat) (ref : Option Nat) :
    Outcome virt vars [.pcStable] (bnslObjects virt rows vars ref) := by
  obtain ⟨net, h, b, h1, h2, h3⟩ := bnsl_prefix virt rows vars ref
  rw [h3, ← h1]
  rcases h2.compare_any (virt := virt) ref with ⟨h', e, g⟩ | ⟨hv, e⟩
  · rw [e, ok_bind, ← bind_self (h'.delAll _ _)]
    exact g.release _ fun h'' g'' => ⟨h'', rfl, g''.perm.map _⟩
  · rw [e]
    exact ⟨fun hv' => by simp [hv] at hv', fun _ _ => rfl⟩

theorem bnl_outcome (virt : Cls → Bool) (rows vars : Nat) (ref : Option Nat) :
    Outcome virt vars [.paramLearning, .pcStable] (bnlObjects virt rows vars ref) := by
  have g1 := (HeapHas.empty.dataset).loaded rfl rfl rows vars
  generalize hd : (newDataset {}).1.load (newDataset {}).2 rows vars = dh at g1
  have g2 := g1.net .network
  have g3 := g2.new .pcStable false
  have g4 := (g3.of_perm (L' := (newNetObj dh.2 .network).1.objs .network ++ (⟨(newNetObj dh.2 .network).2.next, .pcStable, false⟩ ::
    (dh.1.objs ++ []))) (by rw [List.perm_iff_count]; intro a; simp only [List.count_append, List.count_cons]; omega)).addNodes vars
  generalize hn : (newNetObj dh.2 .network).1.addNodes ((newNetObj dh.2 .network).2.new .pcStable).2 vars = nh at g4
  have hlen : nh.1.nodes.length = vars := by
    rw [← hn]
    simp [NetObj.addNodes, newNetObj, Heap.newMany]
  have hc : dh.1.columns.isSome := by rw [← hd]; rfl
  have hb : ((newNetObj dh.2 .network).2.new .pcStable).1 = (newNetObj dh.2 .network).2.next := rfl
  unfold bnlObjects
  simp only []
  rw [hd, hn, g4.use ?_, ok_bind]
  swap
  · intro a ha
    have k1 := fun h => NetObj.mem (n := nh.1) (c := .network) (a := a) h
    have k2 := fun h => DatasetObj.mem (d := dh.1) (a := a) h
    rw [hb] at ha
    simp only [List.map_append, List.mem_append, List.map_cons, List.mem_cons, List.map_nil, List.not_mem_nil, or_false] at ha ⊢
    tauto
  rcases g4.compare_any (virt := virt) ref with ⟨h', e, g5⟩ | ⟨hv, e⟩
  · rw [e, ok_bind]
    have g6 := g5.new .paramLearning false
    rw [g6.use ?_, ok_bind]
    swap
    · intro a ha
      have k1 := fun h => NetObj.mem (n := nh.1) (c := .network) (a := a) h
      have k2 := fun h => DatasetObj.mem (d := dh.1) (a := a) h
      have hp : (h'.new .paramLearning).1 = h'.next := rfl
      rw [hp] at ha
      simp only [List.map_append, List.mem_append, List.map_cons, List.mem_cons, List.map_nil, List.not_mem_nil, or_false] at ha ⊢
      tauto
    obtain ⟨h7, e7, g7, _⟩ := HeapHas.delAll (dh.1.fits virt)
      (R := nh.1.objs .network ++ [⟨h'.next, .paramLearning, false⟩, ⟨(newNetObj dh.2 .network).2.next, .pcStable, false⟩])
      (g6.of_perm (by rw [List.perm_iff_count]; intro a; simp only [List.count_append, List.count_cons, List.count_nil]; omega))
    rw [e7, ok_bind, ← bind_self (h7.delAll _ _), ← hlen]
    exact g7.release _ fun h8 g8 => ⟨h8, rfl, g8.perm.map _⟩
  · rw [e]
    exact ⟨fun hv' => by simp [hv] at hv', fun _ _ => rfl⟩

theorem sample_outcome (virt : Cls → Bool) (n : Nat) (libsvm : Bool) : Outcome virt n [] (sampleObjects virt n libsvm) := by
  have g1 := (HeapHas.empty.net .customNetwork).addNodes n
  generalize hn : (newNetObj {} .customNetwork).1.addNodes (newNetObj {} .customNetwork).2 n = nh at g1
  have hlen : nh.1.nodes.length = n := by
    rw [← hn]
    simp [NetObj.addNodes, newNetObj, Heap.newMany]
  have g2 := g1.new .sampleSet false
  unfold sampleObjects
  simp only []
  rw [hn, g2.use ?_, ok_bind]
  swap
  · intro a ha
    have k1 := fun h => NetObj.mem (n := nh.1) (c := .customNetwork) (a := a) h
    have hp : (nh.2.new .sampleSet).1 = nh.2.next := rfl
    rw [hp] at ha
    simp only [List.map_append, List.mem_append, List.map_cons, List.mem_cons, List.map_nil, List.not_mem_nil, or_false] at ha ⊢
    tauto
  obtain ⟨h3, e3, g3, _⟩ := HeapHas.delAll (virt := virt) (ds := [⟨.sampleSet, false, some (nh.2.new .sampleSet).1⟩])
    (B := [⟨nh.2.next, .sampleSet, false⟩]) (.cons (fits_same ..) .nil) (R := nh.1.objs .customNetwork ++ []) g2
  rw [e3, ok_bind, ← hlen]
  cases libsvm with
  | true =>
    rw [if_pos rfl, ← bind_self (h3.delAll _ _)]
    exact g3.release _ fun h4 g4 => ⟨h4, rfl, g4.perm.map _⟩
  | false =>
    rw [if_neg (by simp)]
    have g4 := g3.dataset
    rw [g4.use ?_, ok_bind]
    swap
    · intro a ha
      have k1 := fun h => NetObj.mem (n := nh.1) (c := .customNetwork) (a := a) h
      have k2 := fun h => DatasetObj.mem (d := (newDataset h3).1) (a := a) h
      simp only [List.map_append, List.mem_append, List.mem_cons, List.map_nil, List.not_mem_nil, or_false] at ha ⊢
      tauto
    refine (g4.of_perm (L' := nh.1.objs .customNetwork ++ ((newDataset h3).1.objs ++ [])) ?_).release _ fun h5 g5 => ?_
    · rw [List.perm_iff_count]; intro a; simp only [List.count_append, List.count_nil]; omega
    · obtain ⟨h6, e6, g6, _⟩ := HeapHas.delAll ((newDataset h3).1.fits virt) g5
      rw [g5.use ?_, ok_bind]
      · exact ⟨h6, e6, g6.perm.map _⟩
      · intro a ha
        have k2 := fun h => DatasetObj.mem (d := (newDataset h3).1) (a := a) h
        simp only [List.map_append, List.mem_append, List.map_nil, List.mem_cons, List.not_mem_nil, or_false] at ha ⊢
        tauto

theorem bnei_outcome (virt : Cls → Bool) (hi : virt .inference = true) (n : Nat) {T : JTShape} (hs : T.seps.Nodup)
    (hc : ∀ p ∈ T.seps, p ∈ candidateSeps T.cliques) : Outcome virt n [] (bneiObjects virt n T) := by
  have g1 := (HeapHas.empty.net .customNetwork).addNodes n
  generalize hn : (newNetObj {} .customNetwork).1.addNodes (newNetObj {} .customNetwork).2 n = nh at g1
  have hlen : nh.1.nodes.length = n := by
    rw [← hn]
    simp [NetObj.addNodes, newNetObj, Heap.newMany]
  have g2 := g1.dataset
  unfold bneiObjects
  simp only []
  rw [hn, g2.use ?_, ok_bind]
  swap
  · intro a ha
    have k1 := fun h => NetObj.mem (n := nh.1) (c := .customNetwork) (a := a) h
    have k2 := fun h => DatasetObj.mem (d := (newDataset nh.2).1) (a := a) h
    simp only [List.map_append, List.mem_append, List.mem_cons, List.map_nil, List.not_mem_nil, or_false] at ha ⊢
    tauto
  obtain ⟨j, h3, e3, g3⟩ := g2.junctionTree (virt := virt) hs hc
  rw [e3, ok_bind]
  simp only []
  obtain ⟨h4, e4, g4, _⟩ := HeapHas.delAll ((newDataset nh.2).1.fits virt) (R := j.objs ++ (nh.1.objs .customNetwork ++ []))
    (g3.of_perm (by rw [List.perm_iff_count]; intro a; simp only [List.count_append, List.count_nil]; omega))
  rw [e4, ok_bind, g4.use ?_, ok_bind]
  swap
  · intro a ha
    have k1 := fun h => NetObj.mem (n := nh.1) (c := .customNetwork) (a := a) h
    have k2 := fun h => JTObj.mem_addrs (j := j) (a := a) h
    simp only [List.map_append, List.mem_append, List.mem_cons, List.map_nil, List.not_mem_nil, or_false] at ha ⊢
    tauto
  obtain ⟨h5, e5, g5, _⟩ := HeapHas.delAll (j.fits hi) g4
  rw [e5, ok_bind, ← hlen, ← bind_self (h5.delAll _ _)]
  exact g5.release _ fun h6 g6 => ⟨h6, rfl, g6.perm.map _⟩

theorem classify_outcome (virt : Cls → Bool) (hi : virt .inference = true) (hl : virt .structureLearning = true) (rows vars : Nat)
    (ref : Option Nat) {T : JTShape} (hs : T.seps.Nodup) (hc : ∀ p ∈ T.seps, p ∈ candidateSeps T.cliques) :
    Outcome virt (vars + 1) [] (classifyObjects virt rows vars ref T) := by
  have g1 := (HeapHas.empty.dataset).loaded rfl rfl rows vars
  generalize hd : (newDataset {}).1.load (newDataset {}).2 rows vars = dh at g1
  have g1' := g1.dataset
  generalize ht : newDataset dh.2 = th at g1'
  have g2 := g1'.net .network
  have g3 := g2.new .pcStable false
  have g4 := (g3.of_perm (L' := (newNetObj th.2 .network).1.objs .network ++ (⟨(newNetObj th.2 .network).2.next, .pcStable, false⟩ ::
    (dh.1.objs ++ th.1.objs))) (by
      rw [List.perm_iff_count]; intro a; simp only [List.count_append, List.count_cons, List.count_nil]; omega)).addNodes (vars + 1)
  generalize hn : (newNetObj th.2 .network).1.addNodes ((newNetObj th.2 .network).2.new .pcStable).2 (vars + 1) = nh at g4
  have hlen : nh.1.nodes.length = vars + 1 := by
    rw [← hn]
    simp [NetObj.addNodes, newNetObj, Heap.newMany]
  have hcol : dh.1.columns.isSome := by rw [← hd]; rfl
  have hb : ((newNetObj th.2 .network).2.new .pcStable).1 = (newNetObj th.2 .network).2.next := rfl
  unfold classifyObjects
  simp only []
  rw [hd, ht, hn, g4.use ?_, ok_bind]
  swap
  · intro a ha
    have k1 := fun h => NetObj.mem (n := nh.1) (c := .network) (a := a) h
    have k2 := fun h => DatasetObj.mem (d := dh.1) (a := a) h
    rw [hb] at ha
    simp only [List.map_append, List.mem_append, List.map_cons, List.mem_cons] at ha ⊢
    tauto
  rcases g4.compare_any (virt := virt) ref with ⟨h', e, g5⟩ | ⟨hv, e⟩
  swap
  · rw [e]
    exact ⟨fun hv' => by simp [hv] at hv', fun _ _ => rfl⟩
  rw [e, ok_bind]
  have g6 := g5.new .paramLearning false
  rw [g6.use ?_, ok_bind]
  swap
  · intro a ha
    have k1 := fun h => NetObj.mem (n := nh.1) (c := .network) (a := a) h
    have k2 := fun h => DatasetObj.mem (d := dh.1) (a := a) h
    have hp : (h'.new .paramLearning).1 = h'.next := rfl
    rw [hp] at ha
    simp only [List.map_append, List.mem_append, List.map_cons, List.mem_cons] at ha ⊢
    tauto
  obtain ⟨h7, e7, g7, _⟩ := HeapHas.delAll (dh.1.fits virt)
    (R := nh.1.objs .network ++ (th.1.objs ++ [⟨h'.next, .paramLearning, false⟩, ⟨(newNetObj th.2 .network).2.next, .pcStable, false⟩]))
    (g6.of_perm (by rw [List.perm_iff_count]; intro a; simp only [List.count_append, List.count_cons, List.count_nil]; omega))
  rw [e7, ok_bind, g7.use ?_, ok_bind]
  swap
  · intro a ha
    have k1 := fun h => NetObj.mem (n := nh.1) (c := .network) (a := a) h
    have k2 := fun h => DatasetObj.mem (d := th.1) (a := a) h
    simp only [List.map_append, List.mem_append, List.map_cons, List.mem_cons, List.not_mem_nil, or_false] at ha ⊢
    tauto
  obtain ⟨j, h8, e8, g8⟩ := g7.junctionTree (virt := virt) hs hc
  rw [e8, ok_bind]
  simp only []
  obtain ⟨h9, e9, g9, _⟩ := HeapHas.delAll (th.1.fits virt) (R := j.objs ++ (nh.1.objs .network ++
      [⟨h'.next, .paramLearning, false⟩, ⟨(newNetObj th.2 .network).2.next, .pcStable, false⟩]))
    (g8.of_perm (by rw [List.perm_iff_count]; intro a; simp only [List.count_append]; omega))
  rw [e9, ok_bind, g9.use ?_, ok_bind]
  swap
  · intro a ha
    have k1 := fun h => NetObj.mem (n := nh.1) (c := .network) (a := a) h
    have k2 := fun h => JTObj.mem_addrs (j := j) (a := a) h
    simp only [List.map_append, List.mem_append, List.mem_cons] at ha ⊢
    tauto
  obtain ⟨h10, e10, g10, _⟩ := HeapHas.delAll (j.fits hi) g9
  rw [e10, ok_bind, ← hlen]
  unfold pcStableDeletions
  rw [delAll_append]
  have hass : ∀ x : Except Fault Heap, ∀ f g : Heap → Except Fault Heap, (x >>= f) >>= g = x >>= fun h => f h >>= g := by
    intro x f g
    cases x <;> rfl
  rw [hass]
  refine g10.release _ fun h11 g11 => ?_
  obtain ⟨h12, e12, g12, _⟩ := HeapHas.delAll (virt := virt)
    (ds := [⟨.structureLearning, false, some ((newNetObj th.2 .network).2.new .pcStable).1⟩])
    (B := [⟨(newNetObj th.2 .network).2.next, .pcStable, false⟩])
    (.cons ⟨rfl, by simp [Del.allowed, hl, Cls.base]⟩ .nil)
    (R := [⟨h'.next, .paramLearning, false⟩]) (g11.of_perm (.swap _ _ _))
  obtain ⟨h13, e13, g13, _⟩ := HeapHas.delAll (virt := virt) (ds := [⟨.paramLearning, false, some (h'.new .paramLearning).1⟩])
    (B := [⟨h'.next, .paramLearning, false⟩]) (.cons (fits_same ..) .nil) (R := []) g12
  exact ⟨h13, by rw [e12, ok_bind, e13], g13.perm.map _⟩

/-- C111: as the code is, each of the five commands has undefined behaviour whenever the network has a node, because `~Network` deletes
`DiscreteNode` objects through `Node*` and `Node` has no virtual destructor. -/
theorem C111_undefined (rows vars n : Nat) (hvars : vars ≠ 0) (hn : n ≠ 0) (ref : Option Nat) (libsvm : Bool) {N : Net}
    {order : List (Nat × Nat) → List (Nat × Nat)} (horder : ∀ l, (order l).Perm l) {cord : Nat → List Nat} {T : JTShape}
    (hT : N.junctionShape order cord = .ok T) :
    bnslObjects Cls.virtualDtor rows vars ref = .error .ub ∧ bnlObjects Cls.virtualDtor rows vars ref = .error .ub ∧
    bneiObjects Cls.virtualDtor n T = .error .ub ∧ classifyObjects Cls.virtualDtor rows vars ref T = .error .ub ∧
    sampleObjects Cls.virtualDtor n libsvm = .error .ub := by
  obtain ⟨hs, hc⟩ := seps_of_shape horder hT
  exact ⟨(bnsl_outcome _ rows vars ref).2 rfl hvars, (bnl_outcome _ rows vars ref).2 rfl hvars, (bnei_outcome _ rfl n hs hc).2 rfl hn,
    (classify_outcome _ rfl rfl rows vars ref hs hc).2 rfl (by omega), (sample_outcome _ n libsvm).2 rfl hn⟩

/-- The virtual destructors of the code and one for `Node`. -/
def repairedDtor (c : Cls) : Bool := c.virtualDtor || c = .node

/-- C111, for the code with `virtual ~Node() {}`: every command releases each object at most once, uses no released object, and the objects
that stay allocated are exactly the learner objects `PCStable` and `ParameterLearning` in the two learning commands.  Missing for the full
claim: the code has no such destructor (`C111_undefined`), and the two learning commands do leave objects behind. -/
theorem C111_release_partial (rows vars n : Nat) (ref : Option Nat) (libsvm : Bool) {N : Net}
    {order : List (Nat × Nat) → List (Nat × Nat)} (horder : ∀ l, (order l).Perm l) {cord : Nat → List Nat} {T : JTShape}
    (hT : N.junctionShape order cord = .ok T) :
    (∃ h, bnslObjects repairedDtor rows vars ref = .ok h ∧ (h.live.map LiveObj.cls).Perm [.pcStable]) ∧
    (∃ h, bnlObjects repairedDtor rows vars ref = .ok h ∧ (h.live.map LiveObj.cls).Perm [.paramLearning, .pcStable]) ∧
    (∃ h, bneiObjects repairedDtor n T = .ok h ∧ h.live = []) ∧
    (∃ h, classifyObjects repairedDtor rows vars ref T = .ok h ∧ h.live = []) ∧
    (∃ h, sampleObjects repairedDtor n libsvm = .ok h ∧ h.live = []) := by
  obtain ⟨hs, hc⟩ := seps_of_shape horder hT
  have e : ∀ {x : Except Fault Heap}, (∃ h, x = .ok h ∧ (h.live.map LiveObj.cls).Perm []) → ∃ h, x = .ok h ∧ h.live = [] := by
    rintro x ⟨h, h1, h2⟩
    exact ⟨h, h1, List.map_eq_nil_iff.1 (List.perm_nil.1 h2)⟩
  exact ⟨(bnsl_outcome _ rows vars ref).1 rfl, (bnl_outcome _ rows vars ref).1 rfl, e ((bnei_outcome _ rfl n hs hc).1 rfl),
    e ((classify_outcome _ rfl rfl rows vars ref hs hc).1 rfl), e ((sample_outcome _ n libsvm).1 rfl)⟩

/-- C111: `~PCStable` releases the network that the user passed to it, so a user who releases both has undefined behaviour, whichever
destructors are virtual and however many nodes there are. -/
theorem C111_double_release (virt : Cls → Bool) (vars : Nat) : learnThenRelease virt vars = .error .ub := by
  have g2 := HeapHas.empty.net .network
  have g3 := g2.new .pcStable false
  have g4 := (g3.of_perm (L' := (newNetObj {} .network).1.objs .network ++ [⟨(newNetObj {} .network).2.next, .pcStable, false⟩])
    (by rw [List.perm_iff_count]; intro a; simp only [List.count_append, List.count_cons, List.count_nil]; omega)).addNodes vars
  unfold learnThenRelease
  simp only []
  generalize hn : (newNetObj {} .network).1.addNodes ((newNetObj {} .network).2.new .pcStable).2 vars = nh at g4 ⊢
  -- the first deletion of the second round finds its object gone
  have dead : ∀ h', HeapHas h' [] → h'.delAll virt (nh.1.deletions .network) = .error .ub := by
    intro h' g
    have hne : nh.1.deletions .network ≠ [] := by simp [NetObj.deletions]
    obtain ⟨d, ds, hd⟩ := List.exists_cons_of_ne_nil hne
    have hp : ∃ a, d.ptr = some a := by
      have hm : d ∈ nh.1.deletions .network := by rw [hd]; simp
      unfold NetObj.deletions at hm
      rcases List.mem_append.1 hm with hm | hm
      · obtain ⟨a, _, rfl⟩ := List.mem_map.1 hm
        exact ⟨a, rfl⟩
      · rw [List.mem_singleton] at hm
        exact ⟨_, by rw [hm]⟩
    obtain ⟨a, ha⟩ := hp
    rw [hd, delAll_cons, g.del_dead ha (by simp)]
    rfl
  have last : ∀ h', HeapHas h' [⟨(newNetObj {} .network).2.next, .pcStable, false⟩] →
      (h'.delAll virt [⟨.structureLearning, false, some ((newNetObj {} .network).2.new .pcStable).1⟩] >>= fun h =>
        h.delAll virt (nh.1.deletions .network)) = .error .ub := by
    intro h' g
    by_cases hl : virt .structureLearning = true
    · obtain ⟨h2, e2, g2, _⟩ := HeapHas.delAll (virt := virt)
        (ds := [⟨.structureLearning, false, some ((newNetObj {} .network).2.new .pcStable).1⟩])
        (B := [⟨(newNetObj {} .network).2.next, .pcStable, false⟩])
        (.cons ⟨rfl, by simp [Del.allowed, hl, Cls.base]⟩ .nil) (R := []) g
      rw [e2, ok_bind, dead h2 g2]
    · rw [delAll_cons, g.del_wrong (o := ⟨(newNetObj {} .network).2.next, .pcStable, false⟩) (by simp) rfl (by simp [Del.allowed, hl])]
      rfl
  have hass : ∀ x : Except Fault Heap, ∀ f g : Heap → Except Fault Heap, (x >>= f) >>= g = x >>= fun h => f h >>= g := by
    intro x f g
    cases x <;> rfl
  unfold pcStableDeletions
  rw [delAll_append, hass]
  cases hv : virt .node with
  | true =>
    obtain ⟨h', e, g, _⟩ := HeapHas.delAll (NetObj.fits hv (s := .network) (Or.inl rfl)) g4
    rw [e, ok_bind]
    exact last h' g
  | false =>
    by_cases h0 : nh.1.nodes = []
    · obtain ⟨h', e, g, _⟩ := HeapHas.delAll (virt := virt) (ds := nh.1.deletions .network) (B := nh.1.objs .network)
        (by unfold NetObj.deletions NetObj.objs; rw [h0]; exact .cons (fits_same ..) .nil) g4
      rw [e, ok_bind]
      exact last h' g
    · rw [NetObj.faulty hv h0 g4]
      rfl

/-- A network of four nodes whose junction tree has three cliques and three candidate separators, one of which is released. -/
example : ∃ N T, (Net.empty [2, 2, 2, 2]).run [.addDirected 0 1, .addDirected 1 2, .addDirected 1 3] = .ok N ∧
    N.junctionShape List.reverse List.range = .ok T ∧ T.cliques.length = 3 ∧ T.seps.length = 2 ∧ (candidateSeps T.cliques).length = 3 ∧
    (∃ h, newJunctionTree repairedDtor {} T = .ok h ∧ h.2.live.length = 9) := by
  cases hN : (Net.empty [2, 2, 2, 2]).run [.addDirected 0 1, .addDirected 1 2, .addDirected 1 3] with
  | error e => cases hN
  | ok N =>
    refine ⟨N, ⟨[[0, 1], [1, 2], [1, 3]], [(0, 2), (1, 2)], [(1, 2), (0, 2), (0, 1)], [0, 1, 2]⟩, rfl, ?_, rfl, rfl, ?_, _, rfl, ?_⟩
    · cases hN
      decide +kernel
    · decide +kernel
    · decide +kernel

/-- For that tree the commands of the code as it is are undefined, those of the repaired code are not. -/
example : bneiObjects Cls.virtualDtor 4 ⟨[[0, 1], [1, 2], [1, 3]], [(0, 2), (1, 2)], [(1, 2), (0, 2), (0, 1)], [0, 1, 2]⟩ = .error .ub ∧
    bneiObjects repairedDtor 4 ⟨[[0, 1], [1, 2], [1, 3]], [(0, 2), (1, 2)], [(1, 2), (0, 2), (0, 1)], [0, 1, 2]⟩ = .ok ⟨16, []⟩ := by
  decide +kernel

end FastPGM
