import Verif.Props.Orientation
import Verif.Props.Compare
import Verif.Lemmas.LearnCommands
import Verif.Lemmas.MarkovEquiv

/-!
C81: what the learned graph says about the independences.  C56 and C58 speak of the acyclic graphs with the adjacencies and v-structures of the
true graph.  Here they are related to the independences themselves: these are exactly the acyclic graphs with the same d-separations
(Verma and Pearl), so an arrow of the learned graph is an arrow of every graph that gives the same answers to all tests, and an edge is
left undirected only if such graphs disagree about it.
-/

namespace FastPGM

open Spec

/-- A graph with the same answers to the tests of a pair and a set of other nodes has the same adjacencies and v-structures. -/
theorem equivalent_of_verdicts {D D' : Nat → Nat → Prop} {n : Nat} {ind : Nat → Nat → List Nat → Bool} (h : DOracle D n ind) (h' : DOracle D' n ind) :
    Equivalent D D' := by
  have few : ∀ {E : Nat → Nat → Prop}, DOracle E n ind → FewParents E (n + 1) := by
    intro E hE x S hnd hS
    have : S.Subperm (List.range n) := List.subperm_of_subset hnd (fun z hz => List.mem_range.2 (hE.range _ _ (hS z hz)).1)
    have := this.length_le
    rw [List.length_range] at this
    omega
  have hsk : ∀ x y, Joined D' x y ↔ Joined D x y := fun x y => (skeleton_joined h' (few h')).symm.trans (skeleton_joined h (few h))
  -- the parents of one of two nodes that are not adjacent separate them
  have hsep : ∀ {E : Nat → Nat → Prop}, DOracle E n ind → ∀ a c, a ≠ c → ¬ Joined E a c →
      ∃ S : List Nat, S.Pairwise (· < ·) ∧ (∀ z ∈ S, z < n ∧ z ≠ a ∧ z ≠ c) ∧ DSeparated E S a c := by
    intro E hE a c hac hj
    have key : ∀ a c, a ≠ c → ¬ Joined E a c → ¬ Relation.TransGen E a c →
        ∃ S : List Nat, S.Pairwise (· < ·) ∧ (∀ z ∈ S, z < n ∧ z ≠ a ∧ z ≠ c) ∧ DSeparated E S a c := by
      intro a c hac hj hd
      refine ⟨parentList E n a, parentList_sorted a, fun z hz => ?_, parents_separate hE.acyclic hac hj hd (fun z => mem_parentList hE)⟩
      have hz' := (mem_parentList hE).1 hz
      refine ⟨(hE.range _ _ hz').1, ?_, ?_⟩
      · rintro rfl
        exact hE.irrefl hz'
      · rintro rfl
        exact hj (Or.inr hz')
    by_cases hd : Relation.TransGen E a c
    · obtain ⟨S, h1, h2, h3⟩ := key c a (Ne.symm hac) (fun h => hj h.symm) (fun h => hE.acyclic ⟨a, hd.trans h⟩)
      exact ⟨S, h1, fun z hz => ⟨(h2 z hz).1, (h2 z hz).2.2, (h2 z hz).2.1⟩, dSeparated_symm h3⟩
    · exact key a c hac hj hd
  have hcol : ∀ {E E' : Nat → Nat → Prop}, DOracle E n ind → DOracle E' n ind → (∀ x y, Joined E' x y ↔ Joined E x y) →
      ∀ a b c, VStructure E a b c → VStructure E' a b c := by
    intro E E' hE hE' hs a b c ⟨hac, hab, hcb, hj⟩
    have hj' : ¬ Joined E' a c := fun h => hj ((hs a c).1 h)
    obtain ⟨S, s1, s2, s3⟩ := hsep hE a c hac hj
    have hnd : [a, b, c].Nodup := by
      have h1 : a ≠ b := by rintro rfl; exact hE.irrefl hab
      have h2 : b ≠ c := by rintro rfl; exact hE.irrefl hcb
      simp only [List.nodup_cons, List.mem_cons, List.not_mem_nil, or_false, not_or, not_false_eq_true, and_true, List.nodup_nil]
      exact ⟨⟨h1, hac⟩, h2⟩
    have hb : b ∉ S := fun hb => not_dSeparated_of_passes hnd (Or.inl hab) (Or.inr hcb) (Or.inl ⟨⟨hab, hcb⟩, b, hb, .refl⟩) s3
    have s3' : DSeparated E' S a c := by
      rcases Nat.lt_or_gt_of_ne hac with hlt | hlt
      · exact (hE'.verdict a c S hlt (hE.range _ _ hcb).1 s1 s2).1 ((hE.verdict a c S hlt (hE.range _ _ hcb).1 s1 s2).2 s3)
      · have s2' : ∀ z ∈ S, z < n ∧ z ≠ c ∧ z ≠ a := fun z hz => ⟨(s2 z hz).1, (s2 z hz).2.2, (s2 z hz).2.1⟩
        exact dSeparated_symm ((hE'.verdict c a S hlt (hE.range _ _ hab).1 s1 s2').1
          ((hE.verdict c a S hlt (hE.range _ _ hab).1 s1 s2').2 (dSeparated_symm s3)))
    by_contra hv
    exact not_dSeparated_of_passes hnd ((hs a b).2 (Or.inl hab)) ((hs b c).2 (Or.inr hcb))
      (Or.inr ⟨fun hc => hv ⟨hac, hc.1, hc.2, hj'⟩, hb⟩) s3'
  exact ⟨h'.acyclic, hsk, fun a b c => ⟨hcol h' h (fun x y => (hsk x y).symm) a b c, hcol h h' hsk a b c⟩⟩

/-- C81.  Two acyclic graphs on the nodes `0, …, n-1` have the same adjacencies and v-structures exactly if every set of nodes separates
the same pairs of nodes in both. -/
theorem C81_same_independences {D D' : Nat → Nat → Prop} {n : Nat} (hD : ¬ Cyclic D) (hr : ∀ x y, D x y → x < n ∧ y < n) (hD' : ¬ Cyclic D')
    (hr' : ∀ x y, D' x y → x < n ∧ y < n) :
    Equivalent D D' ↔ ∀ (S : List Nat) (a b : Nat), a ≠ b → (DSeparated D S a b ↔ DSeparated D' S a b) := by
  classical
  refine ⟨fun h S a b hab => equivalent_dSeparated _ rfl hD hr h hab, fun h => ?_⟩
  refine equivalent_of_verdicts (n := n) (ind := fun x y S => decide (DSeparated D S x y)) ⟨hD, hr, fun x y S _ _ _ _ => by simp⟩
    ⟨hD', hr', fun x y S hxy _ _ _ => ?_⟩
  rw [decide_eq_true_iff]
  exact h S x y (Nat.ne_of_lt hxy)

/-- The graphs that give the answers `ind` to all tests are the graphs equivalent to one of them. -/
theorem oracle_iff_equivalent {D D' : Nat → Nat → Prop} {n : Nat} {ind : Nat → Nat → List Nat → Bool} (h : DOracle D n ind) :
    DOracle D' n ind ↔ Equivalent D D' := by
  refine ⟨equivalent_of_verdicts h, fun he => ?_⟩
  have hr' : ∀ x y, D' x y → x < n ∧ y < n := by
    intro x y hxy
    rcases (he.skeleton x y).1 (Or.inl hxy) with h1 | h1
    · exact h.range _ _ h1
    · exact (h.range _ _ h1).symm
  refine ⟨he.acyclic, hr', fun x y S hxy hy hs hz => ?_⟩
  rw [h.verdict x y S hxy hy hs hz]
  exact equivalent_dSeparated _ rfl h.acyclic h.range he (Nat.ne_of_lt hxy)

/-- C81 for the learner.  If the independence verdicts are those of some directed acyclic graph with fewer than `depth` parents per node, then in
the graph that is returned (without completion)
* `x → y` is an arrow exactly if `x → y` is an arrow of every acyclic graph with these verdicts,
* `x - y` is an undirected edge exactly if some acyclic graph with these verdicts has `x → y` and another one has `y → x`,
* there is no edge exactly if no acyclic graph with these verdicts has one.
The answer depends on the verdicts only: not on the graph they come from, the schedule, the batching or the group size. -/
theorem C81_learned {D : Nat → Nat → Prop} {n depth : Nat} {ind : Nat → Nat → List Nat → Bool} (h : DOracle D n ind) (hdepth : FewParents D depth) :
    ∃ F, ∀ (ci : CITest) (g cap : Nat) (order : List Nat) (sched : Nat → Schedule) (fuel fuel' room : Nat) (bits : Nat → Bool) (dims : List Nat),
      Answers ci ind n g → 0 < g → 0 < cap → order.Perm (List.range (n * (n - 1) / 2)) → (∀ d r l, (sched d r l).Perm l) → F ≤ fuel →
      dims.length = n → n * (n - 1) / 2 ≤ room → n * (n - 1) / 2 < fuel' →
      ∃ k N, learnSkeleton ci n depth g cap order sched fuel = .ok k ∧ orientPhase room bits false fuel' dims k = .ok N ∧ N.nodes.length = n ∧
        ∀ x y, x < y →
          (pairStatus N.edges x y = .forward ↔ ∀ D', DOracle D' n ind → D' x y) ∧
          (pairStatus N.edges x y = .backward ↔ ∀ D', DOracle D' n ind → D' y x) ∧
          (pairStatus N.edges x y = .undirected ↔ (∃ D', DOracle D' n ind ∧ D' x y) ∧ ∃ D', DOracle D' n ind ∧ D' y x) ∧
          (pairStatus N.edges x y = .absent ↔ ∀ D', DOracle D' n ind → ¬ D' x y ∧ ¬ D' y x) := by
  obtain ⟨F, hF⟩ := C56_recovers h hdepth
  refine ⟨F, ?_⟩
  intro ci g cap order sched fuel fuel' room bits dims ha hg hc hord hsched hfu hd hroom hf'
  obtain ⟨k, N, h1, h2, hp, hP, -⟩ := hF ci g cap order sched fuel fuel' room bits dims ha hg hc hord hsched hfu hd hroom hf'
  refine ⟨k, N, h1, h2, hp.nodes, fun x y hxy => ?_⟩
  have hst := partially_status hp hxy
  have hcomp : ∀ a b, ParentOf N a b ↔ ∀ D', DOracle D' n ind → D' a b := by
    intro a b
    rw [hP]
    exact ⟨fun hc D' hD' => hc D' ((oracle_iff_equivalent h).1 hD'), fun hc D' hD' => hc D' ((oracle_iff_equivalent h).2 hD')⟩
  have hasym : ∀ {E : Nat → Nat → Prop}, DOracle E n ind → ∀ a b, E a b → ¬ E b a :=
    fun hE a b q1 q2 => hE.acyclic ⟨a, (Relation.TransGen.single q1).tail q2⟩
  have hj : ∀ {E : Nat → Nat → Prop}, DOracle E n ind → (Joined E x y ↔ Joined D x y) := fun hE => ((oracle_iff_equivalent h).1 hE).skeleton x y
  rw [hst]
  unfold graphStatus
  by_cases c1 : ParentOf N x y
  · have q1 := (hcomp x y).1 c1
    rw [if_pos c1]
    refine ⟨iff_of_true rfl q1, iff_of_false (by simp) (fun q => hasym h _ _ (q1 D h) (q D h)), iff_of_false (by simp) ?_,
      iff_of_false (by simp) (fun q => (q D h).1 (q1 D h))⟩
    rintro ⟨_, D', hD', q⟩
    exact hasym hD' _ _ (q1 D' hD') q
  · have n1 : ¬ ∀ D', DOracle D' n ind → D' x y := fun q => c1 ((hcomp x y).2 q)
    rw [if_neg c1]
    by_cases c2 : ParentOf N y x
    · have q2 := (hcomp y x).1 c2
      rw [if_pos c2]
      refine ⟨iff_of_false (by simp) n1, iff_of_true rfl q2, iff_of_false (by simp) ?_, iff_of_false (by simp) (fun q => (q D h).2 (q2 D h))⟩
      rintro ⟨⟨D', hD', q⟩, _⟩
      exact hasym hD' _ _ (q2 D' hD') q
    · have n2 : ¬ ∀ D', DOracle D' n ind → D' y x := fun q => c2 ((hcomp y x).2 q)
      rw [if_neg c2]
      by_cases c3 : Joined D x y
      · rw [if_pos c3]
        refine ⟨iff_of_false (by simp) n1, iff_of_false (by simp) n2, iff_of_true rfl ⟨?_, ?_⟩, iff_of_false (by simp) ?_⟩
        · push Not at n2
          obtain ⟨D', hD', q⟩ := n2
          exact ⟨D', hD', ((hj hD').2 c3).resolve_right q⟩
        · push Not at n1
          obtain ⟨D', hD', q⟩ := n1
          exact ⟨D', hD', ((hj hD').2 c3).resolve_left q⟩
        · intro q
          exact c3.elim (q D h).1 (q D h).2
      · rw [if_neg c3]
        refine ⟨iff_of_false (by simp) n1, iff_of_false (by simp) n2, iff_of_false (by simp) ?_, iff_of_true rfl ?_⟩
        · rintro ⟨⟨_, hD', q⟩, _⟩
          exact c3 ((hj hD').1 (Or.inl q))
        · intro _ hD'
          exact ⟨fun q => c3 ((hj hD').1 (Or.inl q)), fun q => c3 ((hj hD').1 (Or.inr q))⟩

/-- An edge of a v-structure is compelled. -/
theorem compelled_of_vStructure {D : Nat → Nat → Prop} {a b c : Nat} (h : VStructure D a b c) : Compelled D a b :=
  fun _ hD' => ((hD'.colliders a b c).2 h).2.1

theorem Spec.Equivalent.symm {D D' : Nat → Nat → Prop} (hD : ¬ Cyclic D) (h : Equivalent D D') : Equivalent D' D :=
  ⟨hD, fun x y => (h.skeleton x y).symm, fun a b c => (h.colliders a b c).symm⟩

theorem Spec.Equivalent.trans {D D' E : Nat → Nat → Prop} (h : Equivalent D D') (h' : Equivalent D' E) : Equivalent D E :=
  ⟨h'.acyclic, fun x y => (h'.skeleton x y).trans (h.skeleton x y), fun a b c => (h'.colliders a b c).trans (h.colliders a b c)⟩

/-- The structural Hamming distance of the graphs of two classes is 0 exactly if the classes are the same. -/
theorem class_hamming_zero {D D' : Nat → Nat → Prop} {n : Nat} (hD : ¬ Cyclic D) (hr : ∀ x y, D x y → x < n ∧ y < n) (hD' : ¬ Cyclic D')
    (hr' : ∀ x y, D' x y → x < n ∧ y < n) : hamming n (classStatus D) (classStatus D') = 0 ↔ Equivalent D D' := by
  classical
  rw [C36_zero]
  constructor
  · intro h
    have hwlog : ∀ {E E' : Nat → Nat → Prop}, ¬ Cyclic E → (∀ x y, E x y → x < n ∧ y < n) →
        (∀ i j, i < j → j < n → classStatus E i j = classStatus E' i j) →
        (∀ x y, Joined E x y → Joined E' x y) ∧ ∀ x y, E x y → Compelled E x y → E' x y := by
      intro E E' hE hrE hst
      have hasym : ∀ a b, E a b → ¬ E b a := fun a b q1 q2 => hE ⟨a, (Relation.TransGen.single q1).tail q2⟩
      have hirr : ∀ a, ¬ E a a := fun a q => hE ⟨a, .single q⟩
      have key : ∀ x y, x < y → y < n → (Joined E x y → Joined E' x y) ∧ (E x y → Compelled E x y → E' x y) ∧ (E y x → Compelled E y x → E' y x) := by
        intro x y hxy hy
        have hs := hst x y hxy hy
        unfold classStatus at hs
        have e1 : E x y ∧ Compelled E x y → E' x y := by
          intro q
          rw [if_pos q] at hs
          by_contra hn
          rw [if_neg (fun w => hn w.1)] at hs
          split at hs
          · cases hs
          · split at hs <;> cases hs
        have e2 : E y x ∧ Compelled E y x → E' y x := by
          intro q
          rw [if_neg (fun w => hasym _ _ w.1 q.1), if_pos q] at hs
          by_contra hn
          rw [if_neg (show ¬ (E' y x ∧ Compelled E' y x) from fun w => hn w.1)] at hs
          split at hs
          · cases hs
          · split at hs <;> cases hs
        refine ⟨fun hj => ?_, fun q1 q2 => e1 ⟨q1, q2⟩, fun q1 q2 => e2 ⟨q1, q2⟩⟩
        by_contra hn
        rw [if_neg (show ¬ (E' x y ∧ Compelled E' x y) from fun w => hn (Or.inl w.1)),
          if_neg (show ¬ (E' y x ∧ Compelled E' y x) from fun w => hn (Or.inr w.1)), if_neg hn, if_pos hj] at hs
        split at hs
        · cases hs
        · split at hs <;> cases hs
      constructor
      · intro x y hj
        rcases Nat.lt_trichotomy x y with q | q | q
        · refine (key x y q ?_).1 hj
          rcases hj with w | w
          · exact (hrE _ _ w).2
          · exact (hrE _ _ w).1
        · subst q
          rcases hj with w | w <;> exact absurd w (hirr _)
        · refine ((key y x q ?_).1 hj.symm).symm
          rcases hj with w | w
          · exact (hrE _ _ w).1
          · exact (hrE _ _ w).2
      · intro x y w hc
        rcases Nat.lt_trichotomy x y with q | q | q
        · exact (key x y q (hrE _ _ w).2).2.1 w hc
        · subst q
          exact absurd w (hirr _)
        · exact (key y x q (hrE _ _ w).1).2.2 w hc
    obtain ⟨j1, k1⟩ := hwlog (E' := D') hD hr h
    obtain ⟨j2, k2⟩ := hwlog (E' := D) hD' hr' (fun i j hij hj => (h i j hij hj).symm)
    refine ⟨hD', fun x y => ⟨j2 x y, j1 x y⟩, fun a b c => ⟨fun hv => ?_, fun hv => ?_⟩⟩
    · exact ⟨hv.1, k2 _ _ hv.2.1 (compelled_of_vStructure hv),
        k2 _ _ hv.2.2.1 (compelled_of_vStructure ⟨hv.1.symm, hv.2.2.1, hv.2.1, fun w => hv.2.2.2 w.symm⟩), fun w => hv.2.2.2 (j1 _ _ w)⟩
    · exact ⟨hv.1, k1 _ _ hv.2.1 (compelled_of_vStructure hv),
        k1 _ _ hv.2.2.1 (compelled_of_vStructure ⟨hv.1.symm, hv.2.2.1, hv.2.1, fun w => hv.2.2.2 w.symm⟩), fun w => hv.2.2.2 (j2 _ _ w)⟩
  · intro he i j _ _
    have hc : ∀ x y, Compelled D x y ↔ Compelled D' x y := fun x y =>
      ⟨fun q E hE => q E (he.trans hE), fun q E hE => q E ((he.symm hD).trans hE)⟩
    have hd : ∀ x y, (D x y ∧ Compelled D x y) ↔ (D' x y ∧ Compelled D' x y) := by
      intro x y
      rw [hc x y]
      exact ⟨fun q => ⟨(hc x y).2 q.2 D' he, q.2⟩, fun q => ⟨q.2 D (he.symm hD), q.2⟩⟩
    unfold classStatus
    simp only [hd, he.skeleton]

/-- C81 for the reported distance.  Let `L` be the graph learned from the independences of `D` (`C56_recovers`), with at least one undirected edge,
and `T` a true network without the situation of `C58_three_parents_ub`.  Then `GetSHD` returns 0 exactly if `T` and `D` have the same
independences. -/
theorem C81_distance_zero {dims : List Nat} {ops : List EdgeOp} (hops : ∀ op ∈ ops, OpInRange dims.length op)
    (hf : FreshRun (Net.empty dims) ops) {T : Net} (hT : (Net.empty dims).run ops = .ok T) (hdir : ∀ e ∈ T.edges, e.isDirected = true)
    (hone : ∀ L, IsTopologicalOrder dims.length (ChildOf T) L → AtMostOneOutsider L (ParentOf T))
    {D : Nat → Nat → Prop} (hD : ¬ Cyclic D) (hr : ∀ x y, D x y → x < dims.length ∧ y < dims.length) {L : Net}
    (hL : PartiallyDirected dims.length (Joined D) L) (hP : ∀ x y, ParentOf L x y ↔ Compelled D x y)
    (hun : ∃ x y, Undirected (Joined D) (ParentOf L) x y) :
    ∃ d T', getSHD T L T.edges.length = .ok (d, T') ∧
      (d = 0 ↔ ∀ (S : List Nat) (a b : Nat), a ≠ b → (DSeparated (ParentOf T) S a b ↔ DSeparated D S a b)) := by
  obtain ⟨hinv, hlen, -⟩ := history_edges hops hf hT hdir
  have hirr : ∀ x y, Joined D x y → x ≠ y := by
    rintro x y hj rfl
    rcases hj with w | w <;> exact hD ⟨x, .single w⟩
  obtain ⟨e, es, hes⟩ : ∃ e es, L.edges = e :: es := by
    cases hE : L.edges with
    | cons e es => exact ⟨e, es, rfl⟩
    | nil =>
      obtain ⟨x, y, hj, -⟩ := hun
      have hnone : ∀ x y, x < y → ¬ Joined D x y := by
        intro x y hxy q
        have := (hL.pairs x y hxy).1 q
        rw [hE] at this
        simp at this
      rcases Nat.lt_or_gt_of_ne (hirr _ _ hj) with q | q
      · exact absurd hj (hnone _ _ q)
      · exact absurd hj.symm (hnone _ _ q)
  have he : e.isDirected = false := (partially_first hL (fun x y q => q.symm) hirr hes).2 hun
  obtain ⟨T', h1, -⟩ := C36_class_distance_partial hops hf hT hdir hone (partially_simple hL) hL.nodes.symm hes he
  refine ⟨_, T', h1, ?_⟩
  have hTr : ∀ x y, ParentOf T x y → x < dims.length ∧ y < dims.length := by
    intro x y hxy
    rw [← hlen]
    rw [parentOf_iff, ← hinv.wf.sym] at hxy
    exact hinv.wf.lt hxy
  have hTc : ¬ Cyclic (ParentOf T) := fun hc => hinv.acyclic (cyclic_mono (fun a b hab => by
    rw [parentOf_iff, ← hinv.wf.sym] at hab
    exact (childOf_iff).2 hab) hc)
  have hst : ∀ i j, i < j → pairStatus L.edges i j = classStatus D i j := by
    intro i j hij
    classical
    rw [partially_status hL hij]
    unfold graphStatus classStatus
    have hd : ∀ x y, ParentOf L x y ↔ (D x y ∧ Compelled D x y) := fun x y => by
      rw [hP]
      exact ⟨fun q => ⟨q D ⟨hD, fun _ _ => Iff.rfl, fun _ _ _ => Iff.rfl⟩, q⟩, fun q => q.2⟩
    simp only [hd]
  have hc : hamming dims.length (classStatus (ParentOf T)) (pairStatus L.edges) = hamming dims.length (classStatus (ParentOf T)) (classStatus D) := by
    unfold hamming
    congr 1
    refine Finset.filter_congr (fun p _ => ?_)
    constructor
    · rintro ⟨q1, q2⟩
      exact ⟨q1, by rw [← hst _ _ q1]; exact q2⟩
    · rintro ⟨q1, q2⟩
      exact ⟨q1, by rw [hst _ _ q1]; exact q2⟩
  rw [hc, class_hamming_zero hTc hTr hD hr, C81_same_independences hTc hTr hD hr]

/-! ### Example: the chain -/

/-- The chain `2 → 1 → 0`. -/
def chainBack (x y : Nat) : Prop := chain y x

theorem chain_equivalent : Equivalent chain chainBack := by
  refine ⟨?_, fun x y => ⟨fun h => h.symm, fun h => h.symm⟩, fun a b c => ⟨fun h => ?_, fun h => ?_⟩⟩
  · rintro ⟨x, hx⟩
    have : ∀ {x y}, Relation.TransGen chainBack x y → y < x := by
      intro x y h
      induction h with
      | single h => unfold chainBack chain at h; omega
      | tail _ h ih => unfold chainBack chain at h; omega
    exact absurd (this hx) (Nat.lt_irrefl x)
  · obtain ⟨h1, h2, h3, -⟩ := h
    unfold chainBack chain at h2 h3
    omega
  · obtain ⟨h1, h2, h3, -⟩ := h
    unfold chain at h2 h3
    omega

/-- Two graphs with the same answers to all tests that disagree about every direction. -/
example : DOracle chain 3 chainVerdicts ∧ DOracle chainBack 3 chainVerdicts ∧ chain 0 1 ∧ chainBack 1 0 :=
  ⟨chain_oracle.1, (oracle_iff_equivalent chain_oracle.1).2 chain_equivalent, Or.inl ⟨rfl, rfl⟩, Or.inl ⟨rfl, rfl⟩⟩

/-- The collider `0 → 1 ← 2` has the adjacencies of the chain and other independences. -/
example : ¬ ∀ (S : List Nat) (a b : Nat), a ≠ b → (DSeparated chain S a b ↔ DSeparated (fun x y => y = 1 ∧ (x = 0 ∨ x = 2)) S a b) := by
  have hac : ¬ Cyclic (fun x y => y = 1 ∧ (x = 0 ∨ x = 2)) := by
    rintro ⟨x, hx⟩
    have : ∀ {x y : Nat}, Relation.TransGen (fun x y => y = 1 ∧ (x = 0 ∨ x = 2)) x y → y = 1 ∧ (x = 0 ∨ x = 2) := by
      intro x y h
      induction h with
      | single h => exact h
      | tail _ h ih => omega
    have := this hx
    omega
  intro h
  have he := (C81_same_independences (n := 3) chain_oracle.1.acyclic chain_oracle.1.range hac (fun x y h => by omega)).2 h
  have := (he.colliders 0 1 2).1 ⟨by decide, ⟨rfl, Or.inl rfl⟩, ⟨rfl, Or.inr rfl⟩, by unfold Joined; omega⟩
  unfold VStructure chain at this
  omega

example := C81_learned chain_oracle.1 chain_oracle.2

/-- The network `0 → 1 → 2`. -/
def chainOps : List EdgeOp := [.addDirected 0 1, .addDirected 1 2]

/-- The network after `chainOps`. -/
def chainNet : Net := ((Net.empty [2, 2, 2]).run chainOps).toOption.getD (Net.empty [])

/-- The graph learned from its independences: `0 - 1 - 2`. -/
def chainLearned : Net := { nodes := (Net.empty [2, 2, 2]).nodes, edges := [mkUndirected 0 1, mkUndirected 1 2] }

theorem chain_parents (x y : Nat) : ParentOf chainNet x y ↔ chain x y := by
  rw [parentOf_iff]
  have h0 : chainNet.pa 0 = [] := by decide +kernel
  have h1 : chainNet.pa 1 = [0] := by decide +kernel
  have h2 : chainNet.pa 2 = [1] := by decide +kernel
  have h3 : chainNet.nodes.length = 3 := by decide +kernel
  unfold chain
  match y with
  | 0 => rw [h0]; simp
  | 1 => rw [h1]; simp
  | 2 => rw [h2]; simp
  | y + 3 =>
    have : chainNet.pa (y + 3) = [] := by
      unfold Net.pa
      rw [List.getElem?_eq_none (by omega)]
      rfl
    rw [this]
    simp

theorem chain_learned : PartiallyDirected 3 (Joined chain) chainLearned ∧ (∀ x y, ParentOf chainLearned x y ↔ Compelled chain x y) ∧
    Undirected (Joined chain) (ParentOf chainLearned) 0 1 := by
  have hpar : ∀ x y, ¬ ParentOf chainLearned x y := by
    intro x y h
    rw [parentOf_iff] at h
    match y, h with
    | 0, h => exact absurd h (by simp [chainLearned, Net.empty, Net.pa])
    | 1, h => exact absurd h (by simp [chainLearned, Net.empty, Net.pa])
    | 2, h => exact absurd h (by simp [chainLearned, Net.empty, Net.pa])
    | y + 3, h => exact absurd h (by simp [chainLearned, Net.empty, Net.pa])
  have hch : ∀ x y, ¬ ChildOf chainLearned x y := by
    intro x y h
    rw [childOf_iff] at h
    match x, h with
    | 0, h => exact absurd h (by simp [chainLearned, Net.empty, Net.ch])
    | 1, h => exact absurd h (by simp [chainLearned, Net.empty, Net.ch])
    | 2, h => exact absurd h (by simp [chainLearned, Net.empty, Net.ch])
    | x + 3, h => exact absurd h (by simp [chainLearned, Net.empty, Net.ch])
  refine ⟨⟨rfl, by decide, ?_, ⟨[(0, 1), (1, 2)], [], rfl, by decide⟩, ?_, ?_, ?_⟩, ?_, ⟨Or.inl (Or.inl ⟨rfl, rfl⟩), hpar _ _, hpar _ _⟩⟩
  · intro x y hxy
    have : chainLearned.edges.map (fun e => (min e.node1 e.node2, max e.node1 e.node2)) = [(0, 1), (1, 2)] := by decide
    rw [this]
    simp only [List.mem_cons, List.not_mem_nil, or_false, Prod.mk.injEq]
    unfold Joined chain
    omega
  · intro x y
    refine iff_of_false (hpar x y) ?_
    rintro ⟨e, hm, -, -, -, h⟩
    simp only [chainLearned, List.mem_cons, List.not_mem_nil, or_false] at hm
    rcases hm with rfl | rfl <;> cases h
  · exact fun x y => iff_of_false (hch x y) (hpar x y)
  · rintro ⟨x, hx⟩
    obtain ⟨c, hc, -⟩ := Relation.TransGen.head'_iff.1 hx
    exact hpar _ _ hc
  · intro x y
    refine iff_of_false (hpar x y) (fun hc => ?_)
    have h1 := hc _ chain_equivalent
    have h2 := hc chain ⟨chain_oracle.1.acyclic, fun _ _ => Iff.rfl, fun _ _ _ => Iff.rfl⟩
    unfold chainBack chain at h1
    unfold chain at h2
    omega

/-- The hypotheses of `C81_distance_zero` hold for the chain and what is learned from it. -/
example : ∃ d T', getSHD chainNet chainLearned chainNet.edges.length = .ok (d, T') ∧
    (d = 0 ↔ ∀ (S : List Nat) (a b : Nat), a ≠ b → (DSeparated (ParentOf chainNet) S a b ↔ DSeparated chain S a b)) := by
  refine C81_distance_zero (dims := [2, 2, 2]) (ops := chainOps) ?_ ?_ (by decide +kernel) (by decide +kernel) ?_ chain_oracle.1.acyclic
    chain_oracle.1.range chain_learned.1 chain_learned.2.1 ⟨0, 1, chain_learned.2.2⟩
  · intro op hop
    simp only [chainOps, List.mem_cons, List.not_mem_nil, or_false] at hop
    rcases hop with rfl | rfl <;> exact ⟨by decide, by decide⟩
  · refine freshRun_cons (by decide) (fun N' h => ?_); cases h
    refine freshRun_cons (by decide) (fun N' h => ?_); cases h
    trivial
  · intro L _ x y _
    right
    intro z z' h1 h2
    rw [chain_parents] at h1 h2
    unfold chain at h1 h2
    omega

example : (getSHD chainNet chainLearned 2).toOption.map Prod.fst = some 0 := by decide +kernel

end FastPGM
