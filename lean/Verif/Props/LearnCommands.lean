import Verif.Lemmas.LearnCommands

/-!
The commands that learn a network, from the characters of the files to the files they write and the numbers they print (C75, C76, C77).
-/

namespace FastPGM

open Spec

variable {K : Type} [Field K] [LinearOrder K]

/-! ### C75 -/

omit [Field K] [LinearOrder K] in
/-- The structure file and the distance of a learned graph. -/
theorem learned_files {nums : Numbers K} {n : Nat} {G : Nat → Nat → Prop} {N : Net} (hp : PartiallyDirected n G N) (hinv : NetInv N)
    (htopo : N.topo = []) (hr : ∀ x y, G x y → x < n ∧ x ≠ y) (hs : ∀ x y, G x y → G y x) (hne : N.edges ≠ []) {names : List Str}
    (hnames : names.length = n) :
    ∃ ls, NamesEdges G (ParentOf N) ls ∧ saveStructure names N.edges.length N = .ok (structureText names n ls.length ls) ∧
      ∀ ref shd, Reference nums.stod nums.rounds n G (ParentOf N) ref shd → reportSHD nums ref N = .ok (some shd) := by
  obtain ⟨ls, l1, l2, l3⟩ := saveStructure_eq hinv htopo hp (fun x y h => ⟨(hr x y h).1, (hr y x (hs x y h)).1⟩) hne hnames
  refine ⟨ls, l1, by rw [l3, l2], ?_⟩
  rintro ref shd (_ | ⟨good, hd, hb, hl, hsize, hone⟩)
  · exact reportSHD_none nums
  · exact reportSHD_eq good hd hb hl hsize hp hs (fun x y h => (hr x y h).2) hne hone

/-- C75.  The structure learning command.  On a well-formed training file, if the tests give a skeleton that has an edge and v-structures that
do not contradict each other, the command succeeds for every order of the tests and every choice of options: the structure file names every
arrow and every undirected edge of one partially directed graph with this skeleton whose arrows are as they should be (`LearnedGraph`), and
the printed distance counts the pairs of variables on which this graph differs from the reference. -/
theorem C75_report {X : Execution K} {nums : Numbers K} {alpha : K} {g n : Nat} {names : List Str} {train : List (List Str)} {trainFile : Str}
    (ha : 0 ≤ alpha ∧ alpha ≤ 1) (hf : TrainFile n names train trainFile) {k : Skeleton}
    (hk : learnSkeleton (ciTest X.log X.pchisq alpha (trainDims train n) (trainColumns train n) train.length) n 1000 g 128 X.order0 X.sched X.fuel = .ok k)
    {G : Nat → Nat → Prop} (hrep : Represents n G k) (hV : ¬ Cyclic (VArrow G k.sep)) (hsome : k.edges ≠ []) (hfuel : k.edges.length < X.fuel) :
    ∃ P ls, LearnedGraph G k.sep P ∧ NamesEdges G P ls ∧
      ∀ ref shd save, Reference nums.stod nums.rounds n G P ref shd →
        bnsl X nums alpha g ref trainFile save = .ok (some { structFile := if save then some (structureText (columnNames names n) n ls.length ls) else none,
                                                             shd := shd, paramFile := none }) := by
  obtain ⟨D, hD, hread⟩ := readsTrain hf
  obtain ⟨N, h1, hp, hv, hinv, htopo, -⟩ := learned_struct ha hread hk hrep hV hfuel
  have hne : N.edges ≠ [] := by
    intro h
    have := partially_count hp hrep
    rw [h] at this
    exact hsome (List.length_eq_zero_iff.1 this.symm)
  obtain ⟨ls, l1, l2, l3⟩ := learned_files (nums := nums) hp hinv htopo hrep.range hrep.symm hne (names := columnNames names n) (by simp [columnNames])
  refine ⟨ParentOf N, ls, hv, l1, ?_⟩
  intro ref shd save href
  unfold bnsl
  rw [hD, ok_bind, h1, ok_bind]
  simp only
  rw [hread.names, l2, l3 ref shd href]
  cases save <;> rfl

omit [Field K] [LinearOrder K] in
theorem graphStatus_congr {G P P' : Nat → Nat → Prop} {i j : Nat} (h1 : P i j ↔ P' i j) (h2 : P j i ↔ P' j i) :
    graphStatus G P i j = graphStatus G P' i j := by
  unfold graphStatus
  by_cases c1 : P i j
  · rw [if_pos c1, if_pos (h1.1 c1)]
  · rw [if_neg c1, if_neg (fun h => c1 (h1.2 h))]
    by_cases c2 : P j i
    · rw [if_pos c2, if_pos (h2.1 c2)]
    · rw [if_neg c2, if_neg (fun h => c2 (h2.2 h))]

/-- The status of a pair in the graph of the class. -/
theorem class_graph {D : Nat → Nat → Prop} (hD : ¬ Cyclic D) (i j : Nat) : classStatus D i j = graphStatus (Joined D) (Compelled D) i j := by
  have h : ∀ x y, Compelled D x y → D x y := fun x y hc => hc D ⟨hD, fun _ _ => Iff.rfl, fun _ _ _ => Iff.rfl⟩
  have e : ∀ x y, (D x y ∧ Compelled D x y) ↔ Compelled D x y := fun x y => ⟨fun h => h.2, fun hc => ⟨h x y hc, hc⟩⟩
  unfold classStatus graphStatus
  by_cases h1 : Compelled D i j
  · rw [if_pos ((e i j).2 h1), if_pos h1]
  · rw [if_neg (fun h => h1 ((e i j).1 h)), if_neg h1]
    by_cases h2 : Compelled D j i
    · rw [if_pos ((e j i).2 h2), if_pos h2]
    · rw [if_neg (fun h => h2 ((e j i).1 h)), if_neg h2]

/-- C75.  If the tests on the training file give the verdicts of the reference graph, the printed distance is 0 and the structure file describes
the equivalence class of the reference graph: arrows for its compelled edges, undirected edges for the others. -/
theorem C75_perfect {vs : List VarDecl} {ts : List (TableDecl K)} (good : GoodDescription vs ts) {ind : Nat → Nat → List Nat → Bool}
    (horacle : DOracle (DeclEdge ts) vs.length ind) (hfew : FewParents (DeclEdge ts) 1000) (hsome : ∃ x y, DeclEdge ts x y)
    (hone : NoTwoOutsiders vs.length (DeclEdge ts)) :
    ∃ F, ∀ (X : Execution K) (nums : Numbers K) (alpha : K) (g : Nat) (names : List Str) (train : List (List Str)) (trainFile : Str)
      (refFile last : Str) (save : Bool), 0 ≤ alpha ∧ alpha ≤ 1 → TrainFile vs.length names train trainFile → BifDescribes nums.stod refFile vs ts →
      3 * vs.length < nums.rounds → 10 ∉ last →
      Answers (ciTest X.log X.pchisq alpha (trainDims train vs.length) (trainColumns train vs.length) train.length) ind vs.length g → 0 < g →
      X.order0.Perm (List.range (vs.length * (vs.length - 1) / 2)) → (∀ d r l, (X.sched d r l).Perm l) → F ≤ X.fuel →
      vs.length * (vs.length - 1) / 2 < X.fuel →
      ∃ ls, NamesEdges (Joined (DeclEdge ts)) (Compelled (DeclEdge ts)) ls ∧
        bnsl X nums alpha g (some (refFile ++ last)) trainFile save =
          .ok (some { structFile := if save then some (structureText (columnNames names vs.length) vs.length ls.length ls) else none,
                      shd := some 0, paramFile := none }) := by
  obtain ⟨F, hF⟩ := C56_recovers horacle hfew
  obtain ⟨F', v, hl⟩ := learnSkeleton_eq ind vs.length 1000
  refine ⟨max F F', ?_⟩
  intro X nums alpha g names train trainFile refFile last save ha hf hd hrounds hlast hans hg hord hsched hfuel hfuel'
  obtain ⟨k, N, h1, h2, hp, hP, -⟩ := hF _ g 128 X.order0 X.sched X.fuel X.fuel _ X.bits (trainDims train vs.length) hans hg (by omega) hord hsched
    (le_trans (le_max_left _ _) hfuel) (by simp [trainDims]) (le_refl _) hfuel'
  have hP' : ParentOf N = Compelled (DeclEdge ts) := by funext x y; exact propext (hP x y)
  obtain ⟨D, hD, hread⟩ := readsTrain hf
  have hr : ∀ x y, Joined (DeclEdge ts) x y → x < vs.length ∧ x ≠ y := by
    intro x y h
    have hxy : x ≠ y := by
      rintro rfl
      rcases h with h | h <;> exact good.acyclic ⟨x, Relation.TransGen.single h⟩
    rcases h with h | h
    · exact ⟨(horacle.range x y h).1, hxy⟩
    · exact ⟨(horacle.range y x h).2, hxy⟩
  have hs : ∀ x y, Joined (DeclEdge ts) x y → Joined (DeclEdge ts) y x := fun x y h => h.symm
  have hne : N.edges ≠ [] := by
    intro he
    obtain ⟨x, y, hxy⟩ := hsome
    have key : ∀ u v, u < v → Joined (DeclEdge ts) u v → False := by
      intro u v huv hj
      have := (hp.pairs u v huv).1 hj
      rw [he] at this
      simp at this
    rcases Nat.lt_trichotomy x y with hlt | rfl | hlt
    · exact key x y hlt (Or.inl hxy)
    · exact good.acyclic ⟨x, Relation.TransGen.single hxy⟩
    · exact key y x hlt (Or.inr hxy)
  obtain ⟨ls, l1, l2, l3⟩ := learned_files (nums := nums) hp (orientPhase_keep h2) (orientPhase_topo h2) hr hs hne
    (names := columnNames names vs.length) (by simp [columnNames])
  have hcount : k.edges.length = N.edges.length := by
    obtain ⟨k', e1, -, e2, -⟩ := hl _ g 128 X.order0 X.sched X.fuel hans hg (by omega) hord hsched (le_trans (le_max_right _ _) hfuel)
    rw [h1] at e1
    cases e1
    have hG : skeletonAt ind vs.length (max 1000 1) = Joined (DeclEdge ts) := by
      funext x y
      exact propext (skeleton_joined horacle hfew)
    rw [hG] at e2
    exact (partially_count hp e2).symm
  rw [hP'] at l1 l3
  have hzero : hamming vs.length (referenceStatus (Joined (DeclEdge ts)) (Compelled (DeclEdge ts)) (DeclEdge ts))
      (graphStatus (Joined (DeclEdge ts)) (Compelled (DeclEdge ts))) = 0 := by
    rw [C36_zero]
    intro i j _ _
    unfold referenceStatus
    have hc : ∀ x y, Compelled (DeclEdge ts) x y → DeclEdge ts x y :=
      fun x y hc => hc _ ⟨good.acyclic, fun _ _ => Iff.rfl, fun _ _ _ => Iff.rfl⟩
    by_cases hu : ∃ x y, Undirected (Joined (DeclEdge ts)) (Compelled (DeclEdge ts)) x y
    · rw [if_pos hu]
      exact class_graph good.acyclic i j
    · rw [if_neg hu]
      have heq : ∀ x y, DeclEdge ts x y ↔ Compelled (DeclEdge ts) x y := by
        refine fun x y => ⟨fun h => ?_, hc x y⟩
        by_contra hn
        refine hu ⟨x, y, Or.inl h, hn, fun h' => ?_⟩
        exact good.acyclic ⟨x, Relation.TransGen.trans (Relation.TransGen.single h) (Relation.TransGen.single (hc y x h'))⟩
      exact graphStatus_congr (heq i j) (heq j i)
  have hrep := l3 (some (refFile ++ last)) _ (Reference.yes good hd hrounds hlast rfl (fun _ => hone))
  rw [hzero] at hrep
  refine ⟨ls, l1, ?_⟩
  unfold bnsl
  rw [hD, ok_bind]
  unfold structLearnFull
  rw [hread.dims, ok_bind, checkAlpha_ok ha, ok_bind, hread.vars, hread.columns, hread.rows, h1, ok_bind, h2, ok_bind, if_neg (by simp), hcount]
  simp only [pure_eq_ok, ok_bind]
  rw [hread.names, l2, hrep]
  cases save <;> rfl

/-- C75, violation: if every pair of variables is found independent, saving the structure is undefined behaviour, and without saving the
comparison with a reference network ends the program with an exception. -/
theorem C75_no_edges {X : Execution K} {nums : Numbers K} {alpha : K} {g n : Nat} {names : List Str} {train : List (List Str)} {trainFile : Str}
    (ha : 0 ≤ alpha ∧ alpha ≤ 1) (hf : TrainFile n names train trainFile) {k : Skeleton}
    (hk : learnSkeleton (ciTest X.log X.pchisq alpha (trainDims train n) (trainColumns train n) train.length) n 1000 g 128 X.order0 X.sched X.fuel = .ok k)
    {G : Nat → Nat → Prop} (hrep : Represents n G k) (hnone : k.edges = []) (hfuel : 0 < X.fuel) :
    (∀ ref, bnsl X nums alpha g ref trainFile true = .error .ub) ∧
      (∀ file F, loadBIF nums.stod nums.toCount nums.rounds file = .ok (some F) → bnsl X nums alpha g (some file) trainFile false = .error .throw) ∧
      bnsl X nums alpha g none trainFile false = .ok (some { structFile := none, shd := none, paramFile := none }) := by
  obtain ⟨D, hD, hread⟩ := readsTrain hf
  have hG : ∀ x y, ¬ G x y := by
    intro x y h
    have := (hrep.range x y h).2
    rcases Nat.lt_or_gt_of_ne this with hlt | hlt
    · have := (hrep.edge x y).2 ⟨hlt, h⟩
      rw [hnone] at this
      simp at this
    · have := (hrep.edge y x).2 ⟨hlt, hrep.symm _ _ h⟩
      rw [hnone] at this
      simp at this
  have hV : ¬ Cyclic (VArrow G k.sep) := by
    rintro ⟨x, hx⟩
    have : ∀ a b, ¬ VArrow G k.sep a b := by
      rintro a b ⟨y, h | h⟩
      · exact hG _ _ h.2.1
      · exact hG _ _ h.2.1
    obtain ⟨c, hc, -⟩ := Relation.TransGen.head'_iff.1 hx
    exact this _ _ hc
  obtain ⟨N, h1, hp, -, -, -, -⟩ := learned_struct ha hread hk hrep hV (by rw [hnone]; exact hfuel)
  have hne : N.edges = [] := by
    have := partially_count hp hrep
    rw [hnone] at this
    exact List.length_eq_zero_iff.1 this
  refine ⟨fun ref => ?_, fun file F hF => ?_, ?_⟩
  · unfold bnsl
    rw [hD, ok_bind, h1, ok_bind]
    simp only
    rw [C73_no_edges_ub _ _ hne]
    rfl
  · unfold bnsl
    rw [hD, ok_bind, h1, ok_bind]
    simp only [Bool.false_eq_true, if_false, pure_eq_ok, ok_bind]
    unfold reportSHD
    simp only
    rw [hF, ok_bind]
    simp only
    rw [C36_empty_throws _ hne]
    rfl
  · unfold bnsl
    rw [hD, ok_bind, h1, ok_bind]
    rfl

/-! ### C76 -/

/-- C76.  The command that learns structure and parameters: it writes and prints what the structure learning command does (C75), and the
parameter file holds for every variable, for each of its values and each configuration of its parents in the learned graph, the relative
frequency in the training file, smoothed by one.  The parents are the tails of the arrows of the learned graph. -/
theorem C76_report [IsStrictOrderedRing K] {X : Execution K} {nums : Numbers K} {alpha : K} {g n : Nat} {names : List Str} {train : List (List Str)}
    {trainFile : Str} (ha : 0 ≤ alpha ∧ alpha ≤ 1) (hf : TrainFile n names train trainFile) {k : Skeleton}
    (hk : learnSkeleton (ciTest X.log X.pchisq alpha (trainDims train n) (trainColumns train n) train.length) n 1000 g 128 X.order0 X.sched X.fuel = .ok k)
    {G : Nat → Nat → Prop} (hrep : Represents n G k) (hV : ¬ Cyclic (VArrow G k.sep)) (hsome : k.edges ≠ []) (hfuel : k.edges.length < X.fuel) :
    ∃ P ls parents, LearnedGraph G k.sep P ∧ NamesEdges G P ls ∧
      (∀ i, (parents i).Pairwise (· < ·) ∧ ∀ p, p ∈ parents i ↔ P p i) ∧
      ∀ ref shd saveStruct saveParam, Reference nums.stod nums.rounds n G P ref shd →
        bnl X nums alpha g ref trainFile saveStruct saveParam =
          .ok (some { structFile := if saveStruct then some (structureText (columnNames names n) n ls.length ls) else none,
                      shd := shd,
                      paramFile := if saveParam then some (frequencyText nums.fmt names train n parents) else none }) := by
  obtain ⟨D, hD, hread⟩ := readsTrain hf
  obtain ⟨N, h1, hp, hv, hinv, htopo, hdims⟩ := learned_struct ha hread hk hrep hV hfuel
  have hne : N.edges ≠ [] := by
    intro h
    have := partially_count hp hrep
    rw [h] at this
    exact hsome (List.length_eq_zero_iff.1 this.symm)
  obtain ⟨ls, l1, l2, l3⟩ := learned_files (nums := nums) hp hinv htopo hrep.range hrep.symm hne (names := columnNames names n) (by simp [columnNames])
  have hshape : NetShape (fun v => (firstSeen (column train v)).length) N := by
    have := shape_of_inv hinv hdims (fun d hd => trainDims_pos hf.nonempty hd)
    refine ⟨fun i s hs => ?_, this.parents⟩
    have hi : i < n := by rw [← hp.nodes]; exact (List.getElem?_eq_some_iff.1 hs).1
    have h2 := this.dim i s hs
    have e : (trainDims train n).getD i 0 = (firstSeen (column train i)).length := getD_tab hi
    rw [e] at h2
    exact h2
  have hcols : Columns (fun v => (firstSeen (column train v)).length) N.nodes.length D.natColumns (train.map (rowAssignment train)) := by
    have e : trainColumns train n = ((List.range n).map (fun j => (column train j).map (fun s => ((firstSeen (column train j)).idxOf s : Int)))).map
        (fun c => c.map Int.toNat) := by
      unfold trainColumns
      rw [List.map_map]
      refine List.map_congr_left (fun j _ => ?_)
      simp [codeIn]
    rw [hread.columns, hp.nodes, e]
    exact train_columns (fun _ _ => rfl)
  have hids : ∀ v < (columnNames names n).length, ∃ m, D.valueIds[v]? = some m ∧
      NamesValues m (firstSeen (column train v)) (firstSeen (column train v)).length := by
    intro v hvn
    exact hread.ids v (by simpa [columnNames] using hvn)
  have hpar := C74_learned (K := K) nums.fmt hshape (names := columnNames names n) (by simp [columnNames, hp.nodes]) hids hcols (alpha := 1) (by omega) X.rnd
  obtain ⟨pts, hpts, -⟩ := C22_learned (K := K) hshape hcols (alpha := 1) (by omega) (fun h => absurd h (by omega)) X.rnd []
  rw [List.nil_append] at hpts
  rw [hpts, ok_bind] at hpar
  refine ⟨ParentOf N, ls, N.pa, hv, l1,
    fun i => ⟨hinv.wf.pa_sorted i, fun p => (parentOf_iff).symm⟩, ?_⟩
  intro ref shd saveStruct saveParam href
  have htext : saveParameters nums.fmt (columnNames names n) D.valueIds N.nodes.length pts = .ok (frequencyText nums.fmt names train n N.pa) := by
    rw [hpar]
    congr 1
    unfold frequencyText
    congr 1
    rw [List.flatMap_def, ← hp.nodes]
    congr 1
    apply List.ext_getElem?
    intro i
    rw [List.getElem?_mapIdx, List.getElem?_map]
    by_cases hi : i < N.nodes.length
    · have hpa : N.nodes[i].parents = N.pa i := by simp [Net.pa, List.getElem?_eq_getElem hi]
      rw [List.getElem?_eq_getElem hi, List.getElem?_range hi, Option.map_some, Option.map_some, hpa]
      congr 1
      refine List.map_congr_left (fun c _ => ?_)
      unfold smoothedFrequency
      rw [hp.nodes]
      simp
    · rw [List.getElem?_eq_none (by omega), List.getElem?_eq_none (by simp; omega)]
      rfl
  unfold bnl
  rw [hD, ok_bind, h1, ok_bind]
  simp only
  rw [hread.names, l2, l3 ref shd href, hread.vars, hread.rows]
  rw [hp.nodes, List.length_map] at hpts
  rw [hpts, ok_bind]
  cases saveStruct <;> cases saveParam <;> simp only [Bool.false_eq_true, if_false, if_true, pure_eq_ok, ok_bind, htext]

/-- C76, violation: parameter learning knows nothing of undirected edges.  If no v-structure is found (as for every chain, every tree without
colliders, every two variables), then no arrow is there, and the parameter file holds the distributions of single variables only, however
strongly they depend on each other. -/
theorem C76_undirected_ignored [IsStrictOrderedRing K] {X : Execution K} {nums : Numbers K} {alpha : K} {g n : Nat} {names : List Str}
    {train : List (List Str)} {trainFile : Str} (ha : 0 ≤ alpha ∧ alpha ≤ 1) (hf : TrainFile n names train trainFile) {k : Skeleton}
    (hk : learnSkeleton (ciTest X.log X.pchisq alpha (trainDims train n) (trainColumns train n) train.length) n 1000 g 128 X.order0 X.sched X.fuel = .ok k)
    {G : Nat → Nat → Prop} (hrep : Represents n G k) (hV : ∀ x y, ¬ VArrow G k.sep x y) (hsome : k.edges ≠ []) (hfuel : k.edges.length < X.fuel) :
    bnl X nums alpha g none trainFile false true =
      .ok (some { structFile := none, shd := none, paramFile := some (frequencyText nums.fmt names train n (fun _ => [])) }) := by
  have hV' : ¬ Cyclic (VArrow G k.sep) := by
    rintro ⟨x, hx⟩
    obtain ⟨c, hc, -⟩ := Relation.TransGen.head'_iff.1 hx
    exact hV _ _ hc
  obtain ⟨P, ls, parents, h1, -, h3, h4⟩ := C76_report (nums := nums) ha hf hk hrep hV' hsome hfuel
  have hpar : parents = fun _ => [] := by
    funext i
    rw [List.eq_nil_iff_forall_not_mem]
    intro p hp
    exact h1.nothing hV p i (((h3 i).2 p).1 hp)
  rw [h4 none none false true Reference.no, hpar]
  rfl

/-- C75, C76: with a significance level outside the range 0 to 1 and at least two variables the commands end the program, whatever the data, before
anything is written. -/
theorem C75_level_exit {X : Execution K} {nums : Numbers K} {alpha : K} {g n : Nat} {names : List Str} {train : List (List Str)} {trainFile : Str}
    (hf : TrainFile n names train trainFile) (hn : 2 ≤ n) (ha : alpha < 0 ∨ 1 < alpha) (ref : Option Str) (saveStruct saveParam : Bool) :
    bnsl X nums alpha g ref trainFile saveStruct = .error .exit ∧ bnl X nums alpha g ref trainFile saveStruct saveParam = .error .exit := by
  obtain ⟨D, hD, hread⟩ := readsTrain hf
  have h : structLearnFull X alpha g false false D = .error .exit := by
    unfold structLearnFull
    rw [hread.dims, ok_bind, hread.vars, checkAlpha_exit ha hn]
    rfl
  constructor
  · unfold bnsl
    rw [hD, ok_bind, h]
    rfl
  · unfold bnl
    rw [hD, ok_bind, h]
    rfl

/-! ### Concrete cases -/

def exampleNumbers : Numbers ℚ where
  stod := exampleStod
  toCount := exampleCount
  fmt := fractionText
  rounds := 20

def weatherRows : List (List Str) :=
  [["yes", "wet"], ["yes", "wet"], ["no", "dry"], ["yes", "wet"], ["no", "dry"], ["no", "dry"]].map (fun r => r.map lit)

def weatherNames : List Str := ["Rain", "Wet"].map lit

def weatherFile : Str := textOf (csvLine weatherNames :: weatherRows.map csvLine)

theorem weather_file : TrainFile 2 weatherNames weatherRows weatherFile where
  pos := by omega
  csv := CsvFile.newline
  cleanNames := by unfold CleanRow CleanCell; decide
  rows := by unfold CleanRow CleanCell; decide
  nonempty := by decide
  distinct := by decide

/-- What the tests say about the example: the two variables are adjacent. -/
theorem weather_skeleton : ∃ k, learnSkeleton (ciTest (ratExecution 1 (fun _ j => j % 2)).log (ratExecution 1 (fun _ j => j % 2)).pchisq (1 / 20 : ℚ)
      (trainDims weatherRows 2) (trainColumns weatherRows 2) weatherRows.length) 2 1000 1 128 (ratExecution 1 (fun _ j => j % 2)).order0
      (ratExecution 1 (fun _ j => j % 2)).sched (ratExecution 1 (fun _ j => j % 2)).fuel = .ok k ∧
    Represents 2 (fun x y => (x, y) = (0, 1) ∨ (x, y) = (1, 0)) k ∧ (∀ x y, ¬ VArrow (fun x y => (x, y) = (0, 1) ∨ (x, y) = (1, 0)) k.sep x y) ∧
    k.edges ≠ [] ∧ k.edges.length < 20 := by
  have h : (learnSkeleton (ciTest (ratExecution 1 (fun _ j => j % 2)).log (ratExecution 1 (fun _ j => j % 2)).pchisq (1 / 20 : ℚ)
      (trainDims weatherRows 2) (trainColumns weatherRows 2) weatherRows.length) 2 1000 1 128 (ratExecution 1 (fun _ j => j % 2)).order0
      (ratExecution 1 (fun _ j => j % 2)).sched (ratExecution 1 (fun _ j => j % 2)).fuel).toOption.map
        (fun k => (k.edges.map (fun e => (e.x, e.y, e.needRemove)), k.adj)) = some ([(0, 1, false)], [[1], [0]]) := by decide +kernel
  revert h
  generalize learnSkeleton _ _ _ _ _ _ _ _ = r
  intro h
  cases r with
  | error f => simp [Except.toOption] at h
  | ok k =>
    simp only [Except.toOption, Option.map_some, Option.some.injEq, Prod.mk.injEq] at h
    obtain ⟨h1, h2⟩ := h
    obtain ⟨e, hk⟩ : ∃ e, k.edges = [e] := by
      match hh : k.edges with
      | [] => rw [hh] at h1; simp at h1
      | [e] => exact ⟨e, rfl⟩
      | _ :: _ :: _ => rw [hh] at h1; simp at h1
    rw [hk] at h1
    simp only [List.map_cons, List.map_nil, List.cons.injEq, Prod.mk.injEq, and_true] at h1
    obtain ⟨e1, e2, e3⟩ := h1
    refine ⟨k, rfl, ⟨?_, ?_, ?_, ?_, ?_, ?_, ?_⟩, ?_, ?_, ?_⟩
    · intro x y
      simp only [Prod.mk.injEq]
      omega
    · intro x y
      simp only [Prod.mk.injEq]
      omega
    · rw [hk]
      simp
    · intro x y
      rw [hk, List.map_cons, List.map_nil, List.mem_singleton, e1, e2]
      simp only [Prod.mk.injEq]
      omega
    · intro f hf
      rw [hk, List.mem_singleton] at hf
      rw [hf, e3]
    · rw [h2]
      rfl
    · intro v l hl
      rw [h2] at hl
      match v, hl with
      | 0, hl =>
        cases hl
        exact ⟨by simp, fun z => by simp⟩
      | 1, hl =>
        cases hl
        exact ⟨by simp, fun z => by simp⟩
    · rintro x y ⟨z, h | h⟩
      · obtain ⟨a1, a2, a3, -, -⟩ := h
        simp only [Prod.mk.injEq] at a2 a3
        omega
      · obtain ⟨a1, a2, a3, -, -⟩ := h
        simp only [Prod.mk.injEq] at a2 a3
        omega
    · rw [hk]
      simp
    · rw [hk]
      simp

/-- The hypotheses of C75 and C76 are met, with a reference network. -/
example : ∃ P ls shd, NamesEdges (fun x y => (x, y) = (0, 1) ∨ (x, y) = (1, 0)) P ls ∧
    Reference exampleStod 20 2 (fun x y => (x, y) = (0, 1) ∨ (x, y) = (1, 0)) P (some (bifText (bifHead ++ bifWet ++ bifRain) ++ [])) (some shd) ∧
    bnsl (ratExecution 1 (fun _ j => j % 2)) exampleNumbers (1 / 20) 1 (some (bifText (bifHead ++ bifWet ++ bifRain) ++ [])) weatherFile true =
      .ok (some { structFile := some (structureText (columnNames weatherNames 2) 2 ls.length ls), shd := some shd, paramFile := none }) := by
  obtain ⟨k, h1, h2, h3, h4, h5⟩ := weather_skeleton
  obtain ⟨P, ls, p1, p2, p3⟩ := C75_report (nums := exampleNumbers) (by norm_num) weather_file h1 h2 (by
    rintro ⟨x, hx⟩
    obtain ⟨c, hc, -⟩ := Relation.TransGen.head'_iff.1 hx
    exact h3 _ _ hc) h4 h5
  have href := Reference.yes (stod := exampleStod) (rounds := 20) (n := 2) (G := fun x y => (x, y) = (0, 1) ∨ (x, y) = (1, 0)) (P := P) (last := [])
    exampleGood exampleBif (by decide) (by simp) rfl (fun _ T _ => atMostOne_of_two (by
      rintro y a b c ⟨t, ht, h, ha⟩ ⟨t', ht', h', hb⟩ -
      simp only [exampleTables, List.mem_cons, List.not_mem_nil, or_false] at ht ht'
      rcases ht with rfl | rfl <;> rcases ht' with rfl | rfl <;> simp_all) T)
  exact ⟨P, ls, _, p2, href, p3 _ _ true href⟩

theorem weather_edge (p c : Nat) : DeclEdge exampleTables p c ↔ p = 0 ∧ c = 1 := by
  unfold DeclEdge
  simp [exampleTables]
  omega

/-- The hypotheses of `C75_perfect` are met as well. -/
example : DOracle (DeclEdge exampleTables) 2 (fun _ _ _ => false) ∧ FewParents (DeclEdge exampleTables) 1000 ∧ (∃ x y, DeclEdge exampleTables x y) ∧
    NoTwoOutsiders 2 (DeclEdge exampleTables) ∧
    Answers (ciTest (ratExecution 1 (fun _ j => j % 2)).log (ratExecution 1 (fun _ j => j % 2)).pchisq (1 / 20 : ℚ) (trainDims weatherRows 2)
      (trainColumns weatherRows 2) weatherRows.length) (fun _ _ _ => false) 2 1 := by
  refine ⟨⟨exampleGood.acyclic, ?_, ?_⟩, ?_, ⟨0, 1, (weather_edge 0 1).2 ⟨rfl, rfl⟩⟩, ?_, ⟨?_, ?_⟩⟩
  · intro x y h
    rw [weather_edge] at h
    omega
  · intro x y S hxy hy _ _
    obtain ⟨rfl, rfl⟩ : x = 0 ∧ y = 1 := by omega
    exact iff_of_false (by simp) (not_dSeparated_of_joined (by decide) (Or.inl ((weather_edge 0 1).2 ⟨rfl, rfl⟩)))
  · intro x S hn hS
    have : S ⊆ [0] := fun z hz => by simp [((weather_edge z x).1 (hS z hz)).1]
    have := (hn.subperm this).length_le
    simp at this
    omega
  · intro T _
    refine atMostOne_of_two ?_ T
    intro y a b c h1 h2 _
    rw [weather_edge] at h1 h2
    omega
  · intro x y hxy hy
    obtain ⟨rfl, rfl⟩ : x = 0 ∧ y = 1 := by omega
    exact ⟨none, by decide +kernel⟩
  · intro x y d sets hxy hy hd hne _ hs
    obtain ⟨s, hm⟩ := List.exists_mem_of_ne_nil _ hne
    obtain ⟨h1, -, h2⟩ := hs s hm
    obtain ⟨z, hz⟩ := List.exists_mem_of_ne_nil s (by rintro rfl; simp at h1; omega)
    have := h2 z hz
    omega

/-- The files and the distance, computed.  The two columns are copies of each other, the reference has `Rain → Wet`, the learned graph
`Rain - Wet` is its class; the parameters are those of two independent variables. -/
example : bnl (ratExecution 1 (fun _ j => j % 2)) exampleNumbers (1 / 20) 1 (some (bifText (bifHead ++ bifWet ++ bifRain))) weatherFile true true =
    .ok (some { structFile := some (lit "number of nodes = 2, number of edges = 1\n0: Rain/v0 -- Wet/v1\n"), shd := some 0,
                paramFile := some (lit "P (Rain/v0=yes/0) = 1/2\nP (Rain/v0=no/1) = 1/2\nP (Wet/v1=wet/0) = 1/2\nP (Wet/v1=dry/1) = 1/2\n") }) := by
  decide +kernel

/-- A reference network over the variables of `trainRows`, in another order: `c → f`. -/
def reorderedBif : List String :=
  ["network unknown {", "}", "variable g {", "  type discrete [ 2 ] { p, q };", "}", "variable c {", "  type discrete [ 2 ] { y, n };", "}",
   "variable f {", "  type discrete [ 2 ] { a, b };", "}", "probability ( g ) {", "  table 0.2, 0.8;", "}", "probability ( c ) {",
   "  table 0.2, 0.8;", "}", "probability ( f | c ) {", "  (y) 0.8, 0.2;", "  (n) 0.2, 0.8;", "}"]

/-- C75, violation: the variables are compared by their position, not by their names.  The learned graph `c - f` is the class of the reference
`c → f`, but the reference lists its variables in another order than the training file: distance 2. -/
theorem C75_names_ignored :
    bnsl (ratExecution 3 (fun _ j => j % 2)) exampleNumbers (1 / 20) 1 (some (bifText reorderedBif)) (textOf (csvLine threeNames :: trainRows.map csvLine)) true =
      .ok (some { structFile := some (lit "number of nodes = 3, number of edges = 1\n0: c/v0 -- f/v1\n"), shd := some 2, paramFile := none }) := by
  decide +kernel

end FastPGM
