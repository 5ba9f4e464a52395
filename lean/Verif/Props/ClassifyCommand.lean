import Verif.Lemmas.ClassifyCommand
import Verif.Props.LearnCommands

/-!
C77: the classification command with all its outputs.
-/

namespace FastPGM

open Spec

variable {K : Type} [Field K] [LinearOrder K]

/-- C77.  Neither a reference network nor saving changes the accuracy: if the command ends regularly, the accuracy is that of the plain command
(C70). -/
theorem C77_accuracy {X : Execution K} {nums : Numbers K} {alpha : K} {g : Nat} {ref : Option Str} {trainFile testFile : Str}
    {saveStruct saveParam : Bool} {out : LearnOutput} {a : K}
    (h : classifyFull X nums alpha g ref trainFile testFile saveStruct saveParam = .ok (some (out, a))) :
    classify X alpha g trainFile testFile = .ok a := by
  unfold classifyFull at h
  obtain ⟨D, h1, h⟩ := bind_ok h
  obtain ⟨E, h2, h⟩ := bind_ok h
  obtain ⟨⟨N, m⟩, h3, h⟩ := bind_ok h
  obtain ⟨sf, -, h⟩ := bind_ok h
  obtain ⟨shd, -, h⟩ := bind_ok h
  cases shd with
  | none => cases h
  | some shd =>
    obtain ⟨pts, h6, h⟩ := bind_ok h
    obtain ⟨pf, -, h⟩ := bind_ok h
    obtain ⟨⟨ev, tr⟩, h8, h⟩ := bind_ok h
    obtain ⟨J, h9, h⟩ := bind_ok h
    obtain ⟨⟨lab, J'⟩, h10, h⟩ := bind_ok h
    obtain ⟨a', h11, h⟩ := bind_ok h
    cases h
    unfold classify structLearn
    rw [h1, ok_bind, h2, ok_bind, h3, ok_bind]
    simp only [pure_eq_ok, ok_bind]
    rw [h6, ok_bind, h8, ok_bind]
    simp only
    rw [h9, ok_bind, h10, ok_bind]
    exact h11

/-- C77.  Without a reference network and without saving the command is the plain one. -/
theorem C77_plain {X : Execution K} {nums : Numbers K} {alpha : K} {g : Nat} {trainFile testFile : Str} :
    classifyFull X nums alpha g none trainFile testFile false false = (do
      let a ← classify X alpha g trainFile testFile
      return some ({ structFile := none, shd := none, paramFile := none }, a)) := by
  unfold classifyFull classify structLearn
  simp only [bind_assoc, Bool.false_eq_true, if_false, pure_eq_ok, ok_bind, reportSHD_none]

omit [Field K] [LinearOrder K] in
/-- The configurations of a parameter file are in range. -/
theorem configs_in_range {card : Nat → Nat} {vs c : List Nat} (hc : c ∈ configsOf (vs.map card)) : InRange card vs (ofConfig vs c) := by
  rw [configsOf_eq] at hc
  obtain ⟨j, hj, rfl⟩ := List.mem_map.1 hc
  have hin := digits_in (List.mem_range.1 hj)
  intro v hvm
  have hidx := List.idxOf_lt_length_iff.2 hvm
  have hlen : (digits (vs.map card) j).length = vs.length := by
    rw [digits_length, List.length_map]
  have hk : vs.idxOf v < (digits (vs.map card) j).length := by rw [hlen]; exact hidx
  have := (List.forall₂_iff_get.1 hin).2 _ hk (by rw [List.length_map]; exact hidx)
  unfold ofConfig
  rw [List.getD_eq_getElem?_getD, List.getElem?_eq_getElem hk]
  simpa [List.getElem_idxOf] using this

/-- The tables of the command. -/
theorem rooted_tables [IsStrictOrderedRing K] {X : Execution K} (hrnd : ∀ i j, X.rnd i j < 2) {nums : Numbers K} {n : Nat}
    {names : List Str} {train : List (List Str)} {trainFile : Str} (hf : TrainFile n names train trainFile) {D : Dataset}
    (hread : ReadsTrain n names train D) {N : Net} {G : Nat → Nat → Prop} {sep : Sepset} (hR : RootedGraph n G sep (ParentOf N)) (hinv : NetInv N)
    (hdims : N.nodes.map NodeS.dim = trainDims train n ++ [2]) :
    ∃ pts : List (Table K), learnParams N D.natColumns n train.length 1 X.rnd [] = .ok pts ∧
      saveParameters nums.fmt (columnNames names n ++ [lit "ROOT"]) (D.valueIds ++ [rootValues]) N.nodes.length pts =
        .ok (rootedText nums.fmt names train n N.pa X.rnd) := by
  have hlen : N.nodes.length = n + 1 := by
    have := congrArg List.length hdims
    simpa [trainDims] using this
  have hcd : ∀ i, (trainDims train n ++ [2]).getD i 0 = valuesOf train n i := by
    intro i
    unfold valuesOf
    by_cases h : i < n
    · rw [if_pos h, getD_snoc_lt (by simpa [trainDims] using h)]
      exact getD_tab h
    · rw [if_neg h]
      by_cases h' : i = n
      · subst h'
        rw [if_pos rfl, List.getD_eq_getElem?_getD, List.getElem?_append_right (by simp [trainDims])]
        simp [trainDims]
      · rw [if_neg h', List.getD_eq_getElem?_getD, List.getElem?_eq_none (by simp [trainDims]; omega)]
        rfl
  have hshape : NetShape (valuesOf train n) N := by
    have := shape_of_inv hinv hdims (fun d hd => by
      rcases List.mem_append.1 hd with hd | hd
      · exact trainDims_pos hf.nonempty hd
      · rw [List.mem_singleton] at hd; omega)
    have e : (fun i => (trainDims train n ++ [2]).getD i 0) = valuesOf train n := funext hcd
    rwa [e] at this
  have hpa : ∀ (i : Nat) s, N.nodes[i]? = some s → s.parents = N.pa i := fun i s hs => by simp [Net.pa, hs]
  have hrootpa : N.pa n = [] := by
    rw [List.eq_nil_iff_forall_not_mem]
    intro p hp
    have := (hR.range p n (parentOf_iff.2 hp)).2
    omega
  have hcols : Columns (valuesOf train n) n D.natColumns (train.map (rowAssignment train)) := by
    have e : trainColumns train n = ((List.range n).map (fun j => (column train j).map (fun s => ((firstSeen (column train j)).idxOf s : Int)))).map
        (fun c => c.map Int.toNat) := by
      unfold trainColumns
      rw [List.map_map]
      refine List.map_congr_left (fun j _ => ?_)
      simp [codeIn]
    rw [hread.columns, e]
    exact train_columns (fun j hj => by simp [valuesOf, hj])
  obtain ⟨new, R, t1, t2, t3, t4, t5, t6⟩ := C22_learned_root (K := K) hshape hlen hcols (by simp [valuesOf])
    (fun s hs => by rw [hpa n s hs]; exact hrootpa)
    (fun i s hs hmem => by
      rw [hpa i s hs] at hmem ⊢
      have hsub : ∀ p ∈ N.pa i, p = n := fun p hp => hR.alone p i (parentOf_iff.2 hmem) (parentOf_iff.2 hp)
      have hsorted := hinv.wf.pa_sorted i
      cases hl : N.pa i with
      | nil => rw [hl] at hmem; simp at hmem
      | cons a l =>
        rw [hl] at hsub hsorted
        have ha := hsub a (by simp)
        subst ha
        cases l with
        | nil => rfl
        | cons b l =>
          have hb := hsub b (by simp)
          have := (List.pairwise_cons.1 hsorted).1 b (by simp)
          omega)
    hrnd (alpha := 1) (by omega) []
  rw [List.nil_append, List.length_map] at t1
  refine ⟨_, t1, ?_⟩
  have hnamesLen : (columnNames names n ++ [lit "ROOT"]).length = n + 1 := by simp [columnNames]
  have hids : ∀ v < (columnNames names n ++ [lit "ROOT"]).length, ∃ m, (D.valueIds ++ [rootValues])[v]? = some m ∧
      NamesValues m (rootedValues train n v) (valuesOf train n v) := by
    intro v hv
    rw [hnamesLen] at hv
    by_cases h : v < n
    · obtain ⟨m, h1, h2⟩ := hread.ids v h
      refine ⟨m, by rw [List.getElem?_append_left (by rw [hread.idsLength]; exact h), h1], ?_⟩
      simpa [rootedValues, valuesOf, h] using h2
    · have hvn : v = n := by omega
      subst hvn
      refine ⟨rootValues, by rw [← hread.idsLength]; simp, ?_⟩
      have e : rootedValues train v v = [lit "0", lit "1"] := by simp [rootedValues]
      have e2 : valuesOf train v v = 2 := by simp [valuesOf]
      rw [e, e2]
      refine ⟨by simp, ?_⟩
      intro x hx s
      unfold rootValues
      match x, hx with
      | 0, _ => simp
      | 1, _ => simp
  have htab : ∀ i < n, ∃ T, (new ++ [R])[i]? = some T ∧ IsFrequencyTable (valuesOf train n) (completedRows train n (X.rnd i)) 1 i (N.pa i) T := by
    intro i hi
    have hs := List.getElem?_eq_getElem (show i < N.nodes.length by omega)
    obtain ⟨T, h1, h2⟩ := t3 i _ hi hs
    rw [hpa i _ hs] at h2
    exact ⟨T, by rw [List.getElem?_append_left (by omega), h1], h2⟩
  have hlast : (new ++ [R])[n]? = some R := by rw [← t2]; simp
  have hsave := C74_parameters nums.fmt (values := rootedValues train n) (card := valuesOf train n) hids (pts := new ++ [R]) (by
    intro i T hT
    have hi : i < n + 1 := by
      have := (List.getElem?_eq_some_iff.1 hT).1
      simpa [t2] using this
    rw [hnamesLen]
    by_cases h : i < n
    · obtain ⟨T', h1, h2, h3, -⟩ := htab i h
      rw [h1] at hT
      cases hT
      refine ⟨h2, ⟨_, h3⟩, ?_⟩
      intro v hv
      rw [h3] at hv
      rcases List.mem_cons.1 hv with rfl | hv
      · exact hi
      · have := (hR.range v i (parentOf_iff.2 hv)).1
        omega
    · have hin : i = n := by omega
      subst hin
      rw [hlast] at hT
      cases hT
      refine ⟨t4, ⟨[], t5⟩, ?_⟩
      intro v hv
      rw [t5, List.mem_singleton] at hv
      omega)
  have hpl : (new ++ [R]).length = N.nodes.length := by simp [t2, hlen]
  rw [hpl] at hsave
  rw [hsave]
  congr 1
  unfold parameterText rootedText
  rw [List.mapIdx_append, List.flatten_append, List.flatMap_def]
  congr 2
  · congr 1
    apply List.ext_getElem?
    intro i
    rw [List.getElem?_mapIdx, List.getElem?_map]
    by_cases hi : i < n
    · obtain ⟨T, h1, h2, h3, h4⟩ := htab i hi
      rw [List.getElem?_append_left (by omega)] at h1
      rw [h1, List.getElem?_range hi, Option.map_some, Option.map_some, h2.dims, h3, List.tail_cons]
      congr 1
      refine List.map_congr_left (fun c hc => ?_)
      congr 2
      rw [h4 _ ?_]
      · unfold smoothedFrequency
        simp
      · exact configs_in_range hc
    · rw [List.getElem?_eq_none (by omega), List.getElem?_eq_none (by simp; omega)]
      rfl
  · have hd : R.dims = [2] := by
      rw [t4.dims, t5]
      simp [valuesOf]
    have hv : ∀ x : Nat, x < 2 → value R (ofConfig [n] [x]) = (((train.length / 2 : Nat) : K) + 1) / ((train.length : K) + 2) := by
      intro x hx
      have := t6 (ofConfig [n] [x]) (by simpa [ofConfig] using hx)
      rw [this]
      simp
    have hcfg : configsOf [2] = [[0], [1]] := rfl
    simp only [List.mapIdx_cons, List.mapIdx_nil, List.flatten_cons, List.flatten_nil, List.append_nil, t2, hd, t5, hcfg, List.map_cons, List.map_nil,
      List.tail_cons, Nat.zero_add, hv 0 (by omega), hv 1 (by omega)]

/-- C77.  The classification command without a reference network, on a training file with consistent tests and a skeleton that is not complete:
the structure file names the arrows of an acyclic graph with the additional node ROOT (`RootedGraph`), the parameter file holds the smoothed
relative frequencies of the training table completed by the drawn values of ROOT, and for every test file the accuracy is that of the plain
command. -/
theorem C77_report [IsStrictOrderedRing K] {X : Execution K} (hrnd : ∀ i j, X.rnd i j < 2) {nums : Numbers K} {alpha : K} {g n : Nat}
    {names : List Str} {train : List (List Str)} {trainFile : Str} (ha : 0 ≤ alpha ∧ alpha ≤ 1) (hf : TrainFile n names train trainFile) {k : Skeleton}
    (hk : learnSkeleton (ciTest X.log X.pchisq alpha (trainDims train n) (trainColumns train n) train.length) n 1000 g 128 X.order0 X.sched X.fuel = .ok k)
    {G : Nat → Nat → Prop} (hrep : Represents n G k) (hV : ¬ Cyclic (VArrow G k.sep)) (hroom : k.edges = [] ∨ k.edges.length < n * (n - 1) / 2)
    (hfuel : k.edges.length < X.fuel) :
    ∃ P ls parents, RootedGraph n G k.sep P ∧ NamesEdges (Joined P) P ls ∧ (∀ i, (parents i).Pairwise (· < ·) ∧ ∀ p, p ∈ parents i ↔ P p i) ∧
      ∀ testFile saveStruct saveParam, classifyFull X nums alpha g none trainFile testFile saveStruct saveParam = (do
        let a ← classify X alpha g trainFile testFile
        return some ({ structFile := if saveStruct then some (structureText (columnNames names n ++ [lit "ROOT"]) (n + 1) ls.length ls) else none,
                       shd := none,
                       paramFile := if saveParam then some (rootedText nums.fmt names train n parents X.rnd) else none }, a)) := by
  obtain ⟨D, hD, hread⟩ := readsTrain hf
  obtain ⟨N, h1, hp, hR, hinv, htopo, hdims⟩ := rooted_struct ha hread hk hrep hV hroom hfuel
  obtain ⟨pts, hpts, htext⟩ := rooted_tables hrnd (nums := nums) hf hread hR hinv hdims
  have hn : 0 < n := hf.pos
  have hne : N.edges ≠ [] := by
    obtain ⟨r, ⟨hr, -⟩, -⟩ := hR.one 0 hn
    obtain ⟨e, he, -⟩ := (hp.parents n r).1 hr
    exact List.ne_nil_of_mem he
  obtain ⟨ls, l1, l2, -⟩ := learned_files (nums := nums) hp hinv htopo (by
    rintro x y (h | h)
    · have := hR.range x y h
      exact ⟨by omega, fun h' => hR.acyclic ⟨x, by subst h'; exact Relation.TransGen.single h⟩⟩
    · have := hR.range y x h
      exact ⟨by omega, fun h' => hR.acyclic ⟨x, by subst h'; exact Relation.TransGen.single h⟩⟩) (fun x y h => h.symm) hne
    (names := columnNames names n ++ [lit "ROOT"]) (by simp [columnNames])
  refine ⟨ParentOf N, ls, N.pa, hR, l1, fun i => ⟨hinv.wf.pa_sorted i, fun p => (parentOf_iff).symm⟩, ?_⟩
  intro testFile saveStruct saveParam
  unfold classifyFull classify structLearn
  rw [hD, ok_bind, ok_bind, bind_assoc]
  cases Dataset.loadCSVTesting D.forTesting testFile true 0 with
  | error e => rfl
  | ok E =>
    rw [ok_bind, ok_bind, h1]
    simp only [pure_eq_ok, ok_bind, reportSHD_none]
    rw [hread.names, hread.vars, hread.rows, hpts]
    cases saveStruct <;> cases saveParam <;>
      simp only [Bool.false_eq_true, if_false, if_true, ok_bind, htext, l2, bind_assoc]

/-- C77, violation: with a reference network for the variables of the training file the command never gives a result.  The learned network
has ROOT, a node more than the reference, and the comparison of the two ends the program. -/
theorem C77_reference_fails {X : Execution K} {nums : Numbers K} {alpha : K} {g n : Nat} {names : List Str} {train : List (List Str)}
    {trainFile : Str} (hf : TrainFile n names train trainFile) {file : Str} {F : NetFile}
    (hF : loadBIF nums.stod nums.toCount nums.rounds file = .ok (some F)) (hsize : F.net.nodes.length ≤ n) (testFile : Str)
    (saveStruct saveParam : Bool) :
    ∃ f, classifyFull X nums alpha g (some file) trainFile testFile saveStruct saveParam = .error f := by
  obtain ⟨D, hD, hread⟩ := readsTrain hf
  cases h : classifyFull X nums alpha g (some file) trainFile testFile saveStruct saveParam with
  | error f => exact ⟨f, rfl⟩
  | ok r =>
    exfalso
    unfold classifyFull at h
    rw [hD, ok_bind] at h
    obtain ⟨E, -, h⟩ := bind_ok h
    obtain ⟨⟨N, m⟩, h3, h⟩ := bind_ok h
    obtain ⟨sf, -, h⟩ := bind_ok h
    obtain ⟨shd, h5, h⟩ := bind_ok h
    have hlen : N.nodes.length = n + 1 := by
      unfold structLearnFull at h3
      rw [hread.dims, ok_bind] at h3
      obtain ⟨_, -, h3⟩ := bind_ok h3
      obtain ⟨k, _, h3⟩ := bind_ok h3
      obtain ⟨N0, h0, h3⟩ := bind_ok h3
      rw [if_pos rfl] at h3
      obtain ⟨roots, N', q1, q2, q3, q4, -⟩ := rooted_shape (orientPhase_keep h0) (orientPhase_dims h0) (fun d hd => trainDims_pos hf.nonempty hd)
      rw [q1, ok_bind, q2, ok_bind] at h3
      cases h3
      simpa [trainDims] using q4
    have hn : 0 < n := hf.pos
    unfold reportSHD at h5
    simp only at h5
    rw [hF, ok_bind] at h5
    obtain ⟨r', h5, -⟩ := bind_ok h5
    exact (getSHD_fails (by omega) (by omega)).1 r' h5

/-- C77, violation: the program exits with an error while comparing. -/
theorem C77_reference_exits {X : Execution K} {nums : Numbers K} {alpha : K} {g n : Nat} {names names' : List Str} {train test : List (List Str)}
    {trainFile testFile : Str} (ha : 0 ≤ alpha ∧ alpha ≤ 1) (hf : TwoFiles n names train trainFile names' test testFile) {k : Skeleton}
    (hk : learnSkeleton (ciTest X.log X.pchisq alpha (trainDims train n) (trainColumns train n) train.length) n 1000 g 128 X.order0 X.sched X.fuel = .ok k)
    {G : Nat → Nat → Prop} (hrep : Represents n G k) (hV : ¬ Cyclic (VArrow G k.sep)) (hroom : k.edges = [] ∨ k.edges.length < n * (n - 1) / 2)
    (hfuel : k.edges.length < X.fuel) {vs : List VarDecl} {ts : List (TableDecl K)} (good : GoodDescription vs ts) {file last : Str}
    (hd : BifDescribes nums.stod file vs ts) (hrounds : 3 * vs.length < nums.rounds) (hlast : 10 ∉ last) (hsize : vs.length ≤ n)
    (saveStruct saveParam : Bool) :
    classifyFull X nums alpha g (some (file ++ last)) trainFile testFile saveStruct saveParam = .error .exit := by
  have hf' : TrainFile n names train trainFile := ⟨hf.pos, hf.trainCsv, hf.trainNames, hf.trainRows, hf.trainSome, hf.distinct⟩
  obtain ⟨D, hD, hread⟩ := readsTrain hf'
  obtain ⟨N, h1, hp, hR, hinv, htopo, hdims⟩ := rooted_struct ha hread hk hrep hV hroom hfuel
  obtain ⟨F, hF, -, -, hFlen, -⟩ := reference_net nums.toCount good hd
  have hn : 0 < n := hf.pos
  have hr : ∀ x y, Joined (ParentOf N) x y → x < n + 1 ∧ x ≠ y := by
    rintro x y (h | h)
    · have := hR.range x y h
      exact ⟨by omega, fun h' => hR.acyclic ⟨x, by subst h'; exact Relation.TransGen.single h⟩⟩
    · have := hR.range y x h
      exact ⟨by omega, fun h' => hR.acyclic ⟨x, by subst h'; exact Relation.TransGen.single h⟩⟩
  have hne : N.edges ≠ [] := by
    obtain ⟨r, ⟨hr, -⟩, -⟩ := hR.one 0 hn
    obtain ⟨e, he, -⟩ := (hp.parents n r).1 hr
    exact List.ne_nil_of_mem he
  obtain ⟨ls, -, l2, -⟩ := learned_files (nums := nums) hp hinv htopo hr (fun x y h => h.symm) hne
    (names := columnNames names n ++ [lit "ROOT"]) (by simp [columnNames])
  have hdir : ∀ e es, N.edges = e :: es → e.isDirected = true := by
    intro e es he
    by_contra hnd
    have := (partially_first hp (fun x y h => h.symm) (fun x y h => (hr x y h).2) he).1 (by simpa using hnd)
    obtain ⟨x, y, hu⟩ := this
    exact hu.1.elim hu.2.1 hu.2.2
  obtain ⟨e, es, hes⟩ := List.exists_cons_of_ne_nil hne
  have hrep : reportSHD nums (some (file ++ last)) N = .error .exit := by
    unfold reportSHD
    simp only
    rw [hF nums.rounds last hrounds hlast, ok_bind]
    simp only
    rw [(getSHD_fails (by rw [hFlen, hp.nodes]; omega) (by rw [hp.nodes]; omega)).2 e es hes (hdir e es hes)]
    rfl
  have htest : ∃ E, Dataset.loadCSVTesting D.forTesting testFile true 0 = .ok E := by
    have h1' : D.forTesting.numVars = n := hread.vars
    exact ⟨_, C51_encode (D := D.forTesting) (by rw [h1']; exact hn) (by rw [h1']; exact Nat.le_of_eq hread.idsLength.symm) hf.testCsv
      (by rw [h1']; exact hf.testNames) (by rw [h1']; exact hf.testRows) hf.testSome 0⟩
  obtain ⟨E, hE⟩ := htest
  unfold classifyFull
  rw [hD, ok_bind, hE, ok_bind, h1, ok_bind]
  simp only
  rw [hread.names, l2, hrep]
  cases saveStruct <;> rfl

/-- C77, violation: if every pair of at least two variables is found dependent, the command runs into undefined behaviour while it completes the
graph (see `C33_reallocation`), with or without reference and saving. -/
theorem C77_complete_ub {X : Execution K} {nums : Numbers K} {alpha : K} {g n : Nat} {names names' : List Str} {train test : List (List Str)}
    {trainFile testFile : Str} (ha : 0 ≤ alpha ∧ alpha ≤ 1) (hf : TwoFiles n names train trainFile names' test testFile) (hn : 2 ≤ n) {k : Skeleton}
    (hk : learnSkeleton (ciTest X.log X.pchisq alpha (trainDims train n) (trainColumns train n) train.length) n 1000 g 128 X.order0 X.sched X.fuel = .ok k)
    {G : Nat → Nat → Prop} (hrep : Represents n G k) (hG : ∀ x y, x < n → y < n → x ≠ y → G x y) (hfuel : k.edges.length < X.fuel)
    (ref : Option Str) (saveStruct saveParam : Bool) :
    classifyFull X nums alpha g ref trainFile testFile saveStruct saveParam = .error .ub := by
  have hf' : TrainFile n names train trainFile := ⟨hf.pos, hf.trainCsv, hf.trainNames, hf.trainRows, hf.trainSome, hf.distinct⟩
  obtain ⟨D, hD, hread⟩ := readsTrain hf'
  have h1' : D.forTesting.numVars = n := hread.vars
  have hE := C51_encode (D := D.forTesting) (by rw [h1']; exact hf.pos) (by rw [h1']; exact Nat.le_of_eq hread.idsLength.symm) hf.testCsv
      (by rw [h1']; exact hf.testNames) (by rw [h1']; exact hf.testRows) hf.testSome 0
  unfold classifyFull structLearnFull
  rw [hD, ok_bind, hE, ok_bind, hread.dims, ok_bind, checkAlpha_ok ha, ok_bind, hread.vars, hread.columns, hread.rows, hk, ok_bind,
    C33_reallocation hn hrep hG (by simp [trainDims]) X.bits hfuel]
  rfl

/-- C77: with a significance level outside the range 0 to 1 and at least two variables the command ends the program, whatever the data. -/
theorem C77_level_exit {X : Execution K} {nums : Numbers K} {alpha : K} {g n : Nat} {names names' : List Str} {train test : List (List Str)}
    {trainFile testFile : Str} (hf : TwoFiles n names train trainFile names' test testFile) (hn : 2 ≤ n) (ha : alpha < 0 ∨ 1 < alpha)
    (ref : Option Str) (saveStruct saveParam : Bool) :
    classifyFull X nums alpha g ref trainFile testFile saveStruct saveParam = .error .exit := by
  have hf' : TrainFile n names train trainFile := ⟨hf.pos, hf.trainCsv, hf.trainNames, hf.trainRows, hf.trainSome, hf.distinct⟩
  obtain ⟨D, hD, hread⟩ := readsTrain hf'
  have h1' : D.forTesting.numVars = n := hread.vars
  have hE := C51_encode (D := D.forTesting) (by rw [h1']; exact hf.pos) (by rw [h1']; exact Nat.le_of_eq hread.idsLength.symm) hf.testCsv
      (by rw [h1']; exact hf.testNames) (by rw [h1']; exact hf.testRows) hf.testSome 0
  unfold classifyFull structLearnFull
  rw [hD, ok_bind, hE, ok_bind, hread.dims, ok_bind, hread.vars, checkAlpha_exit ha hn]
  rfl

/-! ### Concrete cases -/

/-- What the tests say about the example of C70: of three variables the first two are adjacent. -/
theorem three_skeleton : ∃ k, learnSkeleton (ciTest (ratExecution 3 (fun _ j => j % 2)).log (ratExecution 3 (fun _ j => j % 2)).pchisq (1 / 20 : ℚ)
      (trainDims trainRows 3) (trainColumns trainRows 3) trainRows.length) 3 1000 1 128 (ratExecution 3 (fun _ j => j % 2)).order0
      (ratExecution 3 (fun _ j => j % 2)).sched (ratExecution 3 (fun _ j => j % 2)).fuel = .ok k ∧
    Represents 3 (fun x y => (x, y) = (0, 1) ∨ (x, y) = (1, 0)) k ∧ ¬ Cyclic (VArrow (fun x y => (x, y) = (0, 1) ∨ (x, y) = (1, 0)) k.sep) ∧
    (k.edges = [] ∨ k.edges.length < 3 * (3 - 1) / 2) ∧ k.edges.length < 20 := by
  have h : (learnSkeleton (ciTest (ratExecution 3 (fun _ j => j % 2)).log (ratExecution 3 (fun _ j => j % 2)).pchisq (1 / 20 : ℚ)
      (trainDims trainRows 3) (trainColumns trainRows 3) trainRows.length) 3 1000 1 128 (ratExecution 3 (fun _ j => j % 2)).order0
      (ratExecution 3 (fun _ j => j % 2)).sched (ratExecution 3 (fun _ j => j % 2)).fuel).toOption.map
        (fun k => (k.edges.map (fun e => (e.x, e.y, e.needRemove)), k.adj)) = some ([(0, 1, false)], [[1], [0], []]) := by decide +kernel
  revert h
  generalize learnSkeleton _ _ _ _ _ _ _ _ = r
  intro h
  cases r with
  | error f => simp [Except.toOption] at h
  | ok k =>
    simp only [Except.toOption, Option.map_some, Option.some.injEq, Prod.mk.injEq] at h
    obtain ⟨h1, h2⟩ := h
    obtain ⟨e, hk⟩ : ∃ e, k.edges = [e] := by
      match hh : k.edges with
      | [] => rw [hh] at h1; simp at h1
      | [e] => exact ⟨e, rfl⟩
      | _ :: _ :: _ => rw [hh] at h1; simp at h1
    rw [hk] at h1
    simp only [List.map_cons, List.map_nil, List.cons.injEq, Prod.mk.injEq, and_true] at h1
    obtain ⟨e1, e2, e3⟩ := h1
    refine ⟨k, rfl, ⟨?_, ?_, ?_, ?_, ?_, ?_, ?_⟩, ?_, ?_, ?_⟩
    · intro x y
      simp only [Prod.mk.injEq]
      omega
    · intro x y
      simp only [Prod.mk.injEq]
      omega
    · rw [hk]
      simp
    · intro x y
      rw [hk, List.map_cons, List.map_nil, List.mem_singleton, e1, e2]
      simp only [Prod.mk.injEq]
      omega
    · intro f hf
      rw [hk, List.mem_singleton] at hf
      rw [hf, e3]
    · rw [h2]
      rfl
    · intro v l hl
      rw [h2] at hl
      match v, hl with
      | 0, hl =>
        cases hl
        exact ⟨by simp, fun z => by simp⟩
      | 1, hl =>
        cases hl
        exact ⟨by simp, fun z => by simp⟩
      | 2, hl =>
        cases hl
        exact ⟨by simp, fun z => by simp⟩
    · rintro ⟨x, hx⟩
      obtain ⟨y, hy, -⟩ := Relation.TransGen.head'_iff.1 hx
      obtain ⟨z, h | h⟩ := hy
      · obtain ⟨a1, a2, a3, -, -⟩ := h
        simp only [Prod.mk.injEq] at a2 a3
        omega
      · obtain ⟨a1, a2, a3, -, -⟩ := h
        simp only [Prod.mk.injEq] at a2 a3
        omega
    · right
      rw [hk]
      simp
    · rw [hk]
      simp

/-- The hypotheses of C77 are met. -/
example : ∃ P ls parents, RootedGraph 3 (fun x y => (x, y) = (0, 1) ∨ (x, y) = (1, 0)) (fun _ _ => none) P ∧ NamesEdges (Joined P) P ls ∧
    classifyFull (ratExecution 3 (fun _ j => j % 2)) exampleNumbers (1 / 20) 1 none (textOf (csvLine threeNames :: trainRows.map csvLine))
      (textOf (csvLine threeNames :: testRows.map csvLine)) true true = .ok (some
        ({ structFile := some (structureText (columnNames threeNames 3 ++ [lit "ROOT"]) 4 ls.length ls), shd := none,
           paramFile := some (rootedText fractionText threeNames trainRows 3 parents (fun _ j => j % 2)) }, 1 / 2)) := by
  obtain ⟨k, h1, h2, h3, h4, h5⟩ := three_skeleton
  obtain ⟨P, ls, parents, p1, p2, -, p3⟩ := C77_report (nums := exampleNumbers) (X := ratExecution 3 (fun _ j => j % 2))
    (fun i j => Nat.mod_lt _ (by omega)) (by norm_num) ⟨exampleFiles.pos, exampleFiles.trainCsv, exampleFiles.trainNames, exampleFiles.trainRows,
      exampleFiles.trainSome, exampleFiles.distinct⟩ h1 h2 h3 h4 h5
  refine ⟨P, ls, parents, ⟨p1.acyclic, p1.range, p1.skeleton, ?_, p1.alone, p1.one⟩, p2, ?_⟩
  · rintro x y ⟨z, h | h⟩
    · obtain ⟨a1, a2, a3, -, -⟩ := h
      simp only [Prod.mk.injEq] at a2 a3
      omega
    · obtain ⟨a1, a2, a3, -, -⟩ := h
      simp only [Prod.mk.injEq] at a2 a3
      omega
  · rw [p3]
    have : classify (ratExecution 3 (fun _ j => j % 2)) (1 / 20 : Rat) 1 (textOf (csvLine threeNames :: trainRows.map csvLine))
      (textOf (csvLine threeNames :: testRows.map csvLine)) = .ok (1 / 2) := by decide +kernel
    rw [this]
    rfl

/-- The files of this example, computed. -/
example : classifyFull (ratExecution 3 (fun _ j => j % 2)) exampleNumbers (1 / 20) 1 none (textOf (csvLine threeNames :: trainRows.map csvLine))
      (textOf (csvLine threeNames :: testRows.map csvLine)) true true = .ok (some
        ({ structFile := some (lit "number of nodes = 4, number of edges = 3\n0: ROOT/v3 -> c/v0\n1: ROOT/v3 -> g/v2\n2: c/v0 -> f/v1\n"),
           shd := none,
           paramFile := some (lit "P (c/v0=y/0 | ROOT/v3=0/0) = 3/5\nP (c/v0=y/0 | ROOT/v3=1/1) = 2/5\nP (c/v0=n/1 | ROOT/v3=0/0) = 2/5\nP (c/v0=n/1 | ROOT/v3=1/1) = 3/5\n" ++
             lit "P (f/v1=a/0 | c/v0=y/0) = 4/5\nP (f/v1=a/0 | c/v0=n/1) = 1/5\nP (f/v1=b/1 | c/v0=y/0) = 1/5\nP (f/v1=b/1 | c/v0=n/1) = 4/5\n" ++
             lit "P (g/v2=p/0 | ROOT/v3=0/0) = 4/5\nP (g/v2=p/0 | ROOT/v3=1/1) = 1/5\nP (g/v2=q/1 | ROOT/v3=0/0) = 1/5\nP (g/v2=q/1 | ROOT/v3=1/1) = 4/5\n" ++
             lit "P (ROOT/v3=0/0) = 1/2\nP (ROOT/v3=1/1) = 1/2\n") }, 1 / 2)) := by
  decide +kernel

/-- C77, violation, computed: with a reference over the same three variables the program exits. -/
example : classifyFull (ratExecution 3 (fun _ j => j % 2)) exampleNumbers (1 / 20) 1 (some (bifText reorderedBif))
    (textOf (csvLine threeNames :: trainRows.map csvLine)) (textOf (csvLine threeNames :: testRows.map csvLine)) false false = .error .exit := by
  decide +kernel

/-- C77, violation, computed: two columns that depend on each other are enough for undefined behaviour. -/
example : classifyFull (ratExecution 1 (fun _ j => j % 2)) exampleNumbers (1 / 20) 1 none weatherFile weatherFile false false = .error .ub := by
  decide +kernel

end FastPGM
