import Verif.Lemmas.Pipeline2
import Verif.Model.Parameter

/-!
C70: classification from two CSV files, from the characters of the files to the printed accuracy.
-/

namespace FastPGM

open Spec

variable {K : Type} [Field K] [LinearOrder K] [IsStrictOrderedRing K]

omit [IsStrictOrderedRing K] in
/-- Whatever structure learning returns, with ROOT, is fit for parameter learning and the junction tree. -/
theorem structLearn_rooted {X : Execution K} {alpha : K} {g : Nat} {dag : Bool} {D : Dataset} {vals : List Nat}
    (hids : D.valueIds.length = D.numVars) (hvals : D.numValues = vals.map (fun v : Nat => (v : Int))) (hlen : vals.length = D.numVars)
    (hpos : ∀ v ∈ vals, 0 < v) {N : Net} (hN : structLearn X alpha g dag true D = .ok N) :
    NetInv N ∧ N.nodes.length = D.numVars + 1 ∧ N.nodes.map NodeS.dim = vals ++ [2] ∧ NetShape N.card N ∧ WeaklyConnected N ∧
      (∀ s, N.nodes[D.numVars]? = some s → s.parents = []) ∧
      (∀ (i : Nat) s, N.nodes[i]? = some s → D.numVars ∈ s.parents → s.parents = [D.numVars]) := by
  have hd : assignNodeInformation D = .ok vals := by
    have h := mapM_ok (l := List.range D.numVars) (f := fun i => (do
      let _ ← rd D.valueIds i
      let size ← rd D.numValues i
      return size.toNat : Except Fault Nat)) (g := fun i => vals.getD i 0) (by
        intro i hi
        rw [List.mem_range] at hi
        rw [rd_getElem (by omega), ok_bind, rd_getElem (show i < D.numValues.length by rw [hvals]; simp; omega), ok_bind]
        simp only [hvals, List.getElem_map, Int.toNat_natCast, pure_eq_ok]
        rw [List.getD_eq_getElem?_getD, List.getElem?_eq_getElem (by omega)]
        rfl)
    unfold assignNodeInformation
    rw [h]
    congr 1
    rw [← hlen]
    exact (eq_tab_getD 0).symm
  unfold structLearn at hN
  obtain ⟨⟨N1, m⟩, hN, hN1⟩ := bind_ok hN
  cases hN1
  unfold structLearnFull at hN
  rw [hd, ok_bind] at hN
  obtain ⟨_, -, hN⟩ := bind_ok hN
  obtain ⟨k, _, hN⟩ := bind_ok hN
  obtain ⟨N0, h0, hN⟩ := bind_ok hN
  rw [if_pos rfl] at hN
  obtain ⟨roots, N', h1, h2, h3, h4, h5, h6, h7, h8, h9⟩ := rooted_shape (orientPhase_keep h0) (orientPhase_dims h0) hpos
  rw [h1, ok_bind, h2, ok_bind] at hN
  cases hN
  rw [hlen] at h4 h8 h9
  exact ⟨h3, h4, h5, h6, h7, h8, h9⟩

/-- The hypotheses on the two files: distinct column names, `n` clean cells in every row. -/
structure TwoFiles (n : Nat) (names : List Str) (train : List (List Str)) (trainFile : Str) (names' : List Str) (test : List (List Str))
    (testFile : Str) : Prop where
  pos : 0 < n
  trainCsv : CsvFile names train trainFile
  trainNames : CleanRow n names
  trainRows : ∀ r ∈ train, CleanRow n r
  trainSome : train ≠ []
  distinct : ((List.range n).map (cellText names)).Nodup
  testCsv : CsvFile names' test testFile
  testNames : CleanRow n names'
  testRows : ∀ r ∈ test, CleanRow n r
  testSome : test ≠ []

/-- What is common to all runs of the command whose structure learning returns. -/
theorem classify_eq {X : Execution K} (hrnd : ∀ i j, X.rnd i j < 2) (horder : ∀ l, (X.order l).Perm l) (hcord : ∀ m, (X.cord m).Perm (List.range m))
    {alpha : K} {g n : Nat} {names names' : List Str} {train test : List (List Str)} {trainFile testFile : Str}
    (hf : TwoFiles n names train trainFile names' test testFile) {N : Net}
    (hN : (do structLearn X alpha g true true (← loadCSVTraining trainFile true 0)) = .ok N) :
    ∃ (pts : List (Table K)) (J : JTree K), pts.length = n + 1 ∧ N.nodes.length = n + 1 ∧ N.card = valuesOf train n ∧
      (∀ i < n, ∃ s T, N.nodes[i]? = some s ∧ pts[i]? = some T ∧
        IsFrequencyTable (valuesOf train n) ((train.map (rowAssignment train)).mapIdx (fun j r => r.set n (X.rnd i j))) 1 i s.parents T) ∧
      (∃ R, pts[n]? = some R ∧ R.vars = [n] ∧
        ∀ a, a n < 2 → value R a = (((train.length / 2 : Nat) : K) + 1) / ((train.length : K) + 2)) ∧
      buildJunctionTree N N.card pts X.order X.cord = .ok J ∧
      (∀ E : List (Nat × Nat), (E.map Prod.fst).Nodup → (∀ e ∈ E, e.1 < n + 1 ∧ e.2 < valuesOf train n e.1) → ∀ q < n + 1, q ∉ E.map Prod.fst →
        ∃ label, J.predict E q = .ok (label, J) ∧ IsMode (valuesOf train n) (n + 1) (joint pts) E q label) ∧
      classify X alpha g trainFile testFile = (do
        let (evidences, truths) ← inferenceInit 1 0 (test.map (testCells train n))
        let (labels, _) ← J.predictAll evidences 0
        accuracy truths labels) := by
  obtain ⟨hn, f1, f2, f3, f4, f5, f6, f7, f8, f9⟩ := hf
  obtain ⟨D, hD, d1, d2, d3, d4, d5, d6, d7, d8, d9, d10⟩ := C50_encode hn f1 f2 f3 f4 f5 0
  have h1' : D.forTesting.numVars = n := d1
  have hload := C51_encode (D := D.forTesting) (by rw [h1']; exact hn) (by rw [h1']; exact Nat.le_of_eq d5.symm) f6 (by rw [h1']; exact f7)
    (by rw [h1']; exact f8) f9 0
  rw [hD, ok_bind] at hN
  have hmem : ∀ j, column train j ≠ [] := by
    intro j h
    exact f4 (List.map_eq_nil_iff.1 h)
  have hpos : ∀ j, 0 < (firstSeen (column train j)).length := by
    intro j
    obtain ⟨s, hs⟩ := List.exists_mem_of_ne_nil _ (hmem j)
    exact List.length_pos_of_mem (mem_firstSeen.2 hs)
  obtain ⟨s1, s2, s3, s4, s5, s6, s7⟩ := structLearn_rooted (vals := (List.range n).map (fun j => (firstSeen (column train j)).length))
    (by rw [d5, d1]) (by rw [d7, List.map_map]; rfl) (by simp [d1]) (by
      intro v hv
      obtain ⟨j, _, rfl⟩ := List.mem_map.1 hv
      exact hpos j) hN
  rw [d1] at s2 s6 s7
  have hcard : N.card = valuesOf train n := by
    funext i
    unfold Net.card valuesOf
    rw [s3]
    by_cases h : i < n
    · rw [if_pos h, getD_snoc_lt (by simpa using h)]
      exact getD_tab h
    · rw [if_neg h]
      by_cases h' : i = n
      · subst h'
        rw [if_pos rfl]
        rw [List.getD_eq_getElem?_getD, List.getElem?_append_right (by simp)]
        simp
      · rw [if_neg h', List.getD_eq_getElem?_getD, List.getElem?_eq_none (by simp; omega)]
        rfl
  have hcol : Columns N.card n D.natColumns (train.map (rowAssignment train)) := by
    unfold Dataset.natColumns
    rw [d8]
    exact train_columns (fun j hj => by rw [hcard]; simp [valuesOf, hj])
  obtain ⟨pts, J, p1, p2, p3, ⟨R, p4, _, p5, p6⟩, p7, p8⟩ := learned_rooted (K := K) s1 s2 s4 s5 (by rw [hcard]; simp [valuesOf]) s6 s7 hcol hrnd
    (alpha := 1) (by omega) horder hcord
  rw [hcard] at p3 p8
  refine ⟨pts, J, p2, s2, hcard, ?_, ⟨R, p4, p5, ?_⟩, p7, p8, ?_⟩
  · intro i hi
    have hs := List.getElem?_eq_getElem (show i < N.nodes.length by omega)
    obtain ⟨T, h1, h2⟩ := p3 i _ hi hs
    exact ⟨_, T, hs, h1, h2⟩
  · intro a ha
    rw [p6 a ha]
    simp
  · unfold classify
    rw [hD, ok_bind, hload, ok_bind, hN, ok_bind, d1, d2]
    rw [List.length_map] at p1
    rw [p1, ok_bind]
    have hrows : Dataset.natRows { D.forTesting with
        rows := D.forTesting.rows ++ test.map (fun r => (List.range D.forTesting.numVars).filterMap (fun j =>
          if cellText r j = [] then none else ((D.forTesting.valueIds.getD j []).find (cellText r j)).map (fun v => ((j : Int), v))))
        numInstance := D.forTesting.rows.length + test.length
        classVar := 0 } = test.map (testCells train n) := by
      unfold Dataset.natRows
      rw [h1']
      exact test_rows d6 test
    rw [hrows]
    show (inferenceInit 1 0 _ >>= _) = _
    cases inferenceInit 1 0 (test.map (testCells train n)) with
    | error f => rfl
    | ok st =>
      show (buildJunctionTree N N.card pts X.order X.cord >>= _) = _
      rw [p7]
      rfl

/-- C70, exactly: on two well-formed files with at least twenty test rows, each with at least one cell known from the training file, every
execution whose structure learning returns prints the fraction of the test rows whose FIRST known cell has the number of the predicted class.
The prediction is the first of the most probable values of the class, given the other known cells, under the product of the learned tables;
these are the smoothed frequencies of the training rows completed by the drawn values of ROOT. -/
theorem C70_exact {X : Execution K} (hrnd : ∀ i j, X.rnd i j < 2) (horder : ∀ l, (X.order l).Perm l)
    (hcord : ∀ m, (X.cord m).Perm (List.range m)) {alpha : K} {g n : Nat} {names names' : List Str} {train test : List (List Str)}
    {trainFile testFile : Str} (hf : TwoFiles n names train trainFile names' test testFile) {N : Net}
    (hN : (do structLearn X alpha g true true (← loadCSVTraining trainFile true 0)) = .ok N) (h20 : 20 ≤ test.length)
    (hknown : ∀ r ∈ test, testCells train n r ≠ []) :
    ∃ (pts : List (Table K)) (labels : List Nat), pts.length = n + 1 ∧
      (∀ i < n, ∃ s T, N.nodes[i]? = some s ∧ pts[i]? = some T ∧
        IsFrequencyTable (valuesOf train n) ((train.map (rowAssignment train)).mapIdx (fun j r => r.set n (X.rnd i j))) 1 i s.parents T) ∧
      (∃ R, pts[n]? = some R ∧ R.vars = [n] ∧
        ∀ a, a n < 2 → value R a = (((train.length / 2 : Nat) : K) + 1) / ((train.length : K) + 2)) ∧
      labels.length = test.length ∧
      (∀ (i : Nat) r, test[i]? = some r → ∃ x, labels[i]? = some x ∧
        IsMode (valuesOf train n) (n + 1) (joint pts) (testCells train n r).tail 0 x) ∧
      classify X alpha g trainFile testFile = .ok ((((List.range test.length).filter (fun i =>
        (test[i]?.bind (fun r => (testCells train n r).head?)).map Prod.snd = labels[i]?)).length : K) / (test.length : K)) := by
  obtain ⟨pts, J, h1, _, _, h2, h3, h4, h5, h6⟩ := classify_eq hrnd horder hcord hf hN
  have hrow : ∀ r ∈ test, ∃ x, (do return (← J.predict (testCells train n r).tail 0).1 : Except Fault Nat) = .ok x ∧
      IsMode (valuesOf train n) (n + 1) (joint pts) (testCells train n r).tail 0 x := by
    intro r hr
    cases hc : testCells train n r with
    | nil => exact absurd hc (hknown r hr)
    | cons p rest =>
      have hs := testCells_sorted train n r
      rw [hc, List.pairwise_cons] at hs
      obtain ⟨label, e1, e2⟩ := h5 rest (by
        rw [List.Nodup, List.pairwise_map]
        exact hs.2.imp (fun h => by omega)) (by
        intro e he
        have := testCells_mem (train := train) (n := n) (r := r) (e := e) (by rw [hc]; simp [he])
        refine ⟨by omega, ?_⟩
        simp only [valuesOf, this.1, if_true]
        exact this.2) 0 (by omega) (by
        intro h
        obtain ⟨e, he, e0⟩ := List.mem_map.1 h
        have := hs.1 e he
        omega)
      refine ⟨label, ?_, e2⟩
      rw [List.tail_cons, e1]
      rfl
  choose! f hf1 hf2 using hrow
  have hinit : inferenceInit 1 0 (test.map (testCells train n)) =
      .ok (test.map (fun r => (testCells train n r).tail), test.map (fun r => ((testCells train n r).head?.map Prod.snd).getD 0)) := by
    have := C49_all_instances 1 0 (test.map (testCells train n))
      (test.map (fun r => ((testCells train n r).tail, ((testCells train n r).head?.map Prod.snd).getD 0))) (by
        rw [List.mapM_map]
        apply mapM_ok
        intro r hr
        have hs := testCells_sorted train n r
        cases hc : testCells train n r with
        | nil => exact absurd hc (hknown r hr)
        | cons p rest =>
          rw [hc] at hs
          rw [Function.comp_apply, hc, instanceEvidence_sorted hs]
          rfl)
    rw [this, if_pos rfl, List.map_map, List.map_map]
    rfl
  have hpred : J.predictAll (test.map (fun r => (testCells train n r).tail)) 0 = .ok (test.map f, J) := by
    have := mapM_ok (g := f) (fun r hr => hf1 r hr)
    rw [(C43_predictAll h4 _ 0).1 (by simpa using h20), List.mapM_map]
    exact congrArg (fun z => Except.bind z (fun labels => Except.ok (labels, J))) this
  refine ⟨pts, test.map f, h1, h2, h3, by simp, ?_, ?_⟩
  · intro i r hr
    exact ⟨f r, by rw [List.getElem?_map, hr]; rfl, hf2 r (List.mem_of_getElem? hr)⟩
  · rw [h6, hinit, ok_bind]
    simp only
    rw [hpred, ok_bind]
    simp only
    have hne : test.map (fun r => ((testCells train n r).head?.map Prod.snd).getD 0) ≠ [] := by
      intro h
      rw [List.map_eq_nil_iff] at h
      rw [h] at h20
      simp at h20
    rw [C48_accuracy _ _ hne (by simp), List.length_map]
    congr 3
    refine congrArg List.length (List.filter_congr ?_)
    intro i hi
    rw [List.mem_range] at hi
    rw [List.getElem?_map, List.getElem?_map, List.getElem?_eq_getElem hi]
    cases hc : testCells train n test[i] with
    | nil => exact absurd hc (hknown _ (List.getElem_mem hi))
    | cons p rest => simp [hc]

/-- C70.  On two well-formed files with at least twenty test rows whose class is known from the training file, every execution whose structure
learning returns prints the fraction of test rows whose class is the predicted one.  The prediction is the first of the most probable values
of the class, given all other known cells of the row, under the learned distribution. -/
theorem C70_classify {X : Execution K} (hrnd : ∀ i j, X.rnd i j < 2) (horder : ∀ l, (X.order l).Perm l)
    (hcord : ∀ m, (X.cord m).Perm (List.range m)) {alpha : K} {g n : Nat} {names names' : List Str} {train test : List (List Str)}
    {trainFile testFile : Str} (hf : TwoFiles n names train trainFile names' test testFile) {N : Net}
    (hN : (do structLearn X alpha g true true (← loadCSVTraining trainFile true 0)) = .ok N) (h20 : 20 ≤ test.length)
    (hclass : ∀ r ∈ test, Known train r 0) :
    ∃ (pts : List (Table K)) (labels : List Nat), pts.length = n + 1 ∧
      (∀ i < n, ∃ s T, N.nodes[i]? = some s ∧ pts[i]? = some T ∧
        IsFrequencyTable (valuesOf train n) ((train.map (rowAssignment train)).mapIdx (fun j r => r.set n (X.rnd i j))) 1 i s.parents T) ∧
      (∃ R, pts[n]? = some R ∧ R.vars = [n] ∧
        ∀ a, a n < 2 → value R a = (((train.length / 2 : Nat) : K) + 1) / ((train.length : K) + 2)) ∧
      labels.length = test.length ∧
      (∀ (i : Nat) r, test[i]? = some r → ∃ x, labels[i]? = some x ∧
        IsMode (valuesOf train n) (n + 1) (joint pts) (knownCells train n r) 0 x) ∧
      classify X alpha g trainFile testFile = .ok ((((List.range test.length).filter (fun i =>
        (test[i]?.map (fun r => codeIn train 0 (cellText r 0))) = labels[i]?)).length : K) / (test.length : K)) := by
  have hc : ∀ r ∈ test, testCells train n r = (0, codeIn train 0 (cellText r 0)) :: knownCells train n r :=
    fun r hr => testCells_class hf.pos (hclass r hr)
  obtain ⟨pts, labels, h1, h2, h3, h4, h5, h6⟩ := C70_exact hrnd horder hcord hf hN h20 (fun r hr => by rw [hc r hr]; simp)
  refine ⟨pts, labels, h1, h2, h3, h4, ?_, ?_⟩
  · intro i r hr
    have := h5 i r hr
    rw [hc r (List.mem_of_getElem? hr), List.tail_cons] at this
    exact this
  · rw [h6]
    congr 3
    refine congrArg List.length (List.filter_congr ?_)
    intro i hi
    rw [List.mem_range] at hi
    rw [List.getElem?_eq_getElem hi]
    simp [hc _ (List.getElem_mem hi)]

/-- C70 fails when the class cell of a test row is empty or not known from the training file: the value of another column is then the "class"
that the prediction is compared with, and this column is missing from the evidence (finding). -/
theorem C70_class_unknown {train : List (List Str)} {n : Nat} {r : List Str} (h : ¬ Known train r 0) :
    (∀ p, (testCells train n r).head? = some p → p.1 ≠ 0 ∧ p ∈ knownCells train n r ∧ p ∉ (testCells train n r).tail) ∧
      testCells train n r = knownCells train n r := by
  have he : testCells train n r = knownCells train n r := by
    unfold testCells knownCells
    congr 1
    apply List.filter_congr
    intro j _
    by_cases hj : j = 0
    · subst hj
      simp [h]
    · simp [hj]
  refine ⟨?_, he⟩
  intro p hp
  have hs := testCells_sorted train n r
  rw [← he]
  cases hc : testCells train n r with
  | nil => rw [hc] at hp; cases hp
  | cons q rest =>
    rw [hc] at hp hs
    cases hp
    have hm : p ∈ knownCells train n r := by rw [← he, hc]; simp
    refine ⟨(knownCells_mem hm).2.1, by simp, ?_⟩
    intro hmem
    have := (List.pairwise_cons.1 hs).1 p hmem
    omega

/-- C70.  A test row without any known cell ends the program with an exception. -/
theorem C70_nothing_known {X : Execution K} (hrnd : ∀ i j, X.rnd i j < 2) (horder : ∀ l, (X.order l).Perm l)
    (hcord : ∀ m, (X.cord m).Perm (List.range m)) {alpha : K} {g n : Nat} {names names' : List Str} {train test : List (List Str)}
    {trainFile testFile : Str} (hf : TwoFiles n names train trainFile names' test testFile) {N : Net}
    (hN : (do structLearn X alpha g true true (← loadCSVTraining trainFile true 0)) = .ok N) {r : List Str} (hr : r ∈ test)
    (hnone : ∀ j < n, ¬ Known train r j) : classify X alpha g trainFile testFile = .error .throw := by
  obtain ⟨pts, J, _, _, _, _, _, _, _, h6⟩ := classify_eq hrnd horder hcord hf hN
  have hempty : testCells train n r = [] := by
    unfold testCells
    rw [List.map_eq_nil_iff, List.filter_eq_nil_iff]
    intro j hj
    simpa using hnone j (List.mem_range.1 hj)
  have gen : ∀ (l : List (List Str)) (acc : List (List (Nat × Nat)) × List Nat), r ∈ l →
      (l.map (testCells train n)).foldlM (fun acc inst => do
        let (e, g) ← instanceEvidence 0 inst
        return (acc.1 ++ [e], if 1 = 1 then acc.2 ++ [g] else acc.2)) acc = .error .throw := by
    intro l
    induction l with
    | nil => intro acc h; simp at h
    | cons x l ih =>
      intro acc h
      rw [List.map_cons, List.foldlM_cons]
      cases hc : testCells train n x with
      | nil => rw [C49_short_row_throws 0 [] (by simp)]; rfl
      | cons p rest =>
        have hs := testCells_sorted train n x
        rw [hc] at hs
        rw [instanceEvidence_sorted hs]
        have hx : r ∈ l := by
          rcases List.mem_cons.1 h with rfl | h
          · rw [hempty] at hc; cases hc
          · exact h
        exact ih _ hx
  rw [h6]
  have : inferenceInit 1 0 (test.map (testCells train n)) = .error .throw := gen test _ hr
  rw [this]
  rfl

/-- C70.  With one to nineteen test rows the program divides by zero after all the learning (finding). -/
theorem C70_few_rows_ub {X : Execution K} (hrnd : ∀ i j, X.rnd i j < 2) (horder : ∀ l, (X.order l).Perm l)
    (hcord : ∀ m, (X.cord m).Perm (List.range m)) {alpha : K} {g n : Nat} {names names' : List Str} {train test : List (List Str)}
    {trainFile testFile : Str} (hf : TwoFiles n names train trainFile names' test testFile) {N : Net}
    (hN : (do structLearn X alpha g true true (← loadCSVTraining trainFile true 0)) = .ok N) (h20 : test.length < 20)
    (hclass : ∀ r ∈ test, Known train r 0) : classify X alpha g trainFile testFile = .error .ub := by
  obtain ⟨pts, J, _, _, _, _, _, h4, _, h6⟩ := classify_eq hrnd horder hcord hf hN
  have hinit : inferenceInit 1 0 (test.map (testCells train n)) =
      .ok (test.map (knownCells train n), test.map (fun r => codeIn train 0 (cellText r 0))) := by
    have := C49_all_instances 1 0 (test.map (testCells train n))
      (test.map (fun r => (knownCells train n r, codeIn train 0 (cellText r 0)))) (by
        rw [List.mapM_map]
        apply mapM_ok
        intro r hr
        have hs := testCells_sorted train n r
        have hc := testCells_class hf.pos (hclass r hr)
        rw [hc] at hs
        rw [Function.comp_apply, hc, instanceEvidence_sorted hs])
    rw [this, if_pos rfl, List.map_map, List.map_map]
    rfl
  rw [h6, hinit, ok_bind]
  simp only
  rw [(C43_predictAll h4 _ 0).2 (by simpa using List.length_pos_iff.2 hf.testSome) (by simpa using h20)]
  rfl

/-! ### Examples -/

/-- An execution on rational numbers, with simple functions in place of `log` and `pchisq`. -/
def ratExecution (pairs : Nat) (rnd : Nat → Nat → Nat) : Execution Rat where
  log := fun x => x - 1
  pchisq := fun x _ => some (if x < 1 then 0 else 1)
  bits := fun _ => false
  rnd := rnd
  order0 := List.range pairs
  sched := fun _ _ l => l
  order := id
  cord := List.range
  fuel := 20

/-- Class, a copy of the class under other names, and something else. -/
def trainRows : List (List Str) :=
  [["y", "a", "p"], ["y", "a", "q"], ["n", "b", "p"], ["n", "b", "q"], ["y", "a", "p"], ["n", "b", "q"]].map (fun r => r.map lit)

/-- Four kinds of rows, five times each; the second has an empty cell, the last an unknown one. -/
def testRows : List (List Str) :=
  (List.replicate 5 ([["y", "a", "p"], ["n", "b", ""], ["y", "b", "q"], ["n", "a", "z"]].map (fun r => r.map lit))).flatten

def threeNames : List Str := ["c", "f", "g"].map lit

/-- The hypotheses of C70 hold. -/
theorem exampleFiles : TwoFiles 3 threeNames trainRows (textOf (csvLine threeNames :: trainRows.map csvLine)) threeNames testRows
    (textOf (csvLine threeNames :: testRows.map csvLine)) where
  pos := by omega
  trainCsv := CsvFile.newline
  trainNames := by unfold CleanRow CleanCell; decide
  trainRows := by unfold CleanRow CleanCell; decide
  trainSome := by decide
  distinct := by decide
  testCsv := CsvFile.newline
  testNames := by unfold CleanRow CleanCell; decide
  testRows := by unfold CleanRow CleanCell; decide +kernel
  testSome := by decide

example : 20 ≤ testRows.length ∧ ∀ r ∈ testRows, Known trainRows r 0 := by decide +kernel

/-- The structure that is learned: the class is a parent of the second column, and ROOT a parent of the class and of the third column. -/
example : (do
    let N ← structLearn (ratExecution 3 (fun _ j => j % 2)) (1 / 20 : Rat) 1 true true
      (← loadCSVTraining (textOf (csvLine threeNames :: trainRows.map csvLine)) true 0)
    return N.nodes.map (fun s => s.parents) : Except Fault _) = .ok [[3], [0], [3], []] := by decide +kernel

/-- The accuracy: the first two kinds of rows are predicted correctly. -/
example : classify (ratExecution 3 (fun _ j => j % 2)) (1 / 20 : Rat) 1 (textOf (csvLine threeNames :: trainRows.map csvLine))
    (textOf (csvLine threeNames :: testRows.map csvLine)) = .ok (1 / 2) := by decide +kernel

/-- The class alone: four times `n`, three times `y`. -/
def classRows : List (List Str) := ["n", "n", "n", "n", "y", "y", "y"].map (fun s => [lit s])

/-- C70, what the drawn values of ROOT can do (finding): on the same two files, with the same results of all tests, one sequence of drawn
values gives the accuracy 1 and another the accuracy 0; with the latter the class that is rarer in the training file is predicted although
nothing is observed. -/
theorem C70_random_root : ∃ rnd rnd' : Nat → Nat → Nat, (∀ i j, rnd i j < 2) ∧ (∀ i j, rnd' i j < 2) ∧
    classify (ratExecution 0 rnd) (1 / 20 : Rat) 1 (textOf (csvLine [lit "c"] :: classRows.map csvLine))
      (textOf (csvLine [lit "c"] :: (List.replicate 20 [lit "n"]).map csvLine)) = .ok 1 ∧
    classify (ratExecution 0 rnd') (1 / 20 : Rat) 1 (textOf (csvLine [lit "c"] :: classRows.map csvLine))
      (textOf (csvLine [lit "c"] :: (List.replicate 20 [lit "n"]).map csvLine)) = .ok 0 := by
  refine ⟨fun _ _ => 0, fun _ j => if j = 4 then 0 else 1, fun _ _ => Nat.zero_lt_two, fun _ j => ?_, by decide +kernel, by decide +kernel⟩
  dsimp only
  split <;> omega

end FastPGM
