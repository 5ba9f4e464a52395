import Verif.Lemmas.Commands2

/-!
C71: exact inference from a network file, a test file and a file of reference distributions.
C72: generation of samples from a network file.
-/

namespace FastPGM

open Spec

section exact

variable {K : Type} [Field K] [LinearOrder K] [IsStrictOrderedRing K]

/-- The hypotheses on the network file and the test file: a connected Bayesian network, and a table with a column for every variable. -/
structure NetworkAndTest (stod : Str → Except Fault K) (toCount : K → Int) (vs : List VarDecl) (ts : List (TableDecl K)) (doc : XmlDoc)
    (names : List Str) (test : List (List Str)) (testFile : Str) : Prop where
  good : GoodDescription vs ts
  xml : XmlDescribes stod doc vs ts
  counts : ∀ t ∈ ts, ∀ e ∈ t.entries, 0 ≤ toCount e
  connected : ∀ i j, i < vs.length → j < vs.length → Relation.ReflTransGen (fun p c => DeclEdge ts p c ∨ DeclEdge ts c p) i j
  csv : CsvFile names test testFile
  cleanNames : CleanRow vs.length names
  cleanRows : ∀ r ∈ test, CleanRow vs.length r
  some : test ≠ []

omit [Field K] [LinearOrder K] [IsStrictOrderedRing K] in
theorem named_test {ts : List (TableDecl K)} {vs : List VarDecl} {F : NetFile} (hH : HoldsNetwork vs ts F)
    (h0 : vs ≠ []) {names : List Str} {test : List (List Str)} {testFile : Str} (h1 : CsvFile names test testFile) (h2 : CleanRow vs.length names)
    (h3 : ∀ r ∈ test, CleanRow vs.length r) (h4 : test ≠ []) :
    ∃ D, F.testDataset.loadCSVTesting testFile true 0 = .ok D ∧ D.classVar = 0 ∧ D.natRows = test.map (namedCells vs) := by
  have hn : F.testDataset.numVars = vs.length := hH.size
  have hload := C51_encode (D := F.testDataset) (by rw [hn]; exact List.length_pos_iff.2 h0)
    (by rw [hn]; show _ ≤ F.valueIds.length; rw [hH.values, List.length_map]) h1 (by rw [hn]; exact h2) (by rw [hn]; exact h3) h4 0
  refine ⟨_, hload, rfl, ?_⟩
  unfold Dataset.natRows
  rw [hn, show F.testDataset.valueIds = vs.map (fun v => numbered v.values) from hH.values]
  exact named_rows vs test

/-- The command after the files are loaded and the tree is built. -/
theorem exactInference_eq {stod : Str → Except Fault K} {toCount : K → Int} {vs : List VarDecl} {ts : List (TableDecl K)} {doc : XmlDoc}
    {names : List Str} {test : List (List Str)} {testFile : Str} (hf : NetworkAndTest stod toCount vs ts doc names test testFile)
    {order : List (Nat × Nat) → List (Nat × Nat)} {cord : Nat → List Nat} (horder : ∀ l, (order l).Perm l)
    (hcord : ∀ m, (cord m).Perm (List.range m)) (trunc : K → Int) (sqrt : K → K) :
    ∃ (ops : List EdgeOp) (R : Net) (pts : List (Table K)) (J : JTree K),
      (∀ op ∈ ops, OpInRange (vs.map (fun v => v.values.length)).length op) ∧
      (Net.empty (vs.map (fun v => v.values.length))).run ops = .ok R ∧ WeaklyConnected R ∧
      NodeTables (declCard vs) R pts ∧ (∀ T ∈ pts, ∀ x ∈ T.pot, 0 ≤ x) ∧
      (∀ E, posterior (declCard vs) vs.length (joint pts) E = posterior (declCard vs) vs.length (fileJoint toCount vs ts) E) ∧
      (∀ r, weight (declCard vs) vs.length (joint pts) (Agrees (namedCells vs r).tail) ≠ 0) ∧
      buildJunctionTree R (declCard vs) pts order cord = .ok J ∧
      ∀ pt, exactInference stod toCount trunc sqrt order cord doc testFile pt = (do
        let (evidences, _) ← inferenceInit 0 0 (test.map (namedCells vs))
        match pt with
        | none => do
          let _ ← J.propagateAll evidences
          return none
        | some file => do
          let truths ← loadGroundTruth stod ((List.range vs.length).map (declCard vs)) evidences.length file
          let r ← J.evaluate trunc sqrt evidences truths
          return some r) := by
  obtain ⟨f1, f2, f3, f4, f5, f6, f7, f8⟩ := hf
  obtain ⟨F, ops, R, pts, n1, n2, n3, n4, n5, n6, n7, n8, n9, n10, n11, n12, n13, n14⟩ := network_facts f1 f2 f3 f4
  obtain ⟨D, d1, d2, d3⟩ := named_test n2 f1.nonempty f5 f6 f7 f8
  obtain ⟨J, _, _, _, _, _, _, _, hJ, _⟩ := built_of_run (K := K) n5 n6 (by simpa using f1.nonempty) n7 horder hcord n9
  refine ⟨ops, R, pts, J, n5, n6, n7, n9, fun T hT x hx => (n10 T hT x hx).le, posterior_congr n11 n12, ?_, hJ, ?_⟩
  · intro r
    refine n13 _ (namedCells_tail_nodup vs r) (fun e he => namedCells_mem (List.mem_of_mem_tail he))
  · intro pt
    unfold exactInference
    rw [n1, ok_bind, d1, ok_bind, d2, d3]
    show (inferenceInit 0 0 _ >>= _) = _
    cases inferenceInit 0 0 (test.map (namedCells vs)) with
    | error f => rfl
    | ok st =>
      simp only [ok_bind]
      rw [n8, ok_bind, n3, n14, hJ, ok_bind, n4]
      cases pt <;> rfl

/-- The evidences of the rows. -/
theorem named_evidences {vs : List VarDecl} {test : List (List Str)} (h : ∀ r ∈ test, namedCells vs r ≠ []) :
    inferenceInit 0 0 (test.map (namedCells vs)) = .ok (test.map (fun r => (namedCells vs r).tail), []) := by
  have hc : ∀ r ∈ test, instanceEvidence 0 (namedCells vs r) = .ok ((namedCells vs r).tail, ((namedCells vs r).head?.map Prod.snd).getD 0) := by
    intro r hr
    have hs := namedCells_sorted vs r
    have hne := h r hr
    cases e : namedCells vs r with
    | nil => exact absurd e hne
    | cons p rest =>
      rw [e] at hs
      exact instanceEvidence_sorted hs
  have := C49_all_instances 0 0 (test.map (namedCells vs))
    (test.map (fun r => ((namedCells vs r).tail, ((namedCells vs r).head?.map Prod.snd).getD 0))) (by
      rw [List.mapM_map]
      exact mapM_ok hc)
  rw [this]
  simp

/-- C71, exactly: for a connected network, a test file with at least 20 rows, each with at least one cell that names a value, and a file of
reference distributions, the printed averages are the means over the rows of the distances between the exact posterior distributions of
the joint distribution of the network file and the reference distributions.  The evidence of a row are its named cells without the first of
them. -/
theorem C71_exact {stod : Str → Except Fault K} {toCount : K → Int} {vs : List VarDecl} {ts : List (TableDecl K)} {doc : XmlDoc}
    {names : List Str} {insts : List (List Str × (Nat → Nat → K) × List Str)} {testFile : Str}
    (hf : NetworkAndTest stod toCount vs ts doc names (insts.map Prod.fst) testFile)
    {order : List (Nat × Nat) → List (Nat × Nat)} {cord : Nat → List Nat} (horder : ∀ l, (order l).Perm l)
    (hcord : ∀ m, (cord m).Perm (List.range m)) {trunc : K → Int} (ht : CutsOff trunc) (sqrt : K → K) (h20 : 20 ≤ insts.length)
    (hnamed : ∀ t ∈ insts, namedCells vs t.1 ≠ [])
    (hlines : ∀ t ∈ insts, TruthLines stod vs.length (declCard vs) ((namedCells vs t.1).tail.map Prod.fst) t.2.1 t.2.2)
    (hpos : ∀ t ∈ insts, ∃ i < vs.length, i ∉ (namedCells vs t.1).tail.map Prod.fst ∧ ∃ x < declCard vs i, 0 < t.2.1 i x) (more : Str) :
    exactInference stod toCount trunc sqrt order cord doc testFile (some (textOf (insts.flatMap (fun t => t.2.2)) ++ more)) = .ok (some
      ((insts.map (fun t => rms sqrt ((counted vs.length (declCard vs) ((namedCells vs t.1).tail.map Prod.fst)
          (posterior (declCard vs) vs.length (fileJoint toCount vs ts) (namedCells vs t.1).tail) t.2.1).map
            (fun p => roundTo trunc p.1 7 - p.2)))).sum / (insts.length : K),
       (insts.map (fun t => rms sqrt ((counted vs.length (declCard vs) ((namedCells vs t.1).tail.map Prod.fst)
          (posterior (declCard vs) vs.length (fileJoint toCount vs ts) (namedCells vs t.1).tail) t.2.1).map
            (fun p => sqrt (roundTo trunc p.1 7) - sqrt p.2)))).sum / (insts.length : K))) := by
  obtain ⟨ops, R, pts, J, n5, n6, n7, n9, n10, n11, n12, hJ, heq⟩ := exactInference_eq hf horder hcord trunc sqrt
  have hl : (vs.map (fun v => v.values.length)).length = vs.length := List.length_map _
  obtain ⟨J', tables, e1, e2, e3⟩ := C69_evaluate n5 n6 (by simpa using hf.good.nonempty) n7 horder hcord n9 n10 ht sqrt stod
    (insts := insts.map (fun t => ((namedCells vs t.1).tail, t.2.1, t.2.2))) (by simpa using h20) (by
      intro t' ht'
      obtain ⟨t, htm, rfl⟩ := List.mem_map.1 ht'
      rw [hl]
      exact ⟨namedCells_tail_nodup vs _, fun e he => (namedCells_mem (List.mem_of_mem_tail he)).1, n12 _⟩) (by
      intro t' ht'
      obtain ⟨t, htm, rfl⟩ := List.mem_map.1 ht'
      rw [hl]
      exact hlines t htm) (by
      intro t' ht'
      obtain ⟨t, htm, rfl⟩ := List.mem_map.1 ht'
      rw [hl]
      exact hpos t htm) more
  rw [hJ] at e1
  cases e1
  rw [hl, List.length_map, List.flatMap_map] at e2
  rw [hl, List.length_map, List.map_map, List.map_map, List.map_map] at e3
  rw [heq, named_evidences (by
    intro r hr
    obtain ⟨t, htm, rfl⟩ := List.mem_map.1 hr
    exact hnamed t htm), ok_bind]
  simp only [List.length_map]
  rw [e2, ok_bind, List.map_map]
  simp only [Function.comp_def] at e3 ⊢
  rw [e3, ok_bind]
  simp only [n11]
  rfl

/-- C71: if the first cell of every row names a value, the evidence of a row are the values that its other cells name. -/
theorem C71_evaluate {stod : Str → Except Fault K} {toCount : K → Int} {vs : List VarDecl} {ts : List (TableDecl K)} {doc : XmlDoc}
    {names : List Str} {insts : List (List Str × (Nat → Nat → K) × List Str)} {testFile : Str}
    (hf : NetworkAndTest stod toCount vs ts doc names (insts.map Prod.fst) testFile)
    {order : List (Nat × Nat) → List (Nat × Nat)} {cord : Nat → List Nat} (horder : ∀ l, (order l).Perm l)
    (hcord : ∀ m, (cord m).Perm (List.range m)) {trunc : K → Int} (ht : CutsOff trunc) (sqrt : K → K) (h20 : 20 ≤ insts.length)
    (hnamed : ∀ t ∈ insts, Named vs t.1 0)
    (hlines : ∀ t ∈ insts, TruthLines stod vs.length (declCard vs) ((evidenceCells vs t.1).map Prod.fst) t.2.1 t.2.2)
    (hpos : ∀ t ∈ insts, ∃ x < declCard vs 0, 0 < t.2.1 0 x) (more : Str) :
    exactInference stod toCount trunc sqrt order cord doc testFile (some (textOf (insts.flatMap (fun t => t.2.2)) ++ more)) = .ok (some
      ((insts.map (fun t => rms sqrt ((counted vs.length (declCard vs) ((evidenceCells vs t.1).map Prod.fst)
          (posterior (declCard vs) vs.length (fileJoint toCount vs ts) (evidenceCells vs t.1)) t.2.1).map
            (fun p => roundTo trunc p.1 7 - p.2)))).sum / (insts.length : K),
       (insts.map (fun t => rms sqrt ((counted vs.length (declCard vs) ((evidenceCells vs t.1).map Prod.fst)
          (posterior (declCard vs) vs.length (fileJoint toCount vs ts) (evidenceCells vs t.1)) t.2.1).map
            (fun p => sqrt (roundTo trunc p.1 7) - sqrt p.2)))).sum / (insts.length : K))) := by
  have htail : ∀ t ∈ insts, (namedCells vs t.1).tail = evidenceCells vs t.1 := fun t htm => by
    rw [namedCells_class hf.good.nonempty (hnamed t htm)]
    rfl
  have key := C71_exact hf horder hcord ht sqrt h20 (fun t htm => by
      rw [namedCells_class hf.good.nonempty (hnamed t htm)]
      simp) (fun t htm => by rw [htail t htm]; exact hlines t htm) (fun t htm => by
      rw [htail t htm]
      refine ⟨0, List.length_pos_iff.2 hf.good.nonempty, ?_, hpos t htm⟩
      intro h
      obtain ⟨e, he, h0⟩ := List.mem_map.1 h
      unfold evidenceCells at he
      obtain ⟨j, hj, rfl⟩ := List.mem_map.1 he
      rw [List.mem_filter] at hj
      simp only [ne_eq, decide_eq_true_eq] at hj
      exact hj.2.1 h0) more
  rw [key]
  congr 4
  · congr 1
    apply List.map_congr_left
    intro t htm
    rw [htail t htm]
  · congr 1
    apply List.map_congr_left
    intro t htm
    rw [htail t htm]

/-- C71: without a file of reference distributions nothing is reported; the command still goes through all rows. -/
theorem C71_no_reference {stod : Str → Except Fault K} {toCount : K → Int} {vs : List VarDecl} {ts : List (TableDecl K)} {doc : XmlDoc}
    {names : List Str} {test : List (List Str)} {testFile : Str} (hf : NetworkAndTest stod toCount vs ts doc names test testFile)
    {order : List (Nat × Nat) → List (Nat × Nat)} {cord : Nat → List Nat} (horder : ∀ l, (order l).Perm l)
    (hcord : ∀ m, (cord m).Perm (List.range m)) (trunc : K → Int) (sqrt : K → K) (h20 : 20 ≤ test.length)
    (hnamed : ∀ r ∈ test, namedCells vs r ≠ []) :
    exactInference stod toCount trunc sqrt order cord doc testFile none = .ok none := by
  obtain ⟨ops, R, pts, J, n5, n6, n7, n9, n10, n11, n12, hJ, heq⟩ := exactInference_eq hf horder hcord trunc sqrt
  obtain ⟨hinv, hlen⟩ := netInv_of_run n5 n6
  rw [List.length_map] at hlen
  obtain ⟨J', _, _, _, _, _, _, _, hJ', hb⟩ := built_of_run (K := K) n5 n6 (by simpa using hf.good.nonempty) n7 horder hcord n9
  rw [hJ] at hJ'
  cases hJ'
  have hcard := (nodeTables_facts n9).1
  rw [heq, named_evidences hnamed, ok_bind]
  have key : ∀ (l : List (List (Nat × Nat))), (∀ E ∈ l, ∃ r, E = (namedCells vs r).tail) → l.foldlM (fun (J : JTree K) E => (do
      if (test.map (fun r => (namedCells vs r).tail)).length / 20 = 0 then .error .ub
      else do
        let st ← propagate J.levels J.n E J.state
        return JTree.reset { J with state := st } : Except Fault (JTree K))) J = .ok J := by
    intro l
    induction l with
    | nil => intro _; rfl
    | cons E l ih =>
      intro h
      obtain ⟨r, rfl⟩ := h E (by simp)
      obtain ⟨st, e1, _⟩ := hb.marginal hinv hcard n10 (namedCells_tail_nodup vs r)
        (fun e he => by rw [hlen]; exact (namedCells_mem (List.mem_of_mem_tail he)).1) (by rw [hlen]; exact n12 r)
      rw [List.foldlM_cons, if_neg (by rw [List.length_map]; omega), e1, ok_bind, pure_eq_ok, ok_bind, hb.reset]
      exact ih (fun E' hE' => h E' (by simp [hE']))
  simp only
  unfold JTree.propagateAll
  rw [key _ (by
    intro E hE
    obtain ⟨r, _, rfl⟩ := List.mem_map.1 hE
    exact ⟨r, rfl⟩)]
  rfl

/-- C71, finding: with fewer than 20 test rows the program divides by 0, with and without a file of reference distributions. -/
theorem C71_few_rows_ub {stod : Str → Except Fault K} {toCount : K → Int} {vs : List VarDecl} {ts : List (TableDecl K)} {doc : XmlDoc}
    {names : List Str} {test : List (List Str)} {testFile : Str} (hf : NetworkAndTest stod toCount vs ts doc names test testFile)
    {order : List (Nat × Nat) → List (Nat × Nat)} {cord : Nat → List Nat} (horder : ∀ l, (order l).Perm l)
    (hcord : ∀ m, (cord m).Perm (List.range m)) (trunc : K → Int) (sqrt : K → K) (h20 : test.length < 20)
    (hnamed : ∀ r ∈ test, namedCells vs r ≠ []) :
    exactInference stod toCount trunc sqrt order cord doc testFile none = .error .ub ∧
    ∀ file, (∃ tables : List (List K), loadGroundTruth stod ((List.range vs.length).map (declCard vs)) test.length file = .ok tables) →
      exactInference stod toCount trunc sqrt order cord doc testFile (some file) = .error .ub := by
  obtain ⟨ops, R, pts, J, n5, n6, n7, n9, n10, n11, n12, hJ, heq⟩ := exactInference_eq hf horder hcord trunc sqrt
  constructor
  · rw [heq, named_evidences hnamed, ok_bind]
    simp only
    unfold JTree.propagateAll
    obtain ⟨r, rest, e⟩ := List.exists_cons_of_ne_nil hf.some
    rw [e] at h20
    rw [e, List.map_cons, List.foldlM_cons, if_pos (by simp only [List.length_cons, List.length_map] at h20 ⊢; omega)]
    rfl
  · rintro file ⟨tables, ht⟩
    rw [heq, named_evidences hnamed, ok_bind]
    simp only [List.length_map]
    rw [ht, ok_bind, C69_few_ub trunc sqrt J (by simpa using hf.some) (by simpa using h20)]
    rfl

/-- C71, finding: a row in which no cell names a value (for example all cells empty, or unknown names) ends the program. -/
theorem C71_nothing_named {stod : Str → Except Fault K} {toCount : K → Int} {vs : List VarDecl} {ts : List (TableDecl K)} {doc : XmlDoc}
    {names : List Str} {test : List (List Str)} {testFile : Str} (hf : NetworkAndTest stod toCount vs ts doc names test testFile)
    {order : List (Nat × Nat) → List (Nat × Nat)} {cord : Nat → List Nat} (horder : ∀ l, (order l).Perm l)
    (hcord : ∀ m, (cord m).Perm (List.range m)) (trunc : K → Int) (sqrt : K → K) {r : List Str} (hr : r ∈ test)
    (hnone : ∀ j < vs.length, ¬ Named vs r j) (pt : Option Str) :
    exactInference stod toCount trunc sqrt order cord doc testFile pt = .error .throw := by
  obtain ⟨ops, R, pts, J, n5, n6, n7, n9, n10, n11, n12, hJ, heq⟩ := exactInference_eq hf horder hcord trunc sqrt
  have hempty : namedCells vs r = [] := by
    unfold namedCells
    rw [List.map_eq_nil_iff, List.filter_eq_nil_iff]
    intro j hj
    simpa using hnone j (List.mem_range.1 hj)
  have gen : ∀ (l : List (List Str)) (acc : List (List (Nat × Nat)) × List Nat), r ∈ l →
      (l.map (namedCells vs)).foldlM (fun acc inst => do
        let (e, g) ← instanceEvidence 0 inst
        return (acc.1 ++ [e], if 0 = 1 then acc.2 ++ [g] else acc.2)) acc = .error .throw := by
    intro l
    induction l with
    | nil => intro _ h; cases h
    | cons x l ih =>
      intro acc h
      rw [List.map_cons, List.foldlM_cons]
      by_cases hx : namedCells vs x = []
      · rw [hx]; rfl
      · have hne : x ≠ r := fun e => hx (e ▸ hempty)
        obtain ⟨g, hg⟩ := namedCells_evidence hx
        rw [hg]
        exact ih _ (by rcases List.mem_cons.1 h with e | h; exact absurd e.symm hne; exact h)
  have hinit : inferenceInit 0 0 (test.map (namedCells vs)) = .error .throw := gen test ([], []) hr
  rw [heq, hinit]
  rfl

/-- C71, finding: if the first cell does not name a value, the first value that is named is left out of the evidence. -/
theorem C71_first_unknown {vs : List VarDecl} {r : List Str} (h : ¬ Named vs r 0) : namedCells vs r = evidenceCells vs r ∧
    ∀ p, (evidenceCells vs r).head? = some p → p ∉ (namedCells vs r).tail := by
  have he : namedCells vs r = evidenceCells vs r := by
    unfold namedCells evidenceCells
    congr 1
    apply List.filter_congr
    intro j _
    by_cases hj : j = 0
    · subst hj
      simp [h]
    · simp [hj]
  refine ⟨he, ?_⟩
  intro p hp
  rw [← he] at hp
  have hs := namedCells_sorted vs r
  cases e : namedCells vs r with
  | nil => rw [e] at hp; cases hp
  | cons q rest =>
    rw [e] at hp hs
    cases hp
    intro hm
    have := (List.pairwise_cons.1 hs).1 _ hm
    omega

end exact

section samples

variable {K : Type} [Field K] [LinearOrder K] [IsStrictOrderedRing K]

/-- The row of the CSV file for a sample: the names of the values. -/
def Spec.sampleRow (vs : List VarDecl) (s : List Nat) : List Str := (List.range vs.length).map (fun j => (labels vs j).getD (s.getD j 0) [])

/-- The hypotheses on the network file and the arguments of the sample generator: a Bayesian network with at most 2147483647 variables and
values, no value with an empty name, and a class variable of the network. -/
structure NetworkToSample (stod : Str → Except Fault K) (toCount : K → Int) (vs : List VarDecl) (ts : List (TableDecl K)) (doc : XmlDoc)
    (cls : Int) : Prop where
  good : GoodDescription vs ts
  xml : XmlDescribes stod doc vs ts
  counts : ∀ t ∈ ts, ∀ e ∈ t.entries, 0 ≤ toCount e
  labels : ∀ v ∈ vs, ∀ s ∈ v.values, s ≠ []
  few : vs.length ≤ 2147483647
  small : ∀ v ∈ vs, v.values.length ≤ 2147483648
  cls : 0 ≤ cls ∧ cls < vs.length

/-- C72: the sample generator writes the samples it draws.  Sample `i` is the combination of values `x` exactly if, for every variable, the
random number drawn for it falls into the interval that belongs to `x`: its length is the conditional probability of the network file, and
the intervals of the values of a variable follow each other.  The CSV file has the names of the variables and the names of the drawn values;
the LIBSVM file is read back as the drawn values. -/
theorem C72_samples {stod : Str → Except Fault K} {toCount : K → Int} {vs : List VarDecl} {ts : List (TableDecl K)} {doc : XmlDoc} {cls : Int}
    (hf : NetworkToSample stod toCount vs ts doc cls) (m : Nat) (rnd : Nat → Nat → {u : K // 0 < u ∧ u ≤ 1}) :
    ∃ (samples : List (List Nat)) (ord : List Nat), samples.length = m ∧ IsTopologicalOrder vs.length (DeclEdge ts) ord ∧
      (∀ s ∈ samples, s.length = vs.length ∧ ∀ j < vs.length, s.getD j 0 < declCard vs j) ∧
      (∀ (i : Nat) s, samples[i]? = some s → ∀ x : Assignment, InRange (declCard vs) (List.range vs.length) x →
        ((∀ v < vs.length, s[v]? = some (x v)) ↔
          ∀ t ∈ ts, ∃ low : K, low = ∑ y ∈ Finset.range (x t.node), fileEntry toCount (declCard vs) t (x.set t.node y) ∧
            low < (rnd i (ord.idxOf t.node)).1 ∧ (rnd i (ord.idxOf t.node)).1 ≤ low + fileEntry toCount (declCard vs) t x)) ∧
      sampleGenerator stod toCount inversion rnd doc false m cls =
        .ok (textOf (csvLine (vs.map VarDecl.name) :: samples.map (fun s => csvLine (sampleRow vs s)))) ∧
      ∃ text, sampleGenerator stod toCount inversion rnd doc true m cls = .ok text ∧
        ∀ D : Dataset, D.numVars = vs.length → D.rows = [] → ∃ D', D.loadLIBSVMTesting text cls = .ok D' ∧ D'.numInstance = m ∧ D'.classVar = cls ∧
          D'.rows = samples.map (fun s => (List.range vs.length).map (fun i : Nat => ((i : Int), ((s.getD i 0 : Nat) : Int)))) := by
  obtain ⟨f1, f2, f3, f4, f5, f6, f7, f8⟩ := hf
  obtain ⟨F, hF, hH, _⟩ := C64_load toCount f1 f2
  obtain ⟨F', G, nm, hnm, hF', hG, e⟩ := xml_load toCount f1 f2
  rw [hF] at hF'
  cases hF'
  obtain ⟨R, hrun, hR, hlen, hshape, hinv, hch, _⟩ := xml_net f1 hG
  have hops := declOps_range f1 (done := ts) (rest := []) (by simp)
  have hl : (vs.map (fun v => v.values.length)).length = vs.length := List.length_map _
  have hd0 : ∀ d ∈ vs.map (fun v => v.values.length), 0 < d := by
    intro d hd
    obtain ⟨v, hv, rfl⟩ := List.mem_map.1 hd
    exact List.length_pos_iff.2 (f1.values v hv).2
  have htab : ∀ v < vs.length, ∃ t ∈ ts, t.node = v := by
    intro v hv
    obtain ⟨t, ht, e⟩ := List.mem_map.1 (f1.nodes.mem_iff.2 (List.mem_range.2 hv))
    exact ⟨t, ht, e⟩
  have hnt : ∀ t ∈ ts, t.node < vs.length := fun t ht => List.mem_range.1 (f1.nodes.mem_iff.1 (List.mem_map_of_mem ht))
  -- the table of a node
  let tb : Nat → Assignment → K := fun v a => ((ts.find? (fun t => t.node = v)).map (fun t => fileEntry toCount (declCard vs) t a)).getD 0
  have htb : ∀ t ∈ ts, ∀ a, tb t.node a = fileEntry toCount (declCard vs) t a := by
    intro t ht a
    have : ts.find? (fun t' => t'.node = t.node) = some t := by
      cases e : ts.find? (fun t' => t'.node = t.node) with
      | none =>
        have := List.find?_eq_none.1 e t ht
        simp at this
      | some t' =>
        have h1 : t'.node = t.node := by simpa using List.find?_some e
        have := List.inj_on_of_nodup_map (f1.nodes.nodup_iff.2 List.nodup_range) (List.mem_of_find?_eq_some e) ht h1
        rw [this]
    show ((ts.find? (fun t' => t'.node = t.node)).map _).getD 0 = _
    rw [this]
    rfl
  have hGnodes : G.net.nodes = R.nodes := by rw [hR]
  have hpaR : ∀ t ∈ ts, ∀ v, v ∈ R.pa t.node ↔ v ∈ t.given := by
    intro t ht v
    rw [← hinv.wf.sym, hch]
    constructor
    · rintro ⟨t', ht', e, hv⟩
      have : t' = t := List.inj_on_of_nodup_map (f1.nodes.nodup_iff.2 List.nodup_range) ht' ht e
      exact this ▸ hv
    · intro hv
      exact ⟨t, ht, rfl, hv⟩
  have hpar : ∀ t ∈ ts, ∀ node, R.nodes[t.node]? = some node → node.parents = R.pa t.node ∧ R.pa t.node = G.net.pa t.node := by
    intro t ht node hn
    refine ⟨by unfold Net.pa; rw [hn]; rfl, by rw [hR]; rfl⟩
  have hcond : ∀ (v : Nat) node, R.nodes[v]? = some node →
      ∀ a, InRange (fun j => (vs.map (fun v => v.values.length)).getD j 0) (v :: node.parents) a →
      F.prob v (a v) (configOf a node.parents) = .ok (tb v a) ∧ 0 ≤ tb v a ∧
        ∑ y ∈ Finset.range ((vs.map (fun v => v.values.length)).getD v 0), tb v (a.set v y) = 1 := by
    intro v node hnode a ha
    have hv : v < vs.length := by rw [← hlen]; exact (List.getElem?_eq_some_iff.1 hnode).1
    obtain ⟨t, ht, rfl⟩ := htab v hv
    obtain ⟨p1, p2⟩ := hpar t ht node hnode
    have ha' : InRange (declCard vs) (t.node :: t.given) a := by
      intro p hp
      refine ha p ?_
      rw [p1]
      rcases List.mem_cons.1 hp with rfl | hp
      · simp
      · exact List.mem_cons_of_mem _ ((hpaR t ht p).2 hp)
    have hc : 0 < declCard vs t.node := (hshape.dim _ _ hnode).2
    have key := xml_prob f1 hG f3 ht ha'
    rw [p1, p2]
    refine ⟨?_, ?_, ?_⟩
    · rw [htb t ht, e]
      exact key
    · rw [htb t ht]
      exact (fileEntry_pos (f3 t ht) hc a).le
    · rw [← fileEntry_sum (K := K) (f3 t ht) hc a]
      exact Finset.sum_congr rfl (fun x _ => htb t ht _)
  obtain ⟨ord, g3, gall⟩ := C61_box hd0 (by simpa using f1.nonempty) hops hrun (prob := F.prob) tb hcond
  obtain ⟨samples, N', g1, g2, g4⟩ := gall m rnd
  rw [hl] at g3 g4
  have hgen : generateSamples inversion F.net F.prob m rnd = .ok (samples, ({ N' with edges := F.net.edges } : Net)) := by
    have hnet : F.net = ({ R with edges := F.net.edges } : Net) := by rw [e]; show ({ G.net with edges := _ } : Net) = _; rw [hR]
    have := generateSamples_edges (inversion (K := K)) R F.net.edges F.prob m rnd
    rw [← hnet, g1] at this
    exact this
  have hN' : N'.nodes.length = vs.length := by rw [generateSamples_nodes g1, hlen]
  -- the samples have legal values
  have hrange : ∀ s ∈ samples, s.length = vs.length ∧ ∀ j < vs.length, s.getD j 0 < declCard vs j := by
    obtain ⟨ord', _, kall⟩ := C55_samples hd0 (by simpa using f1.nonempty) hops hrun
      (weights_of_cond hd0 hops hrun tb hcond) C61_inversion_possible
    obtain ⟨samples', N'', k1, k2, k4⟩ := kall m rnd
    rw [g1] at k1
    cases k1
    intro s hs
    obtain ⟨i, hi, rfl⟩ := List.getElem_of_mem hs
    obtain ⟨b1, b2⟩ := k4 i _ (List.getElem?_eq_getElem hi)
    refine ⟨by rw [b1, hl], fun j hj => ?_⟩
    exact (b2 j _ (List.getElem?_eq_getElem (by rw [hlen]; exact hj))).1
  have hsmall : ∀ s ∈ samples, s.length = vs.length ∧ ∀ x ∈ s, x ≤ 2147483647 := by
    intro s hs
    obtain ⟨a1, a2⟩ := hrange s hs
    refine ⟨a1, fun x hx => ?_⟩
    obtain ⟨j, hj, rfl⟩ := List.getElem_of_mem hx
    have := a2 j (by omega)
    rw [List.getD_eq_getElem?_getD, List.getElem?_eq_getElem hj, declCard_labels, labels_eq (by omega)] at this
    have := f6 vs[j] (List.getElem_mem _)
    simp only [Option.getD_some] at *
    omega
  have hout := fun D h1 h2 => C62_output_load (cls := cls) f7 f8 f5 hsmall D h1 h2
  obtain ⟨text, D', t1, t2, t3, t4, t5⟩ := hout F.testDataset hH.size rfl
  rw [g2] at t1
  refine ⟨samples, ord, g2, ?_, hrange, ?_, ?_, text, ?_, ?_⟩
  · refine ⟨g3.1, g3.2.1, fun a b hab => g3.2.2 a b ?_⟩
    rw [childOf_iff, hch]
    exact hab
  · intro i s hs x hx
    rw [g4 i s hs x hx]
    constructor
    · intro h t ht
      obtain ⟨low, l1, l2, l3⟩ := h t.node (hnt t ht)
      refine ⟨low, ?_, l2, ?_⟩
      · rw [l1]
        exact Finset.sum_congr rfl (fun y _ => htb t ht _)
      · rw [← htb t ht]
        exact l3
    · intro h v hv
      obtain ⟨t, ht, rfl⟩ := htab v hv
      obtain ⟨low, l1, l2, l3⟩ := h t ht
      refine ⟨low, ?_, l2, ?_⟩
      · rw [l1]
        exact Finset.sum_congr rfl (fun y _ => (htb t ht _).symm)
      · rw [htb t ht]
        exact l3
  · unfold sampleGenerator
    rw [hF, ok_bind, hgen, ok_bind]
    dsimp only
    rw [hN', t1, ok_bind, if_neg (by decide), t2, ok_bind]
    have hk := svmTesting_keeps t2
    have hn : D'.numVars = vs.length := by rw [hk.2]; exact hH.size
    rw [hn, show (List.range vs.length).mapM (rd F.names) = .ok (vs.map VarDecl.name) by
      rw [hH.names, mapM_ok (g := fun j => (vs.map VarDecl.name).getD j [])]
      · refine congrArg Except.ok ?_
        have := eq_tab_getD (l := vs.map VarDecl.name) ([] : Str)
        rw [List.length_map] at this
        exact this.symm
      · intro j hj
        have hj : j < (vs.map VarDecl.name).length := by simpa using hj
        rw [rd_getElem hj, List.getD_eq_getElem?_getD, List.getElem?_eq_getElem hj]
        rfl, ok_bind]
    refine storeCSV_samples f1.nonempty f4 (fun s hs => (hrange s hs).2) _ ?_ ?_ ?_ ?_ ?_
    · exact hk.1.trans hH.values
    · rfl
    · rfl
    · exact t3
    · exact t5
  · unfold sampleGenerator
    rw [hF, ok_bind, hgen, ok_bind]
    dsimp only
    rw [hN', t1, ok_bind, if_pos rfl]
    rfl
  · intro D h1 h2
    obtain ⟨text', D'', u1, u2, u3, u4, u5⟩ := hout D h1 h2
    rw [g2] at u1 u3
    rw [t1] at u1
    cases u1
    exact ⟨D'', u2, u3, u4, u5⟩

omit [Field K] [LinearOrder K] [IsStrictOrderedRing K] in
/-- C72: the CSV file that the sample generator writes is read back, with the network file, as the samples: if no name has a comma, a newline
or trailing blanks, every row of the test data set has the number of the drawn value for every variable. -/
theorem C72_reload {ts : List (TableDecl K)} {vs : List VarDecl} {F : NetFile} (hH : HoldsNetwork vs ts F) (h : GoodDescription vs ts)
    (hnames : ∀ v ∈ vs, CleanCell v.name) (hlab : ∀ v ∈ vs, ∀ s ∈ v.values, s ≠ [] ∧ CleanCell s ∧ dropBlanks s = s)
    {samples : List (List Nat)} (h0 : samples ≠ [])
    (hs : ∀ s ∈ samples, s.length = vs.length ∧ ∀ j < vs.length, s.getD j 0 < declCard vs j) :
    ∃ D, F.testDataset.loadCSVTesting (textOf (csvLine (vs.map VarDecl.name) :: samples.map (fun s => csvLine (sampleRow vs s)))) true 0 = .ok D ∧
      D.natRows = samples.map (fun s => (List.range vs.length).map (fun j => (j, s.getD j 0))) := by
  have hval : ∀ s ∈ samples, ∀ j < vs.length, ∃ v ∈ vs, labels vs j = v.values ∧ (labels vs j).getD (s.getD j 0) [] ∈ v.values := by
    intro s hsm j hj
    have h1 := (hs s hsm).2 j hj
    rw [declCard_labels] at h1
    refine ⟨vs[j], List.getElem_mem _, labels_eq hj, ?_⟩
    rw [← labels_eq hj, List.getD_eq_getElem?_getD, List.getElem?_eq_getElem h1]
    exact List.getElem_mem _
  have hlen : ∀ s, (sampleRow vs s).length = vs.length := fun s => by simp [sampleRow]
  have hcell : ∀ s ∈ samples, ∀ j < vs.length, cellText (sampleRow vs s) j = (labels vs j).getD (s.getD j 0) [] := by
    intro s hsm j hj
    obtain ⟨v, hv, e1, e2⟩ := hval s hsm j hj
    have : (sampleRow vs s).getD j [] = (labels vs j).getD (s.getD j 0) [] := by
      unfold sampleRow
      exact getD_tab hj
    unfold cellText
    rw [this]
    split
    · exact (hlab v hv _ e2).2.2
    · rfl
  obtain ⟨D, d1, _, d2⟩ := named_test hH h.nonempty (names := vs.map VarDecl.name) (test := samples.map (sampleRow vs))
    (testFile := textOf (csvLine (vs.map VarDecl.name) :: samples.map (fun s => csvLine (sampleRow vs s)))) (by
      have := CsvFile.newline (names := vs.map VarDecl.name) (T := samples.map (sampleRow vs))
      rwa [List.map_map] at this) ⟨by simp, fun c hc => by
      obtain ⟨v, hv, rfl⟩ := List.mem_map.1 hc
      exact hnames v hv⟩ (by
      intro r hr
      obtain ⟨s, hsm, rfl⟩ := List.mem_map.1 hr
      refine ⟨hlen s, fun c hc => ?_⟩
      obtain ⟨j, hj, rfl⟩ := List.mem_map.1 hc
      obtain ⟨v, hv, _, e2⟩ := hval s hsm j (List.mem_range.1 hj)
      exact (hlab v hv _ e2).2.1) (by simpa using h0)
  refine ⟨D, d1, ?_⟩
  rw [d2, List.map_map]
  refine List.map_congr_left (fun s hsm => ?_)
  show namedCells vs (sampleRow vs s) = _
  unfold namedCells
  rw [List.filter_eq_self.2 (by
    intro j hj
    have hj := List.mem_range.1 hj
    obtain ⟨v, hv, e1, e2⟩ := hval s hsm j hj
    rw [decide_eq_true_iff]
    unfold Named
    rw [hcell s hsm j hj, e1]
    rw [e1] at e2
    exact ⟨(hlab v hv _ e2).1, e2⟩)]
  refine List.map_congr_left (fun j hj => ?_)
  have hj := List.mem_range.1 hj
  have h1 := (hs s hsm).2 j hj
  obtain ⟨v, hv, e1, e2⟩ := hval s hsm j hj
  rw [declCard_labels] at h1
  rw [hcell s hsm j hj, List.getD_eq_getElem?_getD, List.getElem?_eq_getElem h1]
  refine Prod.ext rfl ?_
  show (labels vs j).idxOf ((labels vs j)[s.getD j 0]) = _
  exact List.Nodup.idxOf_getElem (by rw [e1]; exact (h.values v hv).1) _ h1

end samples

/-! ### Concrete cases -/

/-- 20 rows: the first column is named in all of them, the second in every second one. -/
def exampleTest : List (List Str) := (List.replicate 10 [[lit "yes", lit "wet"], [lit "no", []]]).flatten

theorem exampleNetworkAndTest : NetworkAndTest exampleStod exampleCount exampleDecls exampleTables exampleDoc [lit "Rain", lit "Wet"] exampleTest
    (textOf (csvLine [lit "Rain", lit "Wet"] :: exampleTest.map csvLine)) := by
  refine ⟨exampleGood, exampleDescribes, by decide +kernel, ?_, .newline, by unfold CleanRow CleanCell; decide,
    by unfold CleanRow CleanCell; decide, by decide⟩
  have h : DeclEdge exampleTables 0 1 := ⟨⟨1, [0], [0, 4 / 5, 1 / 5, 1 / 5, 4 / 5, 0]⟩, List.mem_cons_self, rfl, by decide⟩
  intro i j hi hj
  have hi : i < 2 := hi
  have hj : j < 2 := hj
  match i, j, hi, hj with
  | 0, 0, _, _ => exact .refl
  | 1, 1, _, _ => exact .refl
  | 0, 1, _, _ => exact .single (Or.inl h)
  | 1, 0, _, _ => exact .single (Or.inr h)

/-- The reference distributions of the two kinds of rows: uniform ones. -/
def exampleTruth : List Str := (List.replicate 10 [lit "0.5 0.5", [], lit "0.5 0.5", lit "0.2 0.8 0"]).flatten

/-- C71 on the example: the averages, computed with `sqrt x = x`. -/
example : exactInference exampleStod exampleCount ratTrunc id id List.range exampleDoc (textOf (csvLine [lit "Rain", lit "Wet"] :: exampleTest.map csvLine))
    (some (textOf exampleTruth)) = .ok (some (173135991437301 / 800000000000000, 173135991437301 / 800000000000000)) := by decide +kernel

/-- C72 on the example: two samples; written as CSV and as LIBSVM file. -/
theorem exampleToSample : NetworkToSample exampleStod exampleCount exampleDecls exampleTables exampleDoc 0 :=
  ⟨exampleGood, exampleDescribes, by decide +kernel, by decide, by decide, by decide, by decide⟩

example : ∃ u1 u2 : {u : ℚ // 0 < u ∧ u ≤ 1},
    sampleGenerator exampleStod exampleCount inversion (fun i _ => if i = 0 then u1 else u2) exampleDoc false 2 0 =
      .ok (textOf [lit "Rain,Wet", lit "yes,dry", lit "no,wet"]) ∧
    sampleGenerator exampleStod exampleCount inversion (fun i _ => if i = 0 then u1 else u2) exampleDoc true 2 0 =
      .ok (textOf [lit "0 ", lit "1 1:2 "]) :=
  ⟨⟨1 / 20000, by decide +kernel⟩, ⟨1, by decide +kernel⟩, by decide +kernel, by decide +kernel⟩

end FastPGM
