import Verif.Lemmas.MixedDataset
import Verif.Model.Parameter

/-!
Loading and storing data with continuous variables (C97).
-/

namespace FastPGM

open Spec

variable {F : Type} {stof : Str → Except Fault F} {cont : List Int}

theorem forall₂_length {α β : Type} {R : α → β → Prop} {l : List α} {l' : List β} (h : List.Forall₂ R l l') : l.length = l'.length := by
  induction h with
  | nil => rfl
  | cons _ _ ih => rw [List.length_cons, List.length_cons, ih]

/-! ### CSV -/

/-- C97.  Loading a CSV file with text values and some continuous columns, compared with loading it as purely discrete: it succeeds exactly if
the latter does and every text in a continuous column is a number.  The result differs in the continuous columns alone: they hold the numbers and
have no codes.  The integer arrays are not made. -/
theorem C97_csv_training (hcont : cont ≠ []) (file : Str) (cls : Int) :
    (∀ D', loadCSVTrainingM stof file true cls cont = .ok D' → ∃ D, loadCSVTraining file true cls = .ok D ∧
      (∀ i < D.numVars, (i : Int) ∈ cont → ∀ m, D.valueIds[i]? = some m → ∀ s v, m.find s = some v → ∃ f, stof s = .ok f) ∧
      D'.numInstance = D.numInstance ∧ D'.numVars = D.numVars ∧ D'.classVar = cls ∧ D'.varNames = D.varNames ∧
      List.Forall₂ (List.Forall₂ (SameCell stof cont D.valueIds)) D.rows D'.rows ∧
      (∀ i < D.numVars, (i : Int) ∉ cont → D'.valueIds[i]? = D.valueIds[i]? ∧ D'.numValues[i]? = D.numValues[i]?) ∧
      (∀ i < D.numVars, (i : Int) ∈ cont → D'.valueIds[i]? = some [] ∧ D'.numValues[i]? = some 0) ∧
      D'.allVars = none ∧ D'.columns = none) ∧
    (∀ D, loadCSVTraining file true cls = .ok D →
      (∀ i < D.numVars, (i : Int) ∈ cont → ∀ m, D.valueIds[i]? = some m → ∀ s v, m.find s = some v → ∃ f, stof s = .ok f) →
      ∃ D', loadCSVTrainingM stof file true cls cont = .ok D') := by
  unfold loadCSVTrainingM loadCSVTraining
  obtain ⟨header, sample, f⟩ := readTwo file
  dsimp only
  generalize header.countP (· = 44) + 1 = n
  cases hsplit : split (trimRight header) [44] with
  | error e => exact ⟨fun D' h => (by cases h), fun D h => (by cases h)⟩
  | ok names =>
    rw [ok_bind, ok_bind]
    by_cases hnd : names.Nodup
    swap
    · rw [if_pos hnd, if_pos hnd]
      exact ⟨fun D' h => (by cases h), fun D h => (by cases h)⟩
    rw [if_neg (not_not_intro hnd), if_neg (not_not_intro hnd)]
    have hsim := trainLoop_sim (n := n) (file.length + 1) sample f (trainRel_init (stof := stof) (cont := cont))
    cases h1 : doWhileGetline (trainLine n true) (file.length + 1)
        { counter := List.replicate n (-1), ids := List.replicate n [], rows := [] } sample f with
    | error e =>
      rw [h1] at hsim
      obtain ⟨g, hg⟩ := hsim
      rw [hg]
      exact ⟨fun D' h => (by cases h), fun D h => (by cases h)⟩
    | ok st =>
      rw [h1] at hsim
      rw [ok_bind]
      have hnum : ∀ (ids : List ValueMap), ids.length = n →
          (List.range n).mapM (fun i => (do return ((← rd ids i).length : Int) : Except Fault Int)) = .ok (tab n (fun i => ((ids.getD i []).length : Int))) := by
        intro ids hl
        refine range_mapM_tab (fun i hi => ?_)
        rw [rd_getElem (by omega), ok_bind, List.getD_eq_getElem?_getD, List.getElem?_eq_getElem (by omega)]
        rfl
      rcases hsim with ⟨st', h2, hR⟩ | ⟨g, h2, hb⟩
      · rw [h2, ok_bind, hnum _ hR.len.2.1, ok_bind, hnum _ hR.len.2.2.2, ok_bind]
        have hlr : st'.rows.length = st.rows.length := (forall₂_length hR.rows).symm
        obtain ⟨a1, a2⟩ := arrays_eq (D := ⟨st.rows.length, n, cls, names, st.ids,
          tab n (fun i => ((st.ids.getD i []).length : Int)), [], [], st.rows⟩) rfl hR.rowsIn
        rw [a1, ok_bind, a2]
        unfold MDataset.arrays
        rw [if_neg hcont]
        constructor
        · intro D' hD'
          cases hD'
          refine ⟨_, rfl, fun i hi hc => (hR.contin i hi hc).2, hlr, rfl, rfl, rfl, hR.rows, fun i hi hc => ⟨(hR.disc i hi hc).2, ?_⟩, fun i hi hc =>
            ⟨(hR.contin i hi hc).1, ?_⟩, rfl, rfl⟩
          · dsimp only
            rw [tab_get?, tab_get?, if_pos hi, if_pos hi, List.getD_eq_getElem?_getD, List.getD_eq_getElem?_getD, (hR.disc i hi hc).2]
          · dsimp only
            rw [tab_get?, if_pos hi, List.getD_eq_getElem?_getD, (hR.contin i hi hc).1]
            rfl
        · exact fun D _ _ => ⟨_, rfl⟩
      · rw [h2]
        refine ⟨fun D' h => (by cases h), fun D hD hall => ?_⟩
        obtain ⟨i, hi, hc, m, s, v, k1, k2, k3⟩ := hb
        have hids : D.valueIds = st.ids ∧ D.numVars = n := by
          obtain ⟨nv, _, hD⟩ := ok_of_bind hD
          obtain ⟨D1, e1, hD⟩ := ok_of_bind hD
          unfold Dataset.vector2IntArray at e1
          obtain ⟨_, _, e1⟩ := ok_of_bind e1
          cases e1
          unfold Dataset.rowMajor2ColumnMajor at hD
          obtain ⟨_, _, hD⟩ := ok_of_bind hD
          cases hD
          exact ⟨rfl, rfl⟩
        obtain ⟨f', hf'⟩ := hall i (by rw [hids.2]; exact hi) hc m (by rw [hids.1]; exact k1) s v k2
        rw [k3] at hf'
        cases hf'

/-- C97.  With no continuous variable the code is that of the discrete model, for every file. -/
theorem C97_no_continuous (file : Str) (strVal : Bool) (cls : Int) :
    loadCSVTrainingM stof file strVal cls [] =
      (loadCSVTraining file strVal cls).map (fun D => embData D (some D.allVars) (some D.columns)) ∧
    loadLIBSVMTrainingM stof file cls [] = (loadLIBSVMTraining file cls).map (fun D => embData D (some D.allVars) (some D.columns)) := by
  constructor
  · unfold loadCSVTrainingM loadCSVTraining
    obtain ⟨header, sample, f⟩ := readTwo file
    dsimp only
    generalize header.countP (· = 44) + 1 = n
    cases split (trimRight header) [44] with
    | error e => rfl
    | ok names =>
      rw [ok_bind, ok_bind]
      by_cases hnd : names.Nodup
      swap
      · rw [if_pos hnd, if_pos hnd]; rfl
      rw [if_neg (not_not_intro hnd), if_neg (not_not_intro hnd)]
      have hcell : ∀ (parsed : List Str) (p : CsvState × List (Int × Int)) (i : Nat),
          trainCellM stof [] strVal parsed ((⟨p.1.counter, p.1.ids, p.1.rows.map embRow⟩ : CsvStateM F), embRow p.2) i =
            (trainCell strVal parsed p i).map (fun p => ((⟨p.1.counter, p.1.ids, p.1.rows.map embRow⟩ : CsvStateM F), embRow p.2)) := by
        rintro parsed ⟨st, row⟩ i
        unfold trainCellM trainCell
        cases rd parsed i with
        | error e => rfl
        | ok cell =>
          rw [ok_bind, ok_bind, if_neg (by simp)]
          cases strVal with
          | false =>
            rw [if_neg (by simp), if_neg (by simp)]
            cases stoi cell with
            | error e => rfl
            | ok v => simp [ok_bind, pure_eq_ok, Except.map, embRow]
          | true =>
            rw [if_pos rfl, if_pos rfl]
            dsimp only
            cases rd st.ids i with
            | error e => rfl
            | ok m =>
              rw [ok_bind, ok_bind]
              cases m.find cell with
              | some v => simp [pure_eq_ok, Except.map, embRow]
              | none =>
                dsimp only
                cases rd st.counter i with
                | error e => rfl
                | ok c => simp [ok_bind, pure_eq_ok, Except.map, embRow]
      have hline : ∀ (st : CsvState) (x : Str), trainLineM stof [] n strVal (⟨st.counter, st.ids, st.rows.map embRow⟩ : CsvStateM F) x =
          (trainLine n strVal st x).map (fun st => (⟨st.counter, st.ids, st.rows.map embRow⟩ : CsvStateM F)) := by
        intro st x
        unfold trainLineM trainLine
        cases split (trimRight x) [44] with
        | error e => rfl
        | ok parsed =>
          rw [ok_bind, ok_bind]
          have := foldlM_emb (fun p : CsvState × List (Int × Int) => ((⟨p.1.counter, p.1.ids, p.1.rows.map embRow⟩ : CsvStateM F), embRow p.2))
            (hcell parsed) (List.range n) (st, [])
          have h0 : (embRow [] : List (Int × MVal F)) = [] := rfl
          dsimp only at this
          rw [h0] at this
          rw [this]
          cases (List.range n).foldlM (trainCell strVal parsed) (st, []) with
          | error e => rfl
          | ok p => simp [ok_bind, pure_eq_ok, Except.map]
      have hloop := doWhile_emb (fun st : CsvState => (⟨st.counter, st.ids, st.rows.map embRow⟩ : CsvStateM F)) hline (file.length + 1)
        { counter := List.replicate n (-1), ids := List.replicate n [], rows := [] } sample f
      simp only [List.map_nil] at hloop
      rw [hloop]
      cases doWhileGetline (trainLine n strVal) (file.length + 1)
          { counter := List.replicate n (-1), ids := List.replicate n [], rows := [] } sample f with
      | error e => rfl
      | ok st =>
        simp only [Except.map, ok_bind]
        cases (List.range n).mapM (fun i => (do return ((← rd st.ids i).length : Int) : Except Fault Int)) with
        | error e => rfl
        | ok nv =>
          simp only [ok_bind]
          have := arrays_emb (F := F) (D := ⟨st.rows.length, n, cls, names, st.ids, nv, [], [], st.rows⟩)
          unfold embData at this ⊢
          dsimp only at this
          rw [List.length_map]
          exact this
  · have hfeat : ∀ (p : List (Int × Int) × Int) (x : Str),
        svmTrainFeatureM stof [] ((embRow p.1 : List (Int × MVal F)), p.2) x = (svmTrainFeature p x).map (fun p => (embRow p.1, p.2)) := by
      intro p x
      unfold svmTrainFeatureM svmTrainFeature parseVal
      cases split x [58] with
      | error e => rfl
      | ok parts =>
        simp only [ok_bind, List.not_mem_nil, if_false]
        cases rd parts 0 with
        | error e => rfl
        | ok a =>
          simp only [ok_bind]
          cases stoi a with
          | error e => rfl
          | ok index =>
            simp only [ok_bind]
            cases rd parts 1 with
            | error e => rfl
            | ok b =>
              simp only [ok_bind]
              cases stoi b with
              | error e => rfl
              | ok v => simp [ok_bind, pure_eq_ok, Except.map, embRow]
    have hline : ∀ (p : List (List (Int × Int)) × Int) (x : Str),
        svmTrainLineM stof [] cls ((p.1.map embRow : List (List (Int × MVal F))), p.2) x =
          (svmTrainLine cls p x).map (fun p => (p.1.map embRow, p.2)) := by
      intro p x
      unfold svmTrainLineM svmTrainLine parseVal
      cases split (trimRight x) [32] with
      | error e => rfl
      | ok parsed =>
        simp only [ok_bind, List.not_mem_nil, if_false]
        cases rd parsed 0 with
        | error e => rfl
        | ok a =>
          simp only [ok_bind]
          cases stoi a with
          | error e => rfl
          | ok label =>
            simp only [ok_bind, pure_eq_ok]
            have := foldlM_emb (fun p : List (Int × Int) × Int => ((embRow p.1 : List (Int × MVal F)), p.2)) hfeat (parsed.drop 1)
              ([(cls, label)], p.2)
            simp only [embRow, List.map_cons, List.map_nil] at this
            rw [this]
            cases (parsed.drop 1).foldlM svmTrainFeature ([(cls, label)], p.2) with
            | error e => rfl
            | ok q => simp [ok_bind, Except.map, embRow]
    have hloop := whileGetline_emb (fun p : List (List (Int × Int)) × Int => ((p.1.map embRow : List (List (Int × MVal F))), p.2)) hline
      (file.length + 2) ([], -1) [] { rest := file }
    simp only [List.map_nil] at hloop
    unfold loadLIBSVMTrainingM loadLIBSVMTraining
    rw [hloop]
    cases whileGetline (svmTrainLine cls) (file.length + 2) ([], -1) [] { rest := file } with
    | error e => rfl
    | ok p =>
      obtain ⟨rows, m⟩ := p
      simp only [Except.map, ok_bind]
      have := arrays_emb (F := F) (D := ⟨rows.length, (m + 1).toNat, cls, (List.range (m + 1).toNat).map (fun i : Nat => intToStr i), [], [], [], [], rows⟩)
      unfold embData at this ⊢
      dsimp only at this
      rw [List.length_map, this]
      cases Dataset.vector2IntArray ⟨rows.length, (m + 1).toNat, cls, (List.range (m + 1).toNat).map (fun i : Nat => intToStr i), [], [], [], [], rows⟩ with
      | error e => rfl
      | ok D1 =>
        simp only [ok_bind]
        cases D1.rowMajor2ColumnMajor with
        | error e => rfl
        | ok D2 =>
          simp only [ok_bind, Except.map, derefArr]
          cases (List.range (m + 1).toNat).mapM (fun i => (do
              let m ← (List.range D2.numInstance).foldlM (fun (m : Int) j => (do
                let v ← rd (← rd D2.columns i) j
                return if v > m then v else m : Except Fault Int)) (-1)
              return m + 1 : Except Fault Int)) with
          | error e => rfl
          | ok nv => rfl

/-- The result of loading test data does not depend on the arrays; with no continuous variable it is that of the discrete model. -/
theorem C97_no_continuous_test (zero : F) (D : Dataset) (all cols : Option (List (List Int))) (file : Str) (cls : Int) :
    (embData D all cols).loadLIBSVMTesting stof zero file cls [] = (D.loadLIBSVMTesting file cls).map (fun D' => embData D' all cols) := by
  have hwr : ∀ (row : List (Int × Int)) (i : Int) (v : Int × Int),
      wrI (embRow row : List (Int × MVal F)) i (v.1, .int v.2) = (wrI row i v).map embRow := by
    intro row i v
    unfold wrI wr embRow
    by_cases h1 : i < 0
    · rw [if_pos h1, if_pos h1]; rfl
    rw [if_neg h1, if_neg h1, List.length_map]
    by_cases h2 : i.toNat < row.length
    · rw [if_pos h2, if_pos h2]
      simp [Except.map, List.map_set]
    · rw [if_neg h2, if_neg h2]; rfl
  have hfeat : ∀ (row : List (Int × Int)) (x : Str),
      svmTestFeatureM stof [] D.numVars (embRow row : List (Int × MVal F)) x = (svmTestFeature D.numVars row x).map embRow := by
    intro row x
    unfold svmTestFeatureM svmTestFeature parseVal
    cases split x [58] with
    | error e => rfl
    | ok parts =>
      simp only [ok_bind, List.not_mem_nil, if_false]
      cases rd parts 0 with
      | error e => rfl
      | ok a =>
        simp only [ok_bind]
        cases stoi a with
        | error e => rfl
        | ok index =>
          simp only [ok_bind]
          by_cases h : index ≥ D.numVars
          · rw [if_pos h, if_pos h]; rfl
          rw [if_neg h, if_neg h]
          cases rd parts 1 with
          | error e => rfl
          | ok b =>
            simp only [ok_bind]
            cases stoi b with
            | error e => rfl
            | ok v => exact hwr row index (index, v)
  have hline : ∀ (rows : List (List (Int × Int))) (x : Str),
      svmTestLineM stof zero [] D.numVars cls (rows.map embRow : List (List (Int × MVal F))) x = (svmTestLine D.numVars cls rows x).map (List.map embRow) := by
    intro rows x
    unfold svmTestLineM svmTestLine parseVal
    cases split (trimRight x) [32] with
    | error e => rfl
    | ok parsed =>
      simp only [ok_bind, List.not_mem_nil, if_false]
      cases rd parsed 0 with
      | error e => rfl
      | ok a =>
        simp only [ok_bind]
        cases stoi a with
        | error e => rfl
        | ok label =>
          simp only [ok_bind, pure_eq_ok]
          have h0 : ((List.range D.numVars).map (fun i : Nat => ((i : Int), (MVal.int 0 : MVal F)))) =
              embRow ((List.range D.numVars).map (fun i : Nat => ((i : Int), (0 : Int)))) := by
            simp [embRow]
          have := hwr ((List.range D.numVars).map (fun i : Nat => ((i : Int), (0 : Int)))) cls (cls, label)
          rw [← h0] at this
          rw [this]
          cases wrI ((List.range D.numVars).map (fun i : Nat => ((i : Int), (0 : Int)))) cls (cls, label) with
          | error e => rfl
          | ok row =>
            simp only [Except.map, ok_bind]
            rw [foldlM_emb (embRow (F := F)) hfeat]
            cases (parsed.drop 1).foldlM (svmTestFeature D.numVars) row with
            | error e => rfl
            | ok row' => simp [Except.map, ok_bind]
  unfold MDataset.loadLIBSVMTesting Dataset.loadLIBSVMTesting
  obtain ⟨sample, f⟩ := getline { rest := file } []
  dsimp only [embData]
  rw [whileNotEof_emb (List.map (embRow (F := F))) hline]
  cases whileNotEof (svmTestLine D.numVars cls) (file.length + 2) D.rows sample f with
  | error e => rfl
  | ok rows => simp [Except.map, ok_bind, pure_eq_ok]

/-! ### LIBSVM -/

/-- C97 (finding).  Loading LIBSVM training data with a continuous variable never succeeds if the file has a feature: the numbers of values are
counted in the column array, which is not made. -/
theorem C97_libsvm_training_ub {file : Str} {cls : Int} {D : MDataset F} (h : loadLIBSVMTrainingM stof file cls cont = .ok D) :
    cont = [] ∨ D.numVars = 0 ∨ D.rows = [] := by
  by_cases hc : cont = []
  · exact .inl hc
  right
  unfold loadLIBSVMTrainingM MDataset.arrays at h
  obtain ⟨⟨rows, m⟩, _, h⟩ := ok_of_bind h
  simp only [if_neg hc, ok_bind] at h
  obtain ⟨nv, h1, h⟩ := ok_of_bind h
  cases h
  by_cases hn : (m + 1).toNat = 0
  · exact .inl hn
  right
  obtain ⟨n', hn'⟩ : ∃ n', (m + 1).toNat = n' + 1 := ⟨(m + 1).toNat - 1, by omega⟩
  cases rows with
  | nil => rfl
  | cons r rows =>
    exfalso
    rw [hn', List.range_succ_eq_map, List.mapM_cons] at h1
    obtain ⟨v, h1, _⟩ := ok_of_bind h1
    obtain ⟨v, h1, _⟩ := ok_of_bind h1
    rw [List.length_cons, List.range_succ_eq_map, List.foldlM_cons] at h1
    obtain ⟨v, h1, _⟩ := ok_of_bind h1
    cases h1

/-- Two loops over the same texts: if the first succeeds, so does the second, with related results. -/
theorem foldlM_related {σ τ α : Type} {R : σ → τ → Prop} {b1 : σ → α → Except Fault σ} {b2 : τ → α → Except Fault τ}
    (h : ∀ s t x s', R s t → b1 s x = .ok s' → ∃ t', b2 t x = .ok t' ∧ R s' t') :
    ∀ (l : List α) (s : σ) (t : τ) (s' : σ), R s t → l.foldlM b1 s = .ok s' → ∃ t', l.foldlM b2 t = .ok t' ∧ R s' t' := by
  intro l
  induction l with
  | nil => intro s t s' hr e; cases e; exact ⟨t, rfl, hr⟩
  | cons a l ih =>
    intro s t s' hr e
    rw [List.foldlM_cons] at e
    obtain ⟨s1, e1, e⟩ := ok_of_bind e
    obtain ⟨t1, f1, hr1⟩ := h s t a s1 hr e1
    obtain ⟨t2, f2, hr2⟩ := ih s1 t1 s' hr1 e
    refine ⟨t2, ?_, hr2⟩
    rw [List.foldlM_cons, f1, ok_bind, f2]

theorem parseVal_ok (hst : ∀ s v, stoi s = .ok v → ∃ x, stof s = .ok x) (index : Int) {s : Str} {v : Int} (h : stoi s = .ok v) :
    ∃ x, parseVal stof cont index s = .ok x := by
  unfold parseVal
  split
  · obtain ⟨x, hx⟩ := hst s v h
    exact ⟨_, by rw [hx, ok_bind]; rfl⟩
  · exact ⟨_, by rw [h, ok_bind]; rfl⟩

/-- C97 (finding).  Loading LIBSVM training data that load as discrete data, with some variable declared continuous, is undefined behaviour: the
column array is read, which was not made.  (`stof` accepts what `stoi` accepts.) -/
theorem C97_libsvm_training_null (hst : ∀ s v, stoi s = .ok v → ∃ x, stof s = .ok x) (hc : cont ≠ []) {file : Str} {cls : Int} {D : Dataset}
    (hD : loadLIBSVMTraining file cls = .ok D) (hv : D.numVars ≠ 0) (hr : D.rows ≠ []) :
    loadLIBSVMTrainingM stof file cls cont = .error .ub := by
  unfold loadLIBSVMTraining at hD
  obtain ⟨⟨rows, m⟩, e0, hD⟩ := ok_of_bind hD
  dsimp only at hD
  obtain ⟨D1, e1, hD⟩ := ok_of_bind hD
  obtain ⟨D2, e2, hD⟩ := ok_of_bind hD
  obtain ⟨nv, e3, hD⟩ := ok_of_bind hD
  cases hD
  unfold Dataset.vector2IntArray at e1
  obtain ⟨all, _, e1⟩ := ok_of_bind e1
  cases e1
  unfold Dataset.rowMajor2ColumnMajor at e2
  obtain ⟨cols, _, e2⟩ := ok_of_bind e2
  cases e2
  dsimp only at hv hr
  rw [whileGetline_lines _ _ _ (by omega)] at e0
  obtain ⟨⟨rows', m'⟩, f0, hlen, hm⟩ := foldlM_related (R := fun (p : List (List (Int × Int)) × Int) (q : List (List (Int × MVal F)) × Int) =>
      p.1.length = q.1.length ∧ p.2 = q.2) (b1 := svmTrainLine cls) (b2 := svmTrainLineM stof cont cls) (by
    rintro ⟨ps, pm⟩ ⟨qs, qm⟩ x s' ⟨hl, hm⟩ e
    dsimp only at hl hm
    subst hm
    unfold svmTrainLine at e
    obtain ⟨parsed, a1, e⟩ := ok_of_bind e
    obtain ⟨lt, a2, e⟩ := ok_of_bind e
    obtain ⟨lv, a3, e⟩ := ok_of_bind e
    obtain ⟨⟨row, m1⟩, a4, e⟩ := ok_of_bind e
    cases e
    obtain ⟨lv', b3⟩ := parseVal_ok (cont := cont) hst 0 a3
    obtain ⟨⟨row', m1'⟩, b4, hm1⟩ := foldlM_related (R := fun (p : List (Int × Int) × Int) (q : List (Int × MVal F) × Int) => p.2 = q.2)
        (b1 := svmTrainFeature) (b2 := svmTrainFeatureM stof cont) (by
      rintro ⟨p1, p2⟩ ⟨q1, q2⟩ x s' h e
      dsimp only at h
      subst h
      unfold svmTrainFeature at e
      obtain ⟨parts, c1, e⟩ := ok_of_bind e
      obtain ⟨it, c2, e⟩ := ok_of_bind e
      obtain ⟨index, c3, e⟩ := ok_of_bind e
      obtain ⟨vt, c4, e⟩ := ok_of_bind e
      obtain ⟨v, c5, e⟩ := ok_of_bind e
      cases e
      obtain ⟨v', d5⟩ := parseVal_ok (cont := cont) hst index c5
      refine ⟨(q1 ++ [(index, v')], if index > p2 then index else p2), ?_, ?_⟩
      · unfold svmTrainFeatureM
        rw [c1, ok_bind, c2, ok_bind, c3, ok_bind, c4, ok_bind, d5, ok_bind]
        rfl
      · rfl) _ _ ([(cls, lv')], pm) _ rfl a4
    dsimp only at hm1
    subst hm1
    refine ⟨(qs ++ [row'], m1), ?_, by simp [hl], rfl⟩
    unfold svmTrainLineM
    rw [a1, ok_bind, a2, ok_bind, b3, ok_bind, b4, ok_bind]
    rfl) _ _ ([], -1) _ ⟨rfl, rfl⟩ e0
  dsimp only at hlen hm
  subst hm
  unfold loadLIBSVMTrainingM MDataset.arrays
  rw [whileGetline_lines _ _ _ (by omega), f0, ok_bind]
  simp only [if_neg hc, ok_bind]
  obtain ⟨n', hn'⟩ : ∃ n', (m + 1).toNat = n' + 1 := ⟨(m + 1).toNat - 1, by omega⟩
  obtain ⟨k, hk⟩ : ∃ k, rows'.length = k + 1 := by
    cases rows with
    | nil => exact absurd rfl hr
    | cons a l => exact ⟨l.length, by rw [← hlen]; rfl⟩
  rw [hn', List.range_succ_eq_map (n := n'), List.mapM_cons, hk, List.range_succ_eq_map (n := k), List.foldlM_cons]
  rfl

/-- A row with one entry per variable, in order, of the right kinds. -/
def KindRow (cont : List Int) (n : Nat) (row : List (Int × MVal F)) : Prop :=
  row.length = n ∧ ∀ (i : Nat) (vv : Int × MVal F), row[i]? = some vv → vv.1 = i ∧ RightKind cont vv

/-- C97.  Test data: if the label column agrees with the class variable about being continuous, every row has one entry per variable, in order,
and each value has the kind of its variable. -/
theorem C97_test_kinds {zero : F} {D D' : MDataset F} {file : Str} {cls : Int} (hl : (0 : Int) ∈ cont ↔ cls ∈ cont)
    (h : D.loadLIBSVMTesting stof zero file cls cont = .ok D') :
    ∃ new, D'.rows = D.rows ++ new ∧ ∀ row ∈ new, row.length = D.numVars ∧
      ∀ (i : Nat) (vv : Int × MVal F), row[i]? = some vv → vv.1 = i ∧ RightKind cont vv := by
  have hparse : ∀ {index : Int} {s : Str} {v : MVal F}, parseVal stof cont index s = .ok v → ((∃ f, v = .flt f) ↔ index ∈ cont) := by
    intro index s v hv
    unfold parseVal at hv
    by_cases hi : index ∈ cont
    · rw [if_pos hi] at hv
      obtain ⟨f, _, hv⟩ := ok_of_bind hv
      cases hv
      exact ⟨fun _ => hi, fun _ => ⟨f, rfl⟩⟩
    · rw [if_neg hi] at hv
      obtain ⟨f, _, hv⟩ := ok_of_bind hv
      cases hv
      exact ⟨fun ⟨g, hg⟩ => (by cases hg), fun hc => absurd hc hi⟩
  have hwr : ∀ {row row' : List (Int × MVal F)} {index : Int} {v : MVal F}, wrI row index (index, v) = .ok row' → ((∃ f, v = .flt f) ↔ index ∈ cont) →
      KindRow cont D.numVars row → KindRow cont D.numVars row' := by
    intro row row' index v hw hv hk
    unfold wrI at hw
    by_cases hneg : index < 0
    · rw [if_pos hneg] at hw; cases hw
    rw [if_neg hneg] at hw
    unfold wr at hw
    by_cases hlt : index.toNat < row.length
    swap
    · rw [if_neg hlt] at hw; cases hw
    rw [if_pos hlt] at hw
    cases hw
    refine ⟨by rw [List.length_set]; exact hk.1, fun i vv hi => ?_⟩
    rw [List.getElem?_set] at hi
    by_cases he : index.toNat = i
    · rw [if_pos he, if_pos (by omega)] at hi
      cases hi
      exact ⟨by dsimp only; omega, hv⟩
    · rw [if_neg he] at hi
      exact hk.2 i vv hi
  have hfeat : ∀ (l : List Str) (row row' : List (Int × MVal F)), l.foldlM (svmTestFeatureM stof cont D.numVars) row = .ok row' →
      KindRow cont D.numVars row → KindRow cont D.numVars row' := by
    intro l
    induction l with
    | nil => intro row row' h hk; cases h; exact hk
    | cons x l ih =>
      intro row row' h hk
      rw [List.foldlM_cons] at h
      obtain ⟨r1, h1, h⟩ := ok_of_bind h
      refine ih r1 row' h ?_
      unfold svmTestFeatureM at h1
      obtain ⟨parts, _, h1⟩ := ok_of_bind h1
      obtain ⟨a, _, h1⟩ := ok_of_bind h1
      obtain ⟨index, _, h1⟩ := ok_of_bind h1
      by_cases hge : index ≥ D.numVars
      · rw [if_pos hge] at h1
        cases h1
        exact hk
      · rw [if_neg hge] at h1
        obtain ⟨b, _, h1⟩ := ok_of_bind h1
        obtain ⟨v, hv, h1⟩ := ok_of_bind h1
        exact hwr h1 (hparse hv) hk
  have hline : ∀ (rows rows' : List (List (Int × MVal F))) (x : Str), svmTestLineM stof zero cont D.numVars cls rows x = .ok rows' →
      ∃ row, rows' = rows ++ [row] ∧ KindRow cont D.numVars row := by
    intro rows rows' x h
    unfold svmTestLineM at h
    obtain ⟨parsed, _, h⟩ := ok_of_bind h
    obtain ⟨a, _, h⟩ := ok_of_bind h
    obtain ⟨label, hlab, h⟩ := ok_of_bind h
    obtain ⟨r1, h1, h⟩ := ok_of_bind h
    obtain ⟨r2, h2, h⟩ := ok_of_bind h
    cases h
    refine ⟨r2, rfl, hfeat _ _ _ h2 (hwr h1 ((hparse hlab).trans hl) ⟨by simp, fun i vv hi => ?_⟩)⟩
    rw [List.getElem?_map] at hi
    by_cases hlt : i < D.numVars
    · rw [List.getElem?_range hlt] at hi
      cases hi
      refine ⟨rfl, ?_⟩
      by_cases hc : (i : Int) ∈ cont
      · simp [RightKind, hc]
      · simp [RightKind, hc]
    · rw [List.getElem?_eq_none (by simpa using hlt)] at hi
      cases hi
  have hloop : ∀ (fuel : Nat) (rows rows' : List (List (Int × MVal F))) (sample : Str) (f : InFile),
      whileNotEof (svmTestLineM stof zero cont D.numVars cls) fuel rows sample f = .ok rows' →
      ∃ new, rows' = rows ++ new ∧ ∀ row ∈ new, KindRow cont D.numVars row := by
    intro fuel
    induction fuel with
    | zero => intro rows rows' sample f h; cases h
    | succ fuel ih =>
      intro rows rows' sample f h
      unfold whileNotEof at h
      by_cases he : f.eof = true
      · rw [if_pos he] at h
        cases h
        exact ⟨[], by simp, by simp⟩
      · rw [if_neg he] at h
        obtain ⟨r1, h1, h⟩ := ok_of_bind h
        obtain ⟨row, rfl, hk⟩ := hline _ _ _ h1
        obtain ⟨new, rfl, hn⟩ := ih _ _ _ _ h
        refine ⟨row :: new, by simp, fun r hr => ?_⟩
        rcases List.mem_cons.mp hr with rfl | hr
        · exact hk
        · exact hn r hr
  unfold MDataset.loadLIBSVMTesting at h
  obtain ⟨rows', h1, h⟩ := ok_of_bind h
  obtain ⟨new, e, hn⟩ := hloop _ _ _ _ _ h1
  cases h
  exact ⟨new, e, hn⟩

/-! ### Storing -/

/-- C97 (finding).  Data with a continuous value cannot be stored: `StoreCSVData` asks every value for its integer. -/
theorem C97_store_float {D : MDataset F} {strVal : Bool} {out : Str} (h : D.storeCSV strVal = .ok out) :
    ∀ (i : Nat), i < D.numInstance → ∀ row, D.rows[i]? = some row → ∀ vv ∈ row, ∃ n, vv.2 = .int n := by
  unfold MDataset.storeCSV at h
  split at h
  · cases h
  split at h
  · cases h
  obtain ⟨names, _, h⟩ := ok_of_bind h
  have hrow : ∀ (row : List (Int × MVal F)) (v v' : List Str), row.foldlM (storeCellM D strVal) v = .ok v' → ∀ vv ∈ row, ∃ n, vv.2 = .int n := by
    intro row
    induction row with
    | nil => simp
    | cons x row ih =>
      intro v v' hr
      rw [List.foldlM_cons] at hr
      obtain ⟨v1, hx, hr⟩ := ok_of_bind hr
      intro vv hvv
      rcases List.mem_cons.mp hvv with rfl | hvv
      · unfold storeCellM at hx
        obtain ⟨n, hn, _⟩ := ok_of_bind hx
        cases hk : vv.2 with
        | int i => exact ⟨i, rfl⟩
        | flt f => rw [hk] at hn; cases hn
      · exact ih _ _ hr vv hvv
  have hall : ∀ (l : List Nat) (o o' : Str), l.foldlM (fun out i => (do
      let row ← rd D.rows i
      let value ← row.foldlM (storeCellM D strVal) (List.replicate D.numVars [])
      let sample ← popBack (value.flatMap (fun v => v ++ [44]))
      return out ++ sample ++ [10] : Except Fault Str)) o = .ok o' →
      ∀ i ∈ l, ∀ row, D.rows[i]? = some row → ∀ vv ∈ row, ∃ n, vv.2 = .int n := by
    intro l
    induction l with
    | nil => simp
    | cons x l ih =>
      intro o o' hr i hi row hrw
      rw [List.foldlM_cons] at hr
      obtain ⟨o1, hx, hr⟩ := ok_of_bind hr
      rcases List.mem_cons.mp hi with rfl | hi
      · obtain ⟨row', e, hx⟩ := ok_of_bind hx
        obtain ⟨v, e2, _⟩ := ok_of_bind hx
        have := rd_eq_ok.mp e
        rw [hrw] at this
        cases this
        exact hrow _ _ _ e2
      · exact ih _ _ hr i hi row hrw
  exact fun i hi => hall _ _ _ h i (List.mem_range.mpr hi)

/-- C97.  Without continuous values storing is that of the discrete model. -/
theorem C97_store_discrete (D : Dataset) (all cols : Option (List (List Int))) (strVal : Bool) :
    (embData D all cols : MDataset F).storeCSV strVal = D.storeCSV strVal := by
  have hrd : ∀ i, rd (D.rows.map (embRow (F := F))) i = (rd D.rows i).map embRow := by
    intro i
    unfold rd
    rw [List.getElem?_map]
    cases D.rows[i]? <;> rfl
  have hrow : ∀ (row : List (Int × Int)) (v : List Str),
      (embRow row).foldlM (storeCellM (embData D all cols : MDataset F) strVal) v = row.foldlM (storeCell D strVal) v := by
    intro row v
    unfold embRow
    rw [List.foldlM_map]
    rfl
  unfold MDataset.storeCSV Dataset.storeCSV
  dsimp only [embData]
  congr 2
  cases popBack (D.varNames.flatMap (fun n => n ++ [44])) with
  | error e => rfl
  | ok names =>
    simp only [ok_bind]
    congr 1
    funext out i
    rw [hrd]
    cases rd D.rows i with
    | error e => rfl
    | ok row =>
      simp only [Except.map, ok_bind]
      have := hrow row (List.replicate D.numVars [])
      unfold embData at this
      rw [this]

/-! ### Examples and witnesses -/

/-- A `stof` for the examples: floats are kept as their text. -/
def exStof (s : Str) : Except Fault Str :=
  if s ≠ [] ∧ s.all (fun c => (48 ≤ c ∧ c ≤ 57) ∨ c = 46) then .ok s else .error .throw

/-- A CSV file with the continuous column 1 loads; the numbers are in place and the codes of column 0 are as ever. -/
example : loadCSVTrainingM exStof (lit "a,b\nx,1.5\ny,2\nx,7\n") true 0 [1] = .ok
    { numInstance := 3, numVars := 2, classVar := 0, varNames := [lit "a", lit "b"], valueIds := [[(lit "x", 0), (lit "y", 1)], []],
      numValues := [2, 0], rows := [[(0, .int 0), (1, .flt (lit "1.5"))], [(0, .int 1), (1, .flt (lit "2"))], [(0, .int 0), (1, .flt (lit "7"))]] } := by
  decide +kernel

/-- One text that is no number makes it throw, and the discrete load does not. -/
example : loadCSVTrainingM exStof (lit "a,b\nx,1.5\ny,z\n") true 0 [1] = .error .throw ∧
    (loadCSVTraining (lit "a,b\nx,1.5\ny,z\n") true 0).isOk = true := by
  decide +kernel

/-- Line by line the LIBSVM data are fine; the null pointer is then read. -/
example : loadLIBSVMTrainingM exStof (lit "1 1:2.5\n") 0 [1] = .error .ub ∧ (loadLIBSVMTrainingM exStof (lit "1 1:2\n") 0 []).isOk = true := by
  decide +kernel

/-- Test data with a continuous variable load; the hypothesis of `C97_test_kinds` holds as neither 0 nor the class variable 0 is continuous. -/
example : ((({ numVars := 3 } : MDataset Str).loadLIBSVMTesting exStof (lit "0") (lit "1 1:2.5\n") 0 [1]).map (·.rows)) =
    .ok [[(0, .int 1), (1, .flt (lit "2.5")), (2, .int 0)]] ∧ ((0 : Int) ∈ [(1 : Int)] ↔ (0 : Int) ∈ [(1 : Int)]) := by
  decide +kernel

/-- C97 (finding).  The kind of the label is decided by variable 0 and not by the class variable: the label 1.5 of a continuous class variable 2 is
stored as the integer 1, and a label of a discrete class variable 1 is stored as a `float` when variable 0 is continuous. -/
theorem C97_label_kind :
    ((({ numVars := 3 } : MDataset Str).loadLIBSVMTesting exStof (lit "0") (lit "1.5 0:1\n") 2 [2]).map (·.rows)) =
      .ok [[(0, .int 1), (1, .int 0), (2, .int 1)]] ∧
    ((({ numVars := 2 } : MDataset Str).loadLIBSVMTesting exStof (lit "0") (lit "1 0:7\n") 1 [0]).map (·.rows)) =
      .ok [[(0, .flt (lit "7")), (1, .flt (lit "1"))]] := by
  decide +kernel

/-- The same when training data are loaded: the label .5 of a discrete class variable 2 is accepted as a number when variable 0 is continuous (the
program then reads the null pointer), and the label .5 of a continuous class variable 2 is refused. -/
theorem C97_label_kind_training :
    loadLIBSVMTrainingM exStof (lit ".5 1:1\n") 2 [0] = .error .ub ∧ loadLIBSVMTrainingM exStof (lit ".5 1:1\n") 2 [2] = .error .throw := by
  decide +kernel

/-- The hypotheses of `C97_libsvm_training_null` are met with a `stof` that refuses nothing. -/
example : (∀ s v, stoi s = .ok v → ∃ x, (fun s : Str => (.ok s : Except Fault Str)) s = .ok x) ∧
    (loadLIBSVMTraining (lit "1 1:2\n") 0).map (fun D => (D.numVars, D.rows)) = .ok (2, [[(0, 1), (1, 2)]]) :=
  ⟨fun s _ _ => ⟨s, rfl⟩, by decide +kernel⟩

/-- Storing what was loaded from the first example fails. -/
example : (do (← loadCSVTrainingM exStof (lit "a,b\nx,1.5\ny,2\nx,7\n") true 0 [1]).storeCSV true : Except Fault Str) = .error .exit := by
  decide +kernel

end FastPGM
