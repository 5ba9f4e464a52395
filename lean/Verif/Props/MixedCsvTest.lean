import Verif.Model.MixedCsvTest
import Verif.Props.MixedDataset
import Verif.Props.Dataset

/-!
Loading test data with continuous variables from a CSV file (C125).
-/

namespace FastPGM

open Spec

variable {F : Type} {stof : Str → Except Fault F} {cont : List Int}

/-- What is kept of cell `j`. -/
def testEntryM (stof : Str → Except Fault F) (cont : List Int) (ids : List ValueMap) (r : List Str) (j : Nat) : Option (Int × MVal F) :=
  if (j : Int) ∈ cont then
    match stof (cellText r j) with
    | .ok f => some ((j : Int), .flt f)
    | .error _ => none
  else if cellText r j = [] then none else ((ids.getD j []).find (cellText r j)).map (fun v => ((j : Int), .int v))

theorem testLineM_eq {n : Nat} (hn : 0 < n) {ids : List ValueMap} (hids : n ≤ ids.length) (rows : List (List (Int × MVal F))) {r : List Str}
    (hr : CleanRow n r) (hnum : ∀ j < n, (j : Int) ∈ cont → ∃ f, stof (cellText r j) = .ok f) :
    testLineM stof cont ids n true rows (csvLine r) = .ok (rows ++ [(List.range n).filterMap (testEntryM stof cont ids r)]) := by
  unfold testLineM
  rw [split_line hn hr, ok_bind]
  have h := foldlM_range_eq (f := testCellM stof cont ids true (cellTexts r)) (s := fun i => (List.range i).filterMap (testEntryM stof cont ids r))
    (n := n) (by
      intro i hi
      rw [filterMap_range_snoc]
      unfold testCellM testEntryM
      rw [cellTexts, hr.1, rd_tab hi, ok_bind]
      by_cases hco : (i : Int) ∈ cont
      · obtain ⟨f, hf⟩ := hnum i hi hco
        rw [if_pos hco, if_pos hco, hf, ok_bind]
        rfl
      rw [if_neg hco, if_neg hco]
      by_cases hc : cellText r i = []
      · rw [if_pos hc, if_pos hc]; simp
      · rw [if_neg hc, if_neg hc]
        have hi' : i < ids.length := by omega
        simp only [if_true]
        rw [rd_getElem hi', ok_bind]
        have e : ids.getD i [] = ids[i] := by simp [hi']
        rw [e]
        cases ValueMap.find ids[i] (cellText r i) <;> simp)
  rw [show (List.range 0).filterMap (testEntryM stof cont ids r) = [] from rfl] at h
  rw [h, ok_bind]
  rfl

theorem testLinesM {n : Nat} (hn : 0 < n) {ids : List ValueMap} (hids : n ≤ ids.length) {T : List (List Str)} (hT : ∀ r ∈ T, CleanRow n r)
    (hnum : ∀ r ∈ T, ∀ j < n, (j : Int) ∈ cont → ∃ f, stof (cellText r j) = .ok f) :
    ∀ rows, (T.map csvLine).foldlM (testLineM stof cont ids n true) rows =
      .ok (rows ++ T.map (fun r => (List.range n).filterMap (testEntryM stof cont ids r))) := by
  induction T with
  | nil => intro rows; simp
  | cons r T ih =>
    intro rows
    rw [List.map_cons, List.foldlM_cons, testLineM_eq hn hids rows (hT r (by simp)) (hnum r (by simp)), ok_bind,
      ih (fun x hx => hT x (by simp [hx])) (fun x hx => hnum x (by simp [hx]))]
    simp

/-- A fold that succeeds takes every step with success. -/
theorem foldlM_step_ok {α σ : Type} {f : σ → α → Except Fault σ} : ∀ {l : List α} {s t : σ}, l.foldlM f s = .ok t →
    ∀ x ∈ l, ∃ u v, f u x = .ok v := by
  intro l
  induction l with
  | nil => intro s t _ x hx; cases hx
  | cons a l ih =>
    intro s t h x hx
    rw [List.foldlM_cons] at h
    obtain ⟨u, hu, h⟩ := ok_of_bind h
    rcases List.mem_cons.1 hx with rfl | hx
    · exact ⟨s, u, hu⟩
    · exact ih h x hx

theorem testLineM_ok {n : Nat} (hn : 0 < n) {ids : List ValueMap} {rows rows' : List (List (Int × MVal F))} {r : List Str}
    (hr : CleanRow n r) {strVal : Bool} (h : testLineM stof cont ids n strVal rows (csvLine r) = .ok rows') :
    ∀ j < n, (j : Int) ∈ cont → ∃ f, stof (cellText r j) = .ok f := by
  intro j hj hco
  unfold testLineM at h
  rw [split_line hn hr, ok_bind] at h
  obtain ⟨row, h, _⟩ := ok_of_bind h
  obtain ⟨u, v, h⟩ := foldlM_step_ok h j (List.mem_range.2 hj)
  unfold testCellM at h
  rw [cellTexts, hr.1, rd_tab hj, ok_bind, if_pos hco] at h
  obtain ⟨f, hf, _⟩ := ok_of_bind h
  exact ⟨f, hf⟩

/-- C125.  Loading a CSV file with text values as test data succeeds exactly if the text of every cell in a continuous column is a number; an empty
cell is none, although an empty cell of a discrete column is accepted and left out. -/
theorem C125_succeeds {D : MDataset F} (hn : 0 < D.numVars) (hids : D.numVars ≤ D.valueIds.length) {names : List Str} {T : List (List Str)}
    {file : Str} (hf : CsvFile names T file) (hnames : CleanRow D.numVars names) (hT : ∀ r ∈ T, CleanRow D.numVars r) (hne : T ≠ []) (cls : Int) :
    (∃ D', D.loadCSVTesting stof file true cls cont = .ok D') ↔
      ∀ r ∈ T, ∀ j < D.numVars, (j : Int) ∈ cont → ∃ f, stof (cellText r j) = .ok f := by
  have hv : D.valueIds ≠ [] := by
    intro e
    rw [e] at hids
    simp at hids
    omega
  obtain ⟨_, h2⟩ := csvFile_read hf (csvLine_newline (fun c hc => (hnames.2 c hc).2)) (cleanLines hT) hne
    (testLineM stof cont D.valueIds D.numVars true) D.rows
  unfold MDataset.loadCSVTesting
  rw [if_neg (by simp [hv])]
  rcases e' : readTwo file with ⟨header, sample, f⟩
  rw [e'] at h2
  simp only at h2 ⊢
  rw [h2]
  constructor
  · rintro ⟨D', h⟩ r hr
    obtain ⟨rows, h, _⟩ := ok_of_bind h
    obtain ⟨u, v, h⟩ := foldlM_step_ok h (csvLine r) (List.mem_map_of_mem hr)
    exact testLineM_ok hn (hT r hr) h
  · intro hnum
    rw [testLinesM hn hids hT hnum, ok_bind]
    exact ⟨_, rfl⟩

/-- C125.  Loading a CSV file as test data, for any value maps: the rows are added in their order.  Of a row every cell in a continuous column is
kept, with the number its text denotes, and of the other cells exactly those whose text is not empty and occurs in the value map of its column, with
the code found there; the order is the order of the columns. -/
theorem C125_rows {D D' : MDataset F} (hn : 0 < D.numVars) (hids : D.numVars ≤ D.valueIds.length) {names : List Str} {T : List (List Str)}
    {file : Str} (hf : CsvFile names T file) (hnames : CleanRow D.numVars names) (hT : ∀ r ∈ T, CleanRow D.numVars r) (hne : T ≠ []) {cls : Int}
    (h : D.loadCSVTesting stof file true cls cont = .ok D') :
    ∃ new : List (List (Int × MVal F)), D' = { D with rows := D.rows ++ new, numInstance := D.rows.length + T.length, classVar := cls } ∧
      new.length = T.length ∧ ∀ (i : Nat) (hi : i < T.length), ∃ row, new[i]? = some row ∧ row.Pairwise (fun p q => p.1 < q.1) ∧
        (∀ (k : Int) (f : F), (k, MVal.flt f) ∈ row ↔ ∃ j : Nat, j < D.numVars ∧ k = j ∧ k ∈ cont ∧ stof (cellText T[i] j) = .ok f) ∧
        (∀ k v : Int, (k, MVal.int v) ∈ row ↔ ∃ j : Nat, j < D.numVars ∧ k = j ∧ k ∉ cont ∧ cellText T[i] j ≠ [] ∧
          ∃ m, D.valueIds[j]? = some m ∧ m.find (cellText T[i] j) = some v) := by
  have hnum := (C125_succeeds hn hids hf hnames hT hne cls).1 ⟨D', h⟩
  have hv : D.valueIds ≠ [] := by
    intro e
    rw [e] at hids
    simp at hids
    omega
  obtain ⟨_, h2⟩ := csvFile_read hf (csvLine_newline (fun c hc => (hnames.2 c hc).2)) (cleanLines hT) hne
    (testLineM stof cont D.valueIds D.numVars true) D.rows
  unfold MDataset.loadCSVTesting at h
  rw [if_neg (by simp [hv])] at h
  rcases e' : readTwo file with ⟨header, sample, f⟩
  rw [e'] at h2 h
  simp only at h2 h
  rw [h2, testLinesM hn hids hT hnum, ok_bind] at h
  cases h
  have hkey : ∀ (r : List Str) (c : Nat) (x : Int × MVal F), testEntryM stof cont D.valueIds r c = some x → x.1 = c := by
    intro r c x hx
    unfold testEntryM at hx
    split at hx
    · split at hx
      · cases hx; rfl
      · cases hx
    · split at hx
      · cases hx
      · rw [Option.map_eq_some_iff] at hx
        obtain ⟨v, _, rfl⟩ := hx
        rfl
  refine ⟨T.map (fun r => (List.range D.numVars).filterMap (testEntryM stof cont D.valueIds r)), by simp, by simp, fun i hi => ?_⟩
  refine ⟨_, by rw [List.getElem?_map, List.getElem?_eq_getElem hi]; rfl, ?_, fun k f => ?_, fun k v => ?_⟩
  · rw [List.pairwise_filterMap]
    refine List.Pairwise.imp ?_ List.pairwise_lt_range
    intro a b hab p hp q hq
    rw [hkey _ _ _ hp, hkey _ _ _ hq]
    omega
  · rw [List.mem_filterMap]
    constructor
    · rintro ⟨j, hj, he⟩
      have hk : k = j := hkey _ _ _ he
      subst hk
      refine ⟨j, List.mem_range.1 hj, rfl, ?_⟩
      unfold testEntryM at he
      by_cases hco : (j : Int) ∈ cont
      · rw [if_pos hco] at he
        refine ⟨hco, ?_⟩
        split at he
        · cases he; assumption
        · cases he
      · rw [if_neg hco] at he
        split at he
        · cases he
        · rw [Option.map_eq_some_iff] at he
          obtain ⟨v, _, he⟩ := he
          cases he
    · rintro ⟨j, hj, rfl, hco, hs⟩
      refine ⟨j, List.mem_range.2 hj, ?_⟩
      unfold testEntryM
      rw [if_pos hco, hs]
  · rw [List.mem_filterMap]
    constructor
    · rintro ⟨j, hj, he⟩
      have hk : k = j := hkey _ _ _ he
      subst hk
      have hj := List.mem_range.1 hj
      refine ⟨j, hj, rfl, ?_⟩
      unfold testEntryM at he
      by_cases hco : (j : Int) ∈ cont
      · rw [if_pos hco] at he
        split at he <;> cases he
      · rw [if_neg hco] at he
        refine ⟨hco, ?_⟩
        by_cases hc : cellText T[i] j = []
        · rw [if_pos hc] at he; cases he
        rw [if_neg hc, Option.map_eq_some_iff] at he
        obtain ⟨w, hw, he⟩ := he
        cases he
        have hj' : j < D.valueIds.length := by omega
        refine ⟨hc, _, List.getElem?_eq_getElem hj', ?_⟩
        simpa [hj'] using hw
    · rintro ⟨j, hj, rfl, hco, hc, m, hm, hs⟩
      refine ⟨j, List.mem_range.2 hj, ?_⟩
      unfold testEntryM
      rw [if_neg hco, if_neg hc, List.getD_eq_getElem?_getD, hm]
      simp [hs]

/-- C125.  Training and test file together: in a test row a discrete variable `j` has the value `v` exactly if its text is not empty, occurs in column
`j` of the training table, and `v` is its training code; a continuous variable has the number its text denotes.  No variable occurs twice. -/
theorem C125_training_codes (hcont : cont ≠ []) {n : Nat} (hn : 0 < n) {names : List Str} {T0 : List (List Str)} {file0 : Str}
    (hf0 : CsvFile names T0 file0) (hnames : CleanRow n names) (hT0 : ∀ r ∈ T0, CleanRow n r) (hne0 : T0 ≠ [])
    (hnd : ((List.range n).map (cellText names)).Nodup) {names' : List Str} {T : List (List Str)} {file : Str} (hf : CsvFile names' T file)
    (hnames' : CleanRow n names') (hT : ∀ r ∈ T, CleanRow n r) (hne : T ≠ []) (cls : Int)
    (hnum0 : ∀ r ∈ T0, ∀ j < n, (j : Int) ∈ cont → ∃ f, stof (cellText r j) = .ok f)
    (hnum : ∀ r ∈ T, ∀ j < n, (j : Int) ∈ cont → ∃ f, stof (cellText r j) = .ok f) :
    ∃ D D', loadCSVTrainingM stof file0 true cls cont = .ok D ∧ D.forTesting.loadCSVTesting stof file true cls cont = .ok D' ∧
      D'.numInstance = T.length ∧ D'.rows.length = T.length ∧ ∀ (i : Nat) (hi : i < T.length), ∃ row, D'.rows[i]? = some row ∧
        row.Pairwise (fun p q => p.1 < q.1) ∧
        (∀ (k : Int) (f : F), (k, MVal.flt f) ∈ row ↔ ∃ j : Nat, j < n ∧ k = j ∧ k ∈ cont ∧ stof (cellText T[i] j) = .ok f) ∧
        (∀ k v : Int, (k, MVal.int v) ∈ row ↔ ∃ j : Nat, j < n ∧ k = j ∧ k ∉ cont ∧ cellText T[i] j ≠ [] ∧
          cellText T[i] j ∈ column T0 j ∧ v = ((firstSeen (column T0 j)).idxOf (cellText T[i] j) : Int)) := by
  obtain ⟨D0, hD0, h1, _, _, _, h5, h6, _⟩ := C50_encode hn hf0 hnames hT0 hne0 hnd cls
  obtain ⟨hfw, hbw⟩ := C97_csv_training (stof := stof) hcont file0 cls
  obtain ⟨D, hD⟩ := hbw D0 hD0 (by
    intro i hi hco m hm s v hs
    rw [h1] at hi
    have := h6 i hi s
    rw [List.getD_eq_getElem?_getD, hm, Option.getD_some, hs] at this
    split at this
    · rename_i hc
      obtain ⟨r, hr, rfl⟩ := List.mem_map.1 hc
      exact hnum0 r hr i hi hco
    · cases this)
  obtain ⟨D0', hD0', _, _, hv, _, _, _, hid, hic, _⟩ := hfw D hD
  rw [hD0] at hD0'
  cases hD0'
  rw [h1] at hv hid hic
  have hget : ∀ i < n, ∃ m, D.valueIds[i]? = some m := by
    intro i hi
    by_cases hco : (i : Int) ∈ cont
    · exact ⟨_, (hic i hi hco).1⟩
    · rw [(hid i hi hco).1]
      exact ⟨_, List.getElem?_eq_getElem (by omega)⟩
  have hlen : n ≤ D.valueIds.length := by
    obtain ⟨m, hm⟩ := hget (n - 1) (by omega)
    obtain ⟨hlt, _⟩ := List.getElem?_eq_some_iff.1 hm
    omega
  have e1 : D.forTesting.numVars = n := hv
  have a1 : 0 < D.forTesting.numVars := by rw [e1]; exact hn
  have a2 : D.forTesting.numVars ≤ D.forTesting.valueIds.length := by rw [e1]; exact hlen
  have a3 : CleanRow D.forTesting.numVars names' := by rw [e1]; exact hnames'
  have a4 : ∀ r ∈ T, CleanRow D.forTesting.numVars r := by rw [e1]; exact hT
  obtain ⟨D', hD'⟩ := (C125_succeeds (stof := stof) (cont := cont) a1 a2 hf a3 a4 hne cls).2 (by rw [e1]; exact hnum)
  obtain ⟨new, hnew, hl, hrows⟩ := C125_rows a1 a2 hf a3 a4 hne hD'
  rw [e1] at hrows
  subst hnew
  refine ⟨D, _, hD, hD', by simp [MDataset.forTesting], by simp [MDataset.forTesting, hl], fun i hi => ?_⟩
  obtain ⟨row, r1, r2, r3, r4⟩ := hrows i hi
  refine ⟨row, by simpa [MDataset.forTesting] using r1, r2, r3, fun k v => ?_⟩
  rw [r4]
  refine exists_congr fun j => and_congr_right fun hj => and_congr_right fun hk => and_congr_right fun hco => and_congr_right fun _ => ?_
  have hm : D.forTesting.valueIds[j]? = D0.valueIds[j]? := (hid j hj (hk ▸ hco)).1
  have h6' := h6 j hj (cellText T[i] j)
  rw [hm]
  have hj0 : j < D0.valueIds.length := by omega
  rw [List.getD_eq_getElem?_getD, List.getElem?_eq_getElem hj0, Option.getD_some] at h6'
  rw [List.getElem?_eq_getElem hj0]
  constructor
  · rintro ⟨m, hm, hs⟩
    cases hm
    rw [h6'] at hs
    split at hs
    · rename_i hc
      exact ⟨hc, (Option.some.inj hs).symm⟩
    · cases hs
  · rintro ⟨hc, rfl⟩
    exact ⟨_, rfl, by rw [h6', if_pos hc]⟩

/-- C125.  If no variable of the data is continuous the loader is that of the discrete model, whatever the values are written as. -/
theorem C125_no_continuous (D : Dataset) (all cols : Option (List (List Int))) (hno : ∀ j < D.numVars, (j : Int) ∉ cont) (file : Str)
    (strVal : Bool) (cls : Int) :
    (embData D all cols).loadCSVTesting stof file strVal cls cont = (D.loadCSVTesting file strVal cls).map (fun D' => embData D' all cols) := by
  have hcell : ∀ (parsed : List Str) (i : Nat), i < D.numVars → ∀ row : List (Int × Int),
      testCellM stof cont D.valueIds strVal parsed (embRow row : List (Int × MVal F)) i = (testCell D.valueIds strVal parsed row i).map embRow := by
    intro parsed i hi row
    unfold testCellM testCell
    cases rd parsed i with
    | error e => rfl
    | ok cell =>
      rw [ok_bind, ok_bind, if_neg (hno i hi)]
      by_cases hc : cell = []
      · rw [if_pos hc, if_pos hc]; rfl
      rw [if_neg hc, if_neg hc]
      cases strVal with
      | true =>
        simp only [if_true]
        cases rd D.valueIds i with
        | error e => rfl
        | ok m =>
          rw [ok_bind, ok_bind]
          cases m.find cell with
          | none => rfl
          | some v => simp [Except.map, pure_eq_ok, embRow_snoc]
      | false =>
        simp only [Bool.false_eq_true, if_false]
        cases stoi cell with
        | error e => rfl
        | ok v => simp [Except.map, pure_eq_ok, ok_bind, embRow_snoc]
  have hcells : ∀ (parsed : List Str) (l : List Nat), (∀ i ∈ l, i < D.numVars) → ∀ row : List (Int × Int),
      l.foldlM (testCellM stof cont D.valueIds strVal parsed) (embRow row : List (Int × MVal F)) =
        (l.foldlM (testCell D.valueIds strVal parsed) row).map embRow := by
    intro parsed l
    induction l with
    | nil => intro _ row; rfl
    | cons i l ih =>
      intro hl row
      rw [List.foldlM_cons, List.foldlM_cons, hcell parsed i (hl i (by simp))]
      cases testCell D.valueIds strVal parsed row i with
      | error e => rfl
      | ok row' => exact ih (fun j hj => hl j (by simp [hj])) row'
  have hline : ∀ (rows : List (List (Int × Int))) (x : Str),
      testLineM stof cont D.valueIds D.numVars strVal (rows.map embRow : List (List (Int × MVal F))) x =
        (testLine D.valueIds D.numVars strVal rows x).map (List.map embRow) := by
    intro rows x
    unfold testLineM testLine
    cases split (trimRight x) [44] with
    | error e => rfl
    | ok parsed =>
      rw [ok_bind, ok_bind, show ([] : List (Int × MVal F)) = embRow [] from rfl,
        hcells parsed _ (fun i hi => List.mem_range.1 hi)]
      cases (List.range D.numVars).foldlM (testCell D.valueIds strVal parsed) [] with
      | error e => rfl
      | ok row => simp [Except.map, ok_bind, pure_eq_ok]
  unfold MDataset.loadCSVTesting Dataset.loadCSVTesting
  by_cases hx : (strVal && decide (D.valueIds = [])) = true
  · rw [if_pos hx, if_pos (by exact hx)]; rfl
  rw [if_neg hx, if_neg (by exact hx)]
  obtain ⟨header, sample, f⟩ := readTwo file
  dsimp only [embData]
  rw [doWhile_emb (List.map (embRow (F := F))) hline]
  cases doWhileGetline (testLine D.valueIds D.numVars strVal) (file.length + 1) D.rows sample f with
  | error e => rfl
  | ok rows => simp [Except.map, ok_bind, pure_eq_ok]

/-! ### Examples and witnesses -/

/-- Trained on `a,b / x,1.5 / y,2`, tested on three rows: the codes are those of training, the empty and the unknown text of the discrete column are
left out, and the numbers of the continuous column are kept, seen before or not. -/
example : (do
    let D ← loadCSVTrainingM exStof (lit "a,b\nx,1.5\ny,2\n") true 0 [1]
    let D' ← D.forTesting.loadCSVTesting exStof (lit "a,b\ny,7\n,1.5\nz,2\n") true 0 [1]
    return D'.rows : Except Fault _) =
    .ok [[(0, .int 1), (1, .flt (lit "7"))], [(1, .flt (lit "1.5"))], [(1, .flt (lit "2"))]] := by
  decide +kernel

/-- C125 (finding).  Incomplete test data are accepted if the missing value is of a discrete variable; a missing value of a continuous variable makes
the loader throw. -/
theorem C125_missing_number : ∃ D : MDataset Str, loadCSVTrainingM exStof (lit "a,b\nx,1.5\ny,2\n") true 0 [1] = .ok D ∧
    (D.forTesting.loadCSVTesting exStof (lit "a,b\n,7\n") true 0 [1]).isOk = true ∧
    D.forTesting.loadCSVTesting exStof (lit "a,b\nx,\n") true 0 [1] = .error .throw := by
  refine ⟨
    { numInstance := 2, numVars := 2, classVar := 0, varNames := [lit "a", lit "b"], valueIds := [[(lit "x", 0), (lit "y", 1)], []],
      numValues := [2, 0], rows := [[(0, .int 0), (1, .flt (lit "1.5"))], [(0, .int 1), (1, .flt (lit "2"))]] }, ?_⟩
  decide +kernel

/-- The files of `C125_training_codes`: "a,b\nx,1\ny,2\n" for training and "a,b\nz,3\n" for testing. -/
example : ∃ D D', loadCSVTrainingM exStof (textOf (csvLine [[97], [98]] :: [[[120], [49]], [[121], [50]]].map csvLine)) true 0 [1] = .ok D ∧
    D.forTesting.loadCSVTesting exStof (textOf (csvLine [[97], [98]] :: [[[122], [51]]].map csvLine)) true 0 [1] = .ok D' ∧
    ∃ row, D'.rows[0]? = some row ∧ (1, .flt [51]) ∈ row := by
  obtain ⟨D, D', h1, h2, _, _, h3⟩ := C125_training_codes (stof := exStof) (cont := [1]) (by simp) (n := 2) (by omega) (names := [[97], [98]])
    (T0 := [[[120], [49]], [[121], [50]]]) CsvFile.newline (by simp [CleanRow, CleanCell]) (by simp [CleanRow, CleanCell]) (by simp) (by decide)
    (names' := [[97], [98]]) (T := [[[122], [51]]]) CsvFile.newline (by simp [CleanRow, CleanCell]) (by simp [CleanRow, CleanCell]) (by simp) 0
    (by
      intro r hr j hj hc
      have : j = 1 := by simp at hc; omega
      subst this
      simp only [List.mem_cons, List.not_mem_nil, or_false] at hr
      rcases hr with rfl | rfl
      · exact ⟨[49], by decide⟩
      · exact ⟨[50], by decide⟩)
    (by
      intro r hr j hj hc
      have : j = 1 := by simp at hc; omega
      subst this
      simp only [List.mem_cons, List.not_mem_nil, or_false] at hr
      rcases hr with rfl
      exact ⟨[51], by decide⟩)
  obtain ⟨row, r1, _, r3, _⟩ := h3 0 (by decide)
  exact ⟨D, D', h1, h2, row, r1, (r3 1 [51]).2 ⟨1, by omega, rfl, by simp, by decide⟩⟩

end FastPGM
