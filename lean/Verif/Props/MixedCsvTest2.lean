import Verif.Props.MixedCsvTest

/-!
Loading test data with numbers as values from a CSV file (C125).
-/

namespace FastPGM

open Spec

variable {F : Type} {stof : Str → Except Fault F} {cont : List Int}

/-- What is kept of cell `j` if values are numbers. -/
def testEntryN (stof : Str → Except Fault F) (cont : List Int) (r : List Str) (j : Nat) : Option (Int × MVal F) :=
  if (j : Int) ∈ cont then
    match stof (cellText r j) with
    | .ok f => some ((j : Int), .flt f)
    | .error _ => none
  else if cellText r j = [] then none else
    match stoi (cellText r j) with
    | .ok v => some ((j : Int), .int v)
    | .error _ => none

/-- The text of the cell is a number of the kind of its column; a cell of a discrete column may be empty. -/
def NumericCell (stof : Str → Except Fault F) (cont : List Int) (r : List Str) (j : Nat) : Prop :=
  ((j : Int) ∈ cont → ∃ f, stof (cellText r j) = .ok f) ∧ ((j : Int) ∉ cont → cellText r j ≠ [] → ∃ v, stoi (cellText r j) = .ok v)

theorem testLineN_eq {n : Nat} (hn : 0 < n) {ids : List ValueMap} (rows : List (List (Int × MVal F))) {r : List Str}
    (hr : CleanRow n r) (hnum : ∀ j < n, NumericCell stof cont r j) :
    testLineM stof cont ids n false rows (csvLine r) = .ok (rows ++ [(List.range n).filterMap (testEntryN stof cont r)]) := by
  unfold testLineM
  rw [split_line hn hr, ok_bind]
  have h := foldlM_range_eq (f := testCellM stof cont ids false (cellTexts r)) (s := fun i => (List.range i).filterMap (testEntryN stof cont r))
    (n := n) (by
      intro i hi
      rw [filterMap_range_snoc]
      unfold testCellM testEntryN
      rw [cellTexts, hr.1, rd_tab hi, ok_bind]
      by_cases hco : (i : Int) ∈ cont
      · obtain ⟨f, hf⟩ := (hnum i hi).1 hco
        rw [if_pos hco, if_pos hco, hf, ok_bind]
        rfl
      rw [if_neg hco, if_neg hco]
      by_cases hc : cellText r i = []
      · rw [if_pos hc, if_pos hc]; simp
      · obtain ⟨v, hv⟩ := (hnum i hi).2 hco hc
        rw [if_neg hc, if_neg hc, hv]
        rfl)
  rw [show (List.range 0).filterMap (testEntryN stof cont r) = [] from rfl] at h
  rw [h, ok_bind]
  rfl

theorem testLinesN {n : Nat} (hn : 0 < n) {ids : List ValueMap} {T : List (List Str)} (hT : ∀ r ∈ T, CleanRow n r)
    (hnum : ∀ r ∈ T, ∀ j < n, NumericCell stof cont r j) :
    ∀ rows, (T.map csvLine).foldlM (testLineM stof cont ids n false) rows =
      .ok (rows ++ T.map (fun r => (List.range n).filterMap (testEntryN stof cont r))) := by
  induction T with
  | nil => intro rows; simp
  | cons r T ih =>
    intro rows
    rw [List.map_cons, List.foldlM_cons, testLineN_eq hn rows (hT r (by simp)) (hnum r (by simp)), ok_bind,
      ih (fun x hx => hT x (by simp [hx])) (fun x hx => hnum x (by simp [hx]))]
    simp

theorem testLineN_ok {n : Nat} (hn : 0 < n) {ids : List ValueMap} {rows rows' : List (List (Int × MVal F))} {r : List Str}
    (hr : CleanRow n r) (h : testLineM stof cont ids n false rows (csvLine r) = .ok rows') : ∀ j < n, NumericCell stof cont r j := by
  intro j hj
  refine ⟨fun hco => testLineM_ok hn hr h j hj hco, fun hco hc => ?_⟩
  unfold testLineM at h
  rw [split_line hn hr, ok_bind] at h
  obtain ⟨row, h, _⟩ := ok_of_bind h
  obtain ⟨u, v, h⟩ := foldlM_step_ok h j (List.mem_range.2 hj)
  unfold testCellM at h
  rw [cellTexts, hr.1, rd_tab hj, ok_bind, if_neg hco, if_neg hc, if_neg (by simp)] at h
  obtain ⟨k, hk, _⟩ := ok_of_bind h
  exact ⟨k, hk⟩

/-- C125.  Loading a CSV file with numbers as values: it succeeds exactly if the text of every cell is a number of the kind of its column, where a cell
of a discrete column may be empty.  The rows are added in their order; each holds, in the order of the columns, the number of every cell that is not
empty.  No value maps are needed. -/
theorem C125_numbers {D : MDataset F} (hn : 0 < D.numVars) {names : List Str} {T : List (List Str)} {file : Str} (hf : CsvFile names T file)
    (hnames : CleanRow D.numVars names) (hT : ∀ r ∈ T, CleanRow D.numVars r) (hne : T ≠ []) (cls : Int) :
    ((∃ D', D.loadCSVTesting stof file false cls cont = .ok D') ↔
      ∀ r ∈ T, ∀ j < D.numVars, ((j : Int) ∈ cont → ∃ f, stof (cellText r j) = .ok f) ∧
        ((j : Int) ∉ cont → cellText r j ≠ [] → ∃ v, stoi (cellText r j) = .ok v)) ∧
    ∀ D', D.loadCSVTesting stof file false cls cont = .ok D' →
      ∃ new : List (List (Int × MVal F)), D' = { D with rows := D.rows ++ new, numInstance := D.rows.length + T.length, classVar := cls } ∧
        new.length = T.length ∧ ∀ (i : Nat) (hi : i < T.length), ∃ row, new[i]? = some row ∧ row.Pairwise (fun p q => p.1 < q.1) ∧
          (∀ (k : Int) (f : F), (k, MVal.flt f) ∈ row ↔ ∃ j : Nat, j < D.numVars ∧ k = j ∧ k ∈ cont ∧ stof (cellText T[i] j) = .ok f) ∧
          (∀ k v : Int, (k, MVal.int v) ∈ row ↔ ∃ j : Nat, j < D.numVars ∧ k = j ∧ k ∉ cont ∧ cellText T[i] j ≠ [] ∧
            stoi (cellText T[i] j) = .ok v) := by
  obtain ⟨_, h2⟩ := csvFile_read hf (csvLine_newline (fun c hc => (hnames.2 c hc).2)) (cleanLines hT) hne
    (testLineM stof cont D.valueIds D.numVars false) D.rows
  have hfw : ∀ D', D.loadCSVTesting stof file false cls cont = .ok D' → ∀ r ∈ T, ∀ j < D.numVars, NumericCell stof cont r j := by
    intro D' h r hr
    unfold MDataset.loadCSVTesting at h
    rw [if_neg (by simp)] at h
    rcases e' : readTwo file with ⟨header, sample, f⟩
    rw [e'] at h2 h
    simp only at h2 h
    rw [h2] at h
    obtain ⟨rows, h, _⟩ := ok_of_bind h
    obtain ⟨u, v, h⟩ := foldlM_step_ok h (csvLine r) (List.mem_map_of_mem hr)
    exact testLineN_ok hn (hT r hr) h
  have hload : (∀ r ∈ T, ∀ j < D.numVars, NumericCell stof cont r j) → D.loadCSVTesting stof file false cls cont =
      .ok { D with rows := D.rows ++ T.map (fun r => (List.range D.numVars).filterMap (testEntryN stof cont r)),
                   numInstance := D.rows.length + T.length, classVar := cls } := by
    intro hnum
    unfold MDataset.loadCSVTesting
    rw [if_neg (by simp)]
    rcases e' : readTwo file with ⟨header, sample, f⟩
    rw [e'] at h2
    simp only at h2 ⊢
    rw [h2, testLinesN hn hT hnum, ok_bind]
    simp [pure_eq_ok]
  refine ⟨⟨fun ⟨D', h⟩ => hfw D' h, fun hnum => ⟨_, hload hnum⟩⟩, fun D' h => ?_⟩
  have hnum := hfw D' h
  rw [hload hnum] at h
  cases h
  have hkey : ∀ (r : List Str) (c : Nat) (x : Int × MVal F), testEntryN stof cont r c = some x → x.1 = c := by
    intro r c x hx
    unfold testEntryN at hx
    split at hx
    · split at hx <;> cases hx; rfl
    · split at hx
      · cases hx
      · split at hx <;> cases hx; rfl
  refine ⟨_, rfl, by simp, fun i hi => ?_⟩
  refine ⟨_, by rw [List.getElem?_map, List.getElem?_eq_getElem hi]; rfl, ?_, fun k f => ?_, fun k v => ?_⟩
  · rw [List.pairwise_filterMap]
    refine List.Pairwise.imp ?_ List.pairwise_lt_range
    intro a b hab p hp q hq
    rw [hkey _ _ _ hp, hkey _ _ _ hq]
    omega
  · rw [List.mem_filterMap]
    constructor
    · rintro ⟨j, hj, he⟩
      have hk : k = j := hkey _ _ _ he
      subst hk
      refine ⟨j, List.mem_range.1 hj, rfl, ?_⟩
      unfold testEntryN at he
      by_cases hco : (j : Int) ∈ cont
      · rw [if_pos hco] at he
        refine ⟨hco, ?_⟩
        split at he
        · cases he; assumption
        · cases he
      · rw [if_neg hco] at he
        split at he
        · cases he
        · split at he <;> cases he
    · rintro ⟨j, hj, rfl, hco, hs⟩
      refine ⟨j, List.mem_range.2 hj, ?_⟩
      unfold testEntryN
      rw [if_pos hco, hs]
  · rw [List.mem_filterMap]
    constructor
    · rintro ⟨j, hj, he⟩
      have hk : k = j := hkey _ _ _ he
      subst hk
      refine ⟨j, List.mem_range.1 hj, rfl, ?_⟩
      unfold testEntryN at he
      by_cases hco : (j : Int) ∈ cont
      · rw [if_pos hco] at he
        split at he <;> cases he
      · rw [if_neg hco] at he
        by_cases hc : cellText T[i] j = []
        · rw [if_pos hc] at he; cases he
        rw [if_neg hc] at he
        refine ⟨hco, hc, ?_⟩
        split at he
        · cases he; assumption
        · cases he
    · rintro ⟨j, hj, rfl, hco, hc, hs⟩
      refine ⟨j, List.mem_range.2 hj, ?_⟩
      unfold testEntryN
      rw [if_neg hco, if_neg hc, hs]

/-- Numbers: the empty cell is left out, a text that is no number makes the loader throw. -/
example : ((({ numVars := 2 } : MDataset Str).loadCSVTesting exStof (lit "a,b\n3,1.5\n,2\n") false 0 [1]).map (·.rows)) =
    .ok [[(0, .int 3), (1, .flt (lit "1.5"))], [(1, .flt (lit "2"))]] ∧
    ((({ numVars := 2 } : MDataset Str).loadCSVTesting exStof (lit "a,b\nx,1.5\n") false 0 [1]).map (·.rows)) = .error .throw := by
  decide +kernel

/-- The hypotheses of `C125_numbers` are met: the file "a,b\\n3,1\\n". -/
example : ∃ D', ({ numVars := 2 } : MDataset Str).loadCSVTesting exStof (textOf (csvLine [[97], [98]] :: [[[51], [49]]].map csvLine)) false 0 [1] =
    .ok D' := by
  refine (C125_numbers (D := ({ numVars := 2 } : MDataset Str)) (by decide) (names := [[97], [98]]) (T := [[[51], [49]]]) CsvFile.newline
    (by simp [CleanRow, CleanCell]) (by simp [CleanRow, CleanCell]) (by simp) 0).1.2 ?_
  intro r hr j hj
  simp only [List.mem_cons, List.not_mem_nil, or_false] at hr
  subst hr
  have hj : j < 2 := hj
  rcases (by omega : j = 0 ∨ j = 1) with rfl | rfl
  · exact ⟨fun h => absurd h (by decide), fun _ _ => ⟨3, by decide⟩⟩
  · exact ⟨fun _ => ⟨[49], by decide⟩, fun h => absurd (by decide) h⟩

end FastPGM
