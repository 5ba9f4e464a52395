import Verif.Lemmas.Dataset

/-!
The training and testing loaders for CSV files.
-/

namespace FastPGM

open Spec

/-! ### Value maps -/

/-- The value map that gives the entries of a list the codes `k`, `k + 1`, ... -/
def codesFrom : Int → List Str → ValueMap
  | _, [] => []
  | k, v :: vs => (v, k) :: codesFrom (k + 1) vs

theorem codesFrom_length (k : Int) (V : List Str) : (codesFrom k V).length = V.length := by
  induction V generalizing k with
  | nil => rfl
  | cons v V ih => simp [codesFrom, ih]

theorem codesFrom_snoc (k : Int) (V : List Str) (y : Str) : codesFrom k (V ++ [y]) = codesFrom k V ++ [(y, k + V.length)] := by
  induction V generalizing k with
  | nil => simp [codesFrom]
  | cons v V ih =>
    rw [List.cons_append, codesFrom, ih, codesFrom, List.cons_append]
    rw [List.length_cons, show k + 1 + (V.length : Int) = k + ((V.length + 1 : Nat) : Int) by omega]

theorem codesFrom_find (k : Int) (V : List Str) (x : Str) :
    ValueMap.find (codesFrom k V) x = if x ∈ V then some (k + V.idxOf x) else none := by
  unfold ValueMap.find
  induction V generalizing k with
  | nil => rfl
  | cons v V ih =>
    rw [codesFrom, List.lookup_cons, ih]
    by_cases h : x = v
    · subst h; simp
    · have h' : ¬ v = x := fun e => h e.symm
      simp only [h, List.mem_cons, false_or]
      rw [show (x == v) = false by simpa using h]
      simp only
      by_cases hx : x ∈ V
      · rw [if_pos hx, if_pos hx, List.idxOf_cons_ne _ h']
        congr 1
        omega
      · rw [if_neg hx, if_neg hx]

theorem codesFrom_key (k : Int) {V : List Str} {x : Str} (hx : x ∈ V) :
    (codesFrom k V).find? (fun p => p.2 = k + V.idxOf x) = some (x, k + V.idxOf x) := by
  induction V generalizing k with
  | nil => simp at hx
  | cons v V ih =>
    rw [codesFrom]
    by_cases h : x = v
    · subst h; simp
    · have h' : ¬ v = x := fun e => h e.symm
      have hx' : x ∈ V := by simpa [h] using hx
      rw [List.idxOf_cons_ne _ h', List.find?_cons_of_neg (by simp; omega)]
      have e : (k + ((V.idxOf x + 1 : Nat) : Int)) = (k + 1) + (V.idxOf x : Int) := by omega
      simp only [Nat.succ_eq_add_one, e]
      exact ih (k + 1) hx'

/-! ### Training -/

/-- The code of cell `j` of row `r` in the table `T`. -/
def code (T : List (List Str)) (r : List Str) (j : Nat) : Int := (firstSeen (column T j)).idxOf (cellText r j)

/-- A row of codes. -/
def codeRow (n : Nat) (T : List (List Str)) (r : List Str) : List (Int × Int) := tab n (fun j => ((j : Int), code T r j))

theorem column_append (P Q : List (List Str)) (j : Nat) : column (P ++ Q) j = column P j ++ column Q j := by simp [column]

theorem code_append {P : List (List Str)} (Q : List (List Str)) {r : List Str} (h : r ∈ P) (j : Nat) : code (P ++ Q) r j = code P r j := by
  unfold code
  rw [column_append, idxOf_firstSeen_append]
  exact List.mem_map.2 ⟨r, h, rfl⟩

/-- The state in the middle of a line: `P` has been read before, of row `r` the first `i` cells. -/
def midState (n : Nat) (P : List (List Str)) (r : List Str) (rows : List (List (Int × Int))) (i : Nat) : CsvState × List (Int × Int) :=
  ({ counter := tab n (fun j => ((firstSeen (column (if j < i then P ++ [r] else P) j)).length : Int) - 1)
     ids := tab n (fun j => codesFrom 0 (firstSeen (column (if j < i then P ++ [r] else P) j)))
     rows := rows },
   codeRow i (P ++ [r]) r)

theorem codeRow_snoc (i : Nat) (T : List (List Str)) (r : List Str) :
    codeRow (i + 1) T r = codeRow i T r ++ [((i : Int), code T r i)] := by
  simp [codeRow, tab, List.range_succ]

theorem column_single (r : List Str) (j : Nat) : column [r] j = [cellText r j] := rfl

theorem mid_set {β : Type} (n : Nat) (P : List (List Str)) (r : List Str) (i : Nat) (f : List Str → β) (b : β)
    (h : b = f (column (P ++ [r]) i)) :
    (tab n (fun j => f (column (if j < i then P ++ [r] else P) j))).set i b =
      tab n (fun j => f (column (if j < i + 1 then P ++ [r] else P) j)) := by
  rw [set_tab]
  apply tab_congr
  intro j _
  by_cases h1 : j = i
  · subst h1; simp [h]
  · by_cases h2 : j < i
    · rw [if_neg h1, if_pos h2, if_pos (by omega)]
    · rw [if_neg h1, if_neg h2, if_neg (by omega)]

theorem mid_keep {β : Type} (n : Nat) (P : List (List Str)) (r : List Str) (i : Nat) (f : List Str → β)
    (h : f (column P i) = f (column (P ++ [r]) i)) :
    tab n (fun j => f (column (if j < i then P ++ [r] else P) j)) =
      tab n (fun j => f (column (if j < i + 1 then P ++ [r] else P) j)) := by
  apply tab_congr
  intro j _
  by_cases h1 : j = i
  · subst h1; simp [h]
  · by_cases h2 : j < i
    · rw [if_pos h2, if_pos (by omega)]
    · rw [if_neg h2, if_neg (by omega)]

theorem trainCell_step {n : Nat} {P : List (List Str)} {r : List Str} (rows : List (List (Int × Int))) (hr : r.length = n) {i : Nat} (hi : i < n) :
    trainCell true (cellTexts r) (midState n P r rows i) i = .ok (midState n P r rows (i + 1)) := by
  unfold trainCell midState
  simp only [if_true]
  rw [cellTexts, hr, rd_tab hi, ok_bind, rd_tab hi, ok_bind]
  simp only [Nat.lt_irrefl, if_false]
  rw [codesFrom_find]
  have hcode : code (P ++ [r]) r i = if cellText r i ∈ column P i then ((firstSeen (column P i)).idxOf (cellText r i) : Int)
      else (firstSeen (column P i)).length := by
    unfold code
    rw [column_append, column_single, firstSeen_snoc]
    split
    · rfl
    · rename_i h
      rw [List.idxOf_append_of_notMem (fun hx => h (mem_firstSeen.1 hx))]
      simp
  have hcol : firstSeen (column (P ++ [r]) i) = if cellText r i ∈ column P i then firstSeen (column P i)
      else firstSeen (column P i) ++ [cellText r i] := by
    rw [column_append, column_single, firstSeen_snoc]
  by_cases hmem : cellText r i ∈ column P i
  · rw [if_pos (mem_firstSeen.2 hmem)]
    rw [if_pos hmem] at hcode hcol
    simp only [pure_eq_ok]
    rw [codeRow_snoc, hcode]
    rw [mid_keep n P r i (fun c => ((firstSeen c).length : Int) - 1) (by simp only [hcol]),
      mid_keep n P r i (fun c => codesFrom 0 (firstSeen c)) (by simp only [hcol])]
    simp
  · rw [if_neg (fun h => hmem (mem_firstSeen.1 h))]
    rw [if_neg hmem] at hcode hcol
    simp only
    rw [rd_tab hi, ok_bind]
    simp only [Nat.lt_irrefl, if_false, pure_eq_ok]
    rw [codeRow_snoc, hcode]
    rw [mid_set n P r i (fun c => ((firstSeen c).length : Int) - 1) _ (by simp only [hcol]; simp),
      mid_set n P r i (fun c => codesFrom 0 (firstSeen c)) _ (by simp only [hcol]; rw [codesFrom_snoc]; simp)]
    simp

/-- The state after the rows `P`. -/
def trainState (n : Nat) (T P : List (List Str)) : CsvState :=
  { counter := tab n (fun j => ((firstSeen (column P j)).length : Int) - 1)
    ids := tab n (fun j => codesFrom 0 (firstSeen (column P j)))
    rows := P.map (codeRow n T) }

theorem trainLine_step {n : Nat} (hn : 0 < n) {T P Q : List (List Str)} {r : List Str} (hT : T = P ++ r :: Q) (hr : CleanRow n r) :
    trainLine n true (trainState n T P) (csvLine r) = .ok (trainState n T (P ++ [r])) := by
  unfold trainLine
  rw [split_line hn hr, ok_bind]
  have h := foldlM_range_eq (f := trainCell true (cellTexts r)) (s := midState n P r (P.map (codeRow n T))) (n := n)
    (fun i hi => trainCell_step _ hr.1 hi)
  have h0 : midState n P r (P.map (codeRow n T)) 0 = (trainState n T P, []) := by
    simp [midState, trainState, codeRow, tab]
  rw [h0] at h
  rw [h, ok_bind]
  simp only [midState, pure_eq_ok, trainState]
  have e : codeRow n (P ++ [r]) r = codeRow n T r := by
    unfold codeRow
    apply tab_congr
    intro j _
    rw [hT, show P ++ r :: Q = (P ++ [r]) ++ Q by simp, code_append (P := P ++ [r]) Q (by simp)]
  congr 2
  · exact tab_congr (fun j hj => by simp [hj])
  · exact tab_congr (fun j hj => by simp [hj])
  · rw [e]; simp

theorem trainLines {n : Nat} (hn : 0 < n) {T : List (List Str)} (hT : ∀ r ∈ T, CleanRow n r) : ∀ (Q P : List (List Str)), T = P ++ Q →
    (Q.map csvLine).foldlM (trainLine n true) (trainState n T P) = .ok (trainState n T T) := by
  intro Q
  induction Q with
  | nil => intro P h; rw [List.append_nil] at h; subst h; rfl
  | cons r Q ih =>
    intro P h
    rw [List.map_cons, List.foldlM_cons, trainLine_step hn h (hT r (by simp [h])), ok_bind]
    exact ih (P ++ [r]) (by simp [h])

/-! ### Row-major and column-major copies -/

/-- Every variable listed in the row is one of the `n` variables. -/
def RowIn (n : Nat) (row : List (Int × Int)) : Prop := ∀ p ∈ row, 0 ≤ p.1 ∧ p.1 < n

theorem lastValue_snoc (row : List (Int × Int)) (p : Int × Int) (i : Nat) :
    lastValue (row ++ [p]) i = if p.1 = i then p.2 else lastValue row i := by
  unfold lastValue
  rw [List.filter_append]
  by_cases h : p.1 = i
  · simp [h]
  · simp [h]

theorem intRow_eq {n : Nat} {row : List (Int × Int)} (h : RowIn n row) : intRow n row = .ok (tab n (lastValue row)) := by
  unfold intRow
  suffices H : ∀ (Q P : List (Int × Int)), row = P ++ Q →
      Q.foldlM (fun acc vv => wrI acc vv.1 vv.2) (tab n (lastValue P)) = .ok (tab n (lastValue row)) by
    rw [replicate_eq_tab]
    exact H row [] rfl
  intro Q
  induction Q with
  | nil => intro P hP; rw [hP, List.append_nil]; rfl
  | cons p Q ih =>
    intro P hP
    obtain ⟨h1, h2⟩ := h p (by simp [hP])
    have e : wrI (tab n (lastValue P)) p.1 p.2 = .ok (tab n (lastValue (P ++ [p]))) := by
      rw [wrI, if_neg (by omega), wr_tab (by omega)]
      congr 1
      apply tab_congr
      intro j _
      rw [lastValue_snoc]
      by_cases hj : j = p.1.toNat
      · rw [if_pos hj, if_pos (by omega)]
      · rw [if_neg hj, if_neg (by omega)]
    rw [List.foldlM_cons, e, ok_bind]
    exact ih (P ++ [p]) (by simp [hP])

/-- A variable outside the range makes the conversion write outside the array. -/
theorem intRow_ub {n : Nat} {row : List (Int × Int)} (h : ¬ RowIn n row) : intRow n row = .error .ub := by
  unfold intRow
  suffices H : ∀ (row : List (Int × Int)), ¬ RowIn n row → ∀ acc : List Int, acc.length = n →
      row.foldlM (fun acc vv => wrI acc vv.1 vv.2) acc = .error .ub from H row h _ (by simp)
  intro row
  induction row with
  | nil => intro h; exact absurd (fun p hp => by simp at hp) h
  | cons p row ih =>
    intro h acc hacc
    rw [List.foldlM_cons]
    by_cases h1 : 0 ≤ p.1 ∧ p.1 < n
    · rw [wrI, if_neg (by omega), wr_ok (by omega), ok_bind]
      refine ih ?_ _ (by simp [hacc])
      intro h2
      apply h
      intro q hq
      rcases List.mem_cons.1 hq with rfl | hq
      · exact h1
      · exact h2 q hq
    · by_cases h2 : p.1 < 0
      · rw [wrI, if_pos h2]; rfl
      · rw [wrI, if_neg h2, wr, if_neg (by omega)]; rfl

theorem range_mapM_tab {β : Type} {f : Nat → Except Fault β} {n : Nat} {g : Nat → β} (h : ∀ i < n, f i = .ok (g i)) :
    (List.range n).mapM f = .ok (tab n g) :=
  mapM_ok (fun i hi => h i (by simpa using hi))

/-- The two conversions together. -/
theorem arrays_eq {D : Dataset} (hlen : D.rows.length = D.numInstance) (hrows : ∀ row ∈ D.rows, RowIn D.numVars row) :
    D.vector2IntArray = .ok { D with allVars := D.rows.map (fun row => tab D.numVars (lastValue row)) } ∧
    ({ D with allVars := D.rows.map (fun row => tab D.numVars (lastValue row)) } : Dataset).rowMajor2ColumnMajor =
      .ok { D with
            allVars := D.rows.map (fun row => tab D.numVars (lastValue row))
            columns := tab D.numVars (fun i => D.rows.map (fun row => lastValue row i)) } := by
  have hmap : ∀ {β : Type} (f : List (Int × Int) → β), D.rows.map f = tab D.numInstance (fun s => f (D.rows.getD s [])) := by
    intro β f
    apply tab_ext (by simpa using hlen)
    intro i hi
    rw [List.getElem?_map, List.getD_eq_getElem?_getD]
    simp [show i < D.rows.length by omega]
  constructor
  · unfold Dataset.vector2IntArray
    rw [range_mapM_tab (g := fun s => tab D.numVars (lastValue (D.rows.getD s []))), ok_bind, hmap]
    · rfl
    · intro s hs
      have hs' : s < D.rows.length := by omega
      rw [rd_getElem hs', ok_bind, intRow_eq (hrows _ (List.getElem_mem hs'))]
      simp [hs']
  · unfold Dataset.rowMajor2ColumnMajor
    simp only
    rw [range_mapM_tab (g := fun i => D.rows.map (fun row => lastValue row i)), ok_bind]
    · rfl
    · intro i hi
      rw [hmap (fun row => tab D.numVars (lastValue row)), hmap (fun row => lastValue row i)]
      apply range_mapM_tab
      intro j hj
      rw [rd_tab hj, ok_bind, rd_tab hi]

theorem codeRow_in (n : Nat) (T : List (List Str)) (r : List Str) : RowIn n (codeRow n T r) := by
  intro p hp
  obtain ⟨j, hj, rfl⟩ := List.mem_map.1 hp
  simp at hj
  simp [hj]

theorem lastValue_tab {n : Nat} (f : Nat → Int) {i : Nat} (hi : i < n) : lastValue (tab n (fun j => ((j : Int), f j))) i = f i := by
  induction n with
  | zero => omega
  | succ n ih =>
    have e : tab (n + 1) (fun j => ((j : Int), f j)) = tab n (fun j => ((j : Int), f j)) ++ [((n : Int), f n)] := by
      simp [tab, List.range_succ]
    rw [e, lastValue_snoc]
    by_cases h : i = n
    · subst h; simp
    · rw [if_neg (by simp; omega)]
      exact ih (by omega)

/-! ### The loaders -/

theorem cleanLines {n : Nat} {T : List (List Str)} (hT : ∀ r ∈ T, CleanRow n r) : ∀ l ∈ T.map csvLine, 10 ∉ l := by
  intro l hl
  obtain ⟨r, hr, rfl⟩ := List.mem_map.1 hl
  exact csvLine_newline (fun c hc => ((hT r hr).2 c hc).2)

/-- What the loaders see of a data file: the header, the first row, and a stream with the other rows. -/
theorem csvFile_read {names : List Str} {T : List (List Str)} {file : Str} (hf : CsvFile names T file)
    (hh : 10 ∉ csvLine names) (hT : ∀ l ∈ T.map csvLine, 10 ∉ l) (hne : T ≠ []) {σ : Type} (body : σ → Str → Except Fault σ) (st : σ) :
    (readTwo file).1 = csvLine names ∧
    doWhileGetline body (file.length + 1) st (readTwo file).2.1 (readTwo file).2.2 = (T.map csvLine).foldlM body st := by
  obtain ⟨r, T', rfl⟩ := List.exists_cons_of_ne_nil hne
  have hr : 10 ∉ csvLine r := hT _ (by simp)
  cases hf with
  | newline =>
    simp only [readTwo]
    rw [textOf_cons, getline_line hh]
    simp only
    rw [List.map_cons, textOf_cons, getline_line hr]
    refine ⟨trivial, ?_⟩
    rw [doWhile_lines _ _ _ (by simp; omega)]
    have := linesOf_textOf (ls := T'.map csvLine) (fun l hl => hT l (by simp only [List.map_cons, List.mem_cons]; exact .inr hl)) [] (by simp)
    rw [List.append_nil] at this
    rw [this]
    simp
  | open_ T'' r' hT' hne' =>
    have hr' : 10 ∉ csvLine r' := hT _ (by rw [hT']; simp)
    simp only [readTwo]
    rw [textOf_cons, List.append_assoc, List.cons_append, getline_line hh]
    simp only
    cases T'' with
    | nil =>
      simp only [List.nil_append, List.cons.injEq] at hT'
      obtain ⟨rfl, rfl⟩ := hT'
      rw [show textOf (([] : List (List Str)).map csvLine) ++ csvLine r = csvLine r from rfl, getline_last hr]
      refine ⟨trivial, ?_⟩
      rw [doWhile_eof _ (by simp), List.map_cons, List.map_nil, List.foldlM_cons]
      cases body st (csvLine r) <;> rfl
    | cons x T'' =>
      simp only [List.cons_append, List.cons.injEq] at hT'
      obtain ⟨rfl, rfl⟩ := hT'
      rw [List.map_cons, textOf_cons, List.append_assoc, List.cons_append, getline_line hr]
      refine ⟨trivial, ?_⟩
      rw [doWhile_lines _ _ _ (by simp; omega), linesOf_textOf (fun l hl => hT l (by simp only [List.map_cons, List.map_append, List.mem_cons, List.mem_append]; exact .inr (.inl hl))) _ hr', if_neg hne']
      simp

theorem countP_line {n : Nat} (hn : 0 < n) {names : List Str} (h : CleanRow n names) :
    (csvLine names).countP (fun c => c = 44) + 1 = n := by
  have := intercalate_count 44 (cells := names) (fun c hc => (h.2 c hc).1) (by rintro rfl; simp [CleanRow] at h; omega)
  rw [List.countP_eq_length_filter]
  have e : (fun c : Int => decide (c = 44)) = (fun c => decide (c ∈ [44])) := by funext c; simp
  rw [e]
  unfold csvLine
  rw [this]
  simp [h.1]
  omega

/-- The data set of a table. -/
def tableData (n : Nat) (names : List Str) (T : List (List Str)) (cls : Int) : Dataset :=
  { numInstance := T.length
    numVars := n
    classVar := cls
    varNames := cellTexts names
    valueIds := tab n (fun j => codesFrom 0 (firstSeen (column T j)))
    numValues := tab n (fun j => ((firstSeen (column T j)).length : Int))
    allVars := T.map (fun r => tab n (code T r))
    columns := tab n (fun j => T.map (fun r => code T r j))
    rows := T.map (codeRow n T) }

theorem loadCSVTraining_eq {n : Nat} (hn : 0 < n) {names : List Str} {T : List (List Str)} {file : Str} (hf : CsvFile names T file)
    (hnames : CleanRow n names) (hT : ∀ r ∈ T, CleanRow n r) (hne : T ≠ []) (hnd : (cellTexts names).Nodup) (cls : Int) :
    loadCSVTraining file true cls = .ok (tableData n names T cls) := by
  unfold loadCSVTraining
  obtain ⟨h1, h2⟩ := csvFile_read hf (csvLine_newline (fun c hc => (hnames.2 c hc).2)) (cleanLines hT) hne (trainLine n true) (trainState n T [])
  rcases e : readTwo file with ⟨header, sample, f⟩
  rw [e] at h1 h2
  simp only at h1 h2 ⊢
  subst h1
  rw [countP_line hn hnames, split_line hn hnames, ok_bind, if_neg (by simpa using hnd)]
  have h0 : ({ counter := List.replicate n (-1), ids := List.replicate n [], rows := [] } : CsvState) = trainState n T [] := by
    simp [trainState, column, firstSeen, codesFrom, replicate_eq_tab]
  rw [h0, h2, trainLines hn hT T [] rfl, ok_bind]
  have hv : (List.range n).mapM (fun i => do return ((← rd (trainState n T T).ids i).length : Int)) =
      (.ok (tab n (fun j => ((firstSeen (column T j)).length : Int))) : Except Fault _) := by
    apply range_mapM_tab
    intro i hi
    simp only [trainState]
    rw [rd_tab hi, ok_bind, codesFrom_length]
    rfl
  rw [hv, ok_bind]
  obtain ⟨a1, a2⟩ := arrays_eq
    (D := { numInstance := (trainState n T T).rows.length, numVars := n, classVar := cls, varNames := cellTexts names,
            valueIds := (trainState n T T).ids, numValues := tab n (fun j => ((firstSeen (column T j)).length : Int)),
            rows := (trainState n T T).rows }) rfl (by
      intro row hrow
      obtain ⟨r, _, rfl⟩ := List.mem_map.1 hrow
      exact codeRow_in n T r)
  rw [a1, ok_bind, a2]
  simp only [trainState, tableData, List.map_map, List.length_map]
  congr 2
  · apply List.map_congr_left
    intro r _
    exact tab_congr (fun j hj => lastValue_tab (code T r) hj)
  · apply tab_congr
    intro j hj
    apply List.map_congr_left
    intro r _
    exact lastValue_tab (code T r) hj

end FastPGM
