import Verif.Lemmas.Dataset5
import Mathlib.Data.List.Induction

/-!
Properties C50 to C53, C59 and C60: data files.
-/

namespace FastPGM

open Spec

/-! ### C50: training data -/

/-- C50.  Loading a CSV file as training data.  Let `T` be the table of the file.  In column `j` the distinct texts receive the codes
0, 1, ... in the order of first appearance (`firstSeen`); the value map of the column contains exactly these texts with these codes; the
recorded number of values is the number of distinct texts; and every cell of the three copies of the data holds the code of its text. -/
theorem C50_encode {n : Nat} (hn : 0 < n) {names : List Str} {T : List (List Str)} {file : Str} (hf : CsvFile names T file)
    (hnames : CleanRow n names) (hT : ∀ r ∈ T, CleanRow n r) (hne : T ≠ []) (hnd : ((List.range n).map (cellText names)).Nodup) (cls : Int) :
    ∃ D, loadCSVTraining file true cls = .ok D ∧ D.numVars = n ∧ D.numInstance = T.length ∧ D.classVar = cls ∧
      D.varNames = (List.range n).map (cellText names) ∧ D.valueIds.length = n ∧
      (∀ j < n, ∀ s, (D.valueIds.getD j []).find s = if s ∈ column T j then some ((firstSeen (column T j)).idxOf s : Int) else none) ∧
      D.numValues = (List.range n).map (fun j => ((firstSeen (column T j)).length : Int)) ∧
      D.columns = (List.range n).map (fun j => (column T j).map (fun s => ((firstSeen (column T j)).idxOf s : Int))) ∧
      D.allVars = T.map (fun r => (List.range n).map (fun j => ((firstSeen (column T j)).idxOf (cellText r j) : Int))) ∧
      D.rows = T.map (fun r => (List.range n).map (fun j : Nat => ((j : Int), ((firstSeen (column T j)).idxOf (cellText r j) : Int)))) := by
  have e : cellTexts names = (List.range n).map (cellText names) := by rw [cellTexts, hnames.1]; rfl
  refine ⟨_, loadCSVTraining_eq hn hf hnames hT hne (e ▸ hnd) cls, rfl, rfl, rfl, e, by simp [tableData], ?_, rfl, ?_, rfl, rfl⟩
  · intro j hj s
    simp only [tableData]
    rw [getD_tab hj, codesFrom_find]
    simp only [mem_firstSeen, Int.zero_add]
  · simp only [tableData, column, List.map_map]
    rfl

/-- C50.  The codes are one-to-one: within a column, equal codes mean equal texts, every code is below the number of values, and the text is
found again from its code. -/
theorem C50_codes_injective (col : List Str) : (firstSeen col).Nodup ∧ (∀ s, s ∈ firstSeen col ↔ s ∈ col) ∧
    (∀ s ∈ col, (firstSeen col).idxOf s < (firstSeen col).length ∧ (firstSeen col)[(firstSeen col).idxOf s]? = some s) ∧
    (∀ s ∈ col, ∀ t ∈ col, (firstSeen col).idxOf s = (firstSeen col).idxOf t → s = t) := by
  have hget : ∀ s ∈ col, (firstSeen col).idxOf s < (firstSeen col).length ∧ (firstSeen col)[(firstSeen col).idxOf s]? = some s := by
    intro s hs
    have hlt := List.idxOf_lt_length_iff.2 (mem_firstSeen.2 hs)
    exact ⟨hlt, by rw [List.getElem?_eq_getElem hlt, List.getElem_idxOf]⟩
  refine ⟨firstSeen_nodup col, fun s => mem_firstSeen, hget, ?_⟩
  intro s hs t ht e
  have h1 := (hget s hs).2
  have h2 := (hget t ht).2
  rw [e, h2] at h1
  exact (Option.some.inj h1).symm

/-- C50.  The order of the codes is the order of first appearance. -/
theorem C50_first_appearance (col : List Str) : ∀ s ∈ col, ∀ t ∈ col,
    (firstSeen col).idxOf s < (firstSeen col).idxOf t ↔ col.idxOf s < col.idxOf t := by
  induction col using List.reverseRecOn with
  | nil => intro s hs; simp at hs
  | append_singleton xs y ih =>
    intro s hs t ht
    rw [firstSeen_snoc]
    by_cases hy : y ∈ xs
    · have hm : ∀ u ∈ xs ++ [y], u ∈ xs := by
        intro u hu
        rcases List.mem_append.1 hu with h | h
        · exact h
        · rw [List.mem_singleton.1 h]; exact hy
      rw [if_pos hy, List.idxOf_append_of_mem (hm s hs), List.idxOf_append_of_mem (hm t ht)]
      exact ih s (hm s hs) t (hm t ht)
    · rw [if_neg hy]
      have hy' : y ∉ firstSeen xs := fun h => hy (mem_firstSeen.1 h)
      have val : ∀ u ∈ xs, (firstSeen xs ++ [y]).idxOf u = (firstSeen xs).idxOf u ∧ (xs ++ [y]).idxOf u = xs.idxOf u ∧
          (firstSeen xs).idxOf u < (firstSeen xs).length ∧ xs.idxOf u < xs.length := fun u hu =>
        ⟨List.idxOf_append_of_mem (mem_firstSeen.2 hu), List.idxOf_append_of_mem hu, List.idxOf_lt_length_iff.2 (mem_firstSeen.2 hu),
          List.idxOf_lt_length_iff.2 hu⟩
      have vy1 : (firstSeen xs ++ [y]).idxOf y = (firstSeen xs).length := by rw [List.idxOf_append_of_notMem hy']; simp
      have vy2 : (xs ++ [y]).idxOf y = xs.length := by rw [List.idxOf_append_of_notMem hy]; simp
      rcases List.mem_append.1 hs with h1 | h1 <;> rcases List.mem_append.1 ht with h2 | h2
      · obtain ⟨a1, a2, _, _⟩ := val s h1
        obtain ⟨b1, b2, _, _⟩ := val t h2
        rw [a1, a2, b1, b2]
        exact ih s h1 t h2
      · rw [List.mem_singleton.1 h2, vy1, vy2]
        obtain ⟨a1, a2, a3, a4⟩ := val s h1
        rw [a1, a2]
        exact ⟨fun _ => a4, fun _ => a3⟩
      · rw [List.mem_singleton.1 h1, vy1, vy2]
        obtain ⟨b1, b2, b3, b4⟩ := val t h2
        rw [b1, b2]
        constructor <;> intro h <;> omega
      · rw [List.mem_singleton.1 h1, List.mem_singleton.1 h2]
        constructor <;> intro h <;> omega

/-- C50.  A duplicate variable name ends the program. -/
theorem C50_duplicate_names_exit {n : Nat} (hn : 0 < n) {names : List Str} {T : List (List Str)} {file : Str} (hf : CsvFile names T file)
    (hnames : CleanRow n names) (hT : ∀ r ∈ T, CleanRow n r) (hne : T ≠ []) (hnd : ¬ ((List.range n).map (cellText names)).Nodup)
    (strVal : Bool) (cls : Int) : loadCSVTraining file strVal cls = .error .exit := by
  have e : cellTexts names = (List.range n).map (cellText names) := by rw [cellTexts, hnames.1]; rfl
  unfold loadCSVTraining
  obtain ⟨h1, _⟩ := csvFile_read hf (csvLine_newline (fun c hc => (hnames.2 c hc).2)) (cleanLines hT) hne
    (fun (st : CsvState) (_ : Str) => .ok st) { counter := [], ids := [], rows := [] }
  rcases e' : readTwo file with ⟨header, sample, f⟩
  rw [e'] at h1
  simp only at h1 ⊢
  subst h1
  rw [split_line hn hnames, ok_bind, if_pos (by rw [e]; exact hnd)]

theorem cells_missing {n : Nat} {parsed : List Str} (h : parsed.length < n) {st : CsvState × List (Int × Int)} (h1 : st.1.ids.length = n)
    (h2 : st.1.counter.length = n) : (List.range n).foldlM (trainCell true parsed) st = .error .ub := by
  obtain ⟨k, rfl⟩ : ∃ k, n = parsed.length + (k + 1) := ⟨n - parsed.length - 1, by omega⟩
  rw [List.range_add, List.foldlM_append]
  obtain ⟨st', hst, h1', h2'⟩ := foldlM_range (f := trainCell true parsed) (n := parsed.length) (b := st)
    (P := fun _ s => s.1.ids.length = parsed.length + (k + 1) ∧ s.1.counter.length = parsed.length + (k + 1)) ⟨h1, h2⟩ (by
      rintro i hi s ⟨g1, g2⟩
      unfold trainCell
      rw [rd_getElem hi, ok_bind]
      simp only [if_true]
      rw [rd_getElem (show i < s.1.ids.length by omega), ok_bind]
      split
      · rw [rd_getElem (show i < s.1.counter.length by omega), ok_bind]
        exact ⟨_, rfl, by simpa using g1, by simpa using g2⟩
      · exact ⟨_, rfl, g1, g2⟩)
  rw [hst, ok_bind, List.range_succ_eq_map, List.map_cons, List.foldlM_cons]
  have : trainCell true parsed st' (parsed.length + 0) = .error .ub := by
    unfold trainCell
    rw [show rd parsed (parsed.length + 0) = .error .ub by simp [rd]]
    rfl
  rw [this]
  rfl

/-- C50, boundary: a row with fewer cells than the header makes the loader read outside the row. -/
theorem C50_short_row_ub {n : Nat} (hn : 0 < n) {names : List Str} {P Q : List (List Str)} {r : List Str} {m : Nat} (hm : 0 < m) (hmn : m < n)
    (hnames : CleanRow n names) (hP : ∀ r ∈ P, CleanRow n r) (hr : CleanRow m r) (hQ : ∀ r ∈ Q, ∀ c ∈ r, CleanCell c)
    (hnd : ((List.range n).map (cellText names)).Nodup) (cls : Int) :
    loadCSVTraining (textOf (csvLine names :: (P ++ r :: Q).map csvLine)) true cls = .error .ub := by
  have e : cellTexts names = (List.range n).map (cellText names) := by rw [cellTexts, hnames.1]; rfl
  unfold loadCSVTraining
  obtain ⟨h1, h2⟩ := csvFile_read (CsvFile.newline (names := names) (T := P ++ r :: Q)) (csvLine_newline (fun c hc => (hnames.2 c hc).2)) (by
    intro l hl
    obtain ⟨x, hx, rfl⟩ := List.mem_map.1 hl
    apply csvLine_newline
    intro c hc
    rcases List.mem_append.1 hx with hx | hx
    · exact ((hP x hx).2 c hc).2
    · rcases List.mem_cons.1 hx with rfl | hx
      · exact (hr.2 c hc).2
      · exact (hQ x hx c hc).2) (by simp) (trainLine n true) (trainState n P [])
  rcases e' : readTwo (textOf (csvLine names :: (P ++ r :: Q).map csvLine)) with ⟨header, sample, f⟩
  rw [e'] at h1 h2
  simp only at h1 h2 ⊢
  subst h1
  rw [countP_line hn hnames, split_line hn hnames, ok_bind, if_neg (by rw [e]; simpa using hnd)]
  have h0 : ({ counter := List.replicate n (-1), ids := List.replicate n [], rows := [] } : CsvState) = trainState n P [] := by
    simp [trainState, column, firstSeen, codesFrom, replicate_eq_tab]
  rw [h0, h2, List.map_append, List.foldlM_append, trainLines hn hP P [] rfl, ok_bind, List.map_cons, List.foldlM_cons]
  have hub : trainLine n true (trainState n P P) (csvLine r) = .error .ub := by
    unfold trainLine
    rw [split_line hm hr, ok_bind, cells_missing (by simp [cellTexts, hr.1]; omega) (by simp [trainState]) (by simp [trainState])]
    rfl
  rw [hub]
  rfl

/-- C50, finding: a file that consists of a header without newline is read as one instance whose values are the variable names. -/
theorem C50_header_only {n : Nat} (hn : 0 < n) {names : List Str} (hnames : CleanRow n names)
    (hnd : ((List.range n).map (cellText names)).Nodup) (cls : Int) :
    loadCSVTraining (csvLine names) true cls = loadCSVTraining (textOf [csvLine names, csvLine names]) true cls := by
  have e : cellTexts names = (List.range n).map (cellText names) := by rw [cellTexts, hnames.1]; rfl
  have hh : 10 ∉ csvLine names := csvLine_newline (fun c hc => (hnames.2 c hc).2)
  obtain ⟨h1, h2⟩ := csvFile_read (CsvFile.newline (names := names) (T := [names])) hh (cleanLines (n := n) (by simpa using hnames)) (by simp)
    (trainLine n true) (trainState n [names] [])
  simp only [List.map_cons, List.map_nil] at h1 h2
  unfold loadCSVTraining
  rcases e' : readTwo (textOf [csvLine names, csvLine names]) with ⟨header, sample, f⟩
  rw [e'] at h1 h2
  simp only at h1 h2
  subst h1
  have e2 : readTwo (csvLine names) = (csvLine names, csvLine names, { rest := [], eof := true, fail := true }) := by
    unfold readTwo
    rw [getline_last hh]
    simp only
    rw [getline_eof]
  rw [e2]
  simp only
  rw [countP_line hn hnames, split_line hn hnames, ok_bind, ok_bind, if_neg (by rw [e]; simpa using hnd), if_neg (by rw [e]; simpa using hnd)]
  have h0 : ({ counter := List.replicate n (-1), ids := List.replicate n [], rows := [] } : CsvState) = trainState n [names] [] := by
    simp [trainState, column, firstSeen, codesFrom, replicate_eq_tab]
  rw [h0, h2, doWhile_eof _ (by omega), List.foldlM_cons]
  cases trainLine n true (trainState n [names] []) (csvLine names) <;> rfl

theorem split_nil (d : Str) : split [] d = .ok [[]] := by
  obtain ⟨ps, h1, _, h3, h4⟩ := C13_split [] d
  rw [h1]
  simp only [List.filter_nil, List.length_nil, Nat.zero_add] at h3 h4
  obtain ⟨p, rfl⟩ := List.length_eq_one_iff.1 h3
  simp only [weave] at h4
  rw [h4]

/-- C50, finding: with a newline after the header and at least two variables, the file without instances is undefined. -/
theorem C50_no_instances_ub {n : Nat} (hn : 1 < n) {names : List Str} (hnames : CleanRow n names)
    (hnd : ((List.range n).map (cellText names)).Nodup) (cls : Int) :
    loadCSVTraining (textOf [csvLine names]) true cls = .error .ub := by
  have e : cellTexts names = (List.range n).map (cellText names) := by rw [cellTexts, hnames.1]; rfl
  have hh : 10 ∉ csvLine names := csvLine_newline (fun c hc => (hnames.2 c hc).2)
  unfold loadCSVTraining
  have e2 : readTwo (textOf [csvLine names]) = (csvLine names, [], { rest := [], eof := true, fail := true }) := by
    unfold readTwo
    rw [textOf_cons, getline_line hh]
    simp only
    rw [show textOf [] = [] from rfl, getline_last (by simp)]
    rfl
  rw [e2]
  simp only
  rw [countP_line (by omega) hnames, split_line (by omega) hnames, ok_bind, if_neg (by rw [e]; simpa using hnd), doWhile_eof _ (by omega)]
  have : trainLine n true { counter := List.replicate n (-1), ids := List.replicate n [], rows := [] } [] = .error .ub := by
    unfold trainLine
    rw [show trimRight [] = [] by rw [trimRight]; rfl, split_nil, ok_bind, cells_missing (by simpa using hn) (by simp) (by simp)]
    rfl
  rw [this]
  rfl

/-- What `doWhileGetline` leaves unchanged if its body does. -/
theorem doWhile_keeps {σ τ : Type} (p : σ → τ) {body : σ → Str → Except Fault σ} (h : ∀ s l s', body s l = .ok s' → p s' = p s) :
    ∀ (fuel : Nat) (st : σ) (sample : Str) (f : InFile) (st' : σ), doWhileGetline body fuel st sample f = .ok st' → p st' = p st := by
  intro fuel
  induction fuel with
  | zero => intro st sample f st' he; exact absurd he (by simp [doWhileGetline])
  | succ fuel ih =>
    intro st sample f st' he
    rw [doWhileGetline] at he
    cases hb : body st sample with
    | error e => rw [hb] at he; exact absurd he (by simp)
    | ok s1 =>
      rw [hb, ok_bind] at he
      rcases getline f sample with ⟨s, g⟩
      simp only at he
      split at he
      · cases he; exact h _ _ _ hb
      · rw [ih _ _ _ _ he]; exact h _ _ _ hb

theorem trainLine_integers {n : Nat} {st st' : CsvState} {l : Str} (h : trainLine n false st l = .ok st') : st'.ids = st.ids := by
  unfold trainLine at h
  cases hs : split (trimRight l) [44] with
  | error e => rw [hs] at h; exact absurd h (by simp)
  | ok parsed =>
    rw [hs, ok_bind] at h
    have key : ∀ (ks : List Nat) (a b : CsvState × List (Int × Int)), ks.foldlM (trainCell false parsed) a = .ok b → b.1.ids = a.1.ids := by
      intro ks
      induction ks with
      | nil => intro a b he; cases he; rfl
      | cons k ks ih =>
        intro a b he
        rw [List.foldlM_cons] at he
        cases hc : trainCell false parsed a k with
        | error e => rw [hc] at he; exact absurd he (by simp)
        | ok c =>
          rw [hc, ok_bind] at he
          rw [ih _ _ he]
          unfold trainCell at hc
          cases hr : rd parsed k with
          | error e => rw [hr] at hc; exact absurd hc (by simp)
          | ok cell =>
            rw [hr, ok_bind] at hc
            simp only [Bool.false_eq_true, if_false] at hc
            cases hi : stoi cell with
            | error e => rw [hi] at hc; exact absurd hc (by simp)
            | ok v => rw [hi, ok_bind] at hc; cases hc; rfl
    cases hf : (List.range n).foldlM (trainCell false parsed) (st, []) with
    | error e => rw [hf] at h; exact absurd h (by simp)
    | ok b =>
      rw [hf, ok_bind] at h
      cases h
      exact key _ _ _ hf

/-- C50, finding: in integer mode (`str_val` false) every recorded number of values is 0, whatever the file contains. -/
theorem C50_integer_mode (file : Str) (cls : Int) (D : Dataset) (h : loadCSVTraining file false cls = .ok D) :
    D.numValues = List.replicate D.numVars 0 := by
  unfold loadCSVTraining at h
  simp only at h
  generalize (readTwo file).1 = header, (readTwo file).2.1 = sample, (readTwo file).2.2 = f at h
  generalize header.countP (fun c => decide (c = 44)) + 1 = n at h
  cases hs : split (trimRight header) [44] with
  | error e => rw [hs] at h; exact absurd h (by simp)
  | ok names =>
    rw [hs, ok_bind] at h
    split at h
    · exact absurd h (by simp)
    · cases hd : doWhileGetline (trainLine n false) (file.length + 1) { counter := List.replicate n (-1), ids := List.replicate n [], rows := [] } sample f with
      | error e => rw [hd] at h; exact absurd h (by simp)
      | ok st =>
        rw [hd, ok_bind] at h
        have hids : st.ids = List.replicate n [] := doWhile_keeps (fun s : CsvState => s.ids) (fun s l s' he => trainLine_integers he) _ _ _ _ _ hd
        have hv : (List.range n).mapM (fun i => do return ((← rd st.ids i).length : Int)) = (.ok (tab n (fun _ => 0)) : Except Fault _) := by
          apply range_mapM_tab
          intro i hi
          rw [hids, replicate_eq_tab, rd_tab hi]
          rfl
        rw [hv, ok_bind] at h
        have hk : ∀ D0 D' : Dataset, (D0.vector2IntArray >>= fun D => D.rowMajor2ColumnMajor) = .ok D' →
            D'.numValues = D0.numValues ∧ D'.numVars = D0.numVars := by
          intro D0 D' he
          obtain ⟨D1, h1, h2⟩ := ok_of_bind he
          unfold Dataset.vector2IntArray at h1
          unfold Dataset.rowMajor2ColumnMajor at h2
          obtain ⟨all, _, h1⟩ := ok_of_bind h1
          obtain ⟨cols, _, h2⟩ := ok_of_bind h2
          cases h1
          cases h2
          exact ⟨rfl, rfl⟩
        obtain ⟨e1, e2⟩ := hk _ _ h
        rw [e1, e2, replicate_eq_tab]

-- two columns, three instances: "a,b\nx,y\nz,y \nx,w" (no newline at the end)
example : ∃ D, loadCSVTraining (textOf [csvLine [[97], [98]], csvLine [[120], [121]], csvLine [[122], [121, 32]]] ++ csvLine [[120], [119]]) true 0 = .ok D ∧
    D.numValues = [2, 2] ∧ D.columns = [[0, 1, 0], [0, 0, 1]] := by
  obtain ⟨D, h, _, _, _, _, _, _, h7, h8, _⟩ := C50_encode (n := 2) (by omega) (names := [[97], [98]])
    (T := [[[120], [121]], [[122], [121, 32]], [[120], [119]]])
    (CsvFile.open_ [[[120], [121]], [[122], [121, 32]]] [[120], [119]] rfl (by decide)) (by simp [CleanRow, CleanCell])
    (by simp [CleanRow, CleanCell]) (by simp) (by decide) 0
  refine ⟨D, h, ?_, ?_⟩
  · rw [h7]; decide
  · rw [h8]; decide

/-! ### C51: test data -/

/-- C51.  Loading a CSV file as test data, for any value maps: of every row exactly the cells are kept whose text is not empty and occurs
in the value map of its column, with the number found there; the order is the order of the columns. -/
theorem C51_encode {D : Dataset} (hn : 0 < D.numVars) (hids : D.numVars ≤ D.valueIds.length) {names : List Str} {T : List (List Str)}
    {file : Str} (hf : CsvFile names T file) (hnames : CleanRow D.numVars names) (hT : ∀ r ∈ T, CleanRow D.numVars r) (hne : T ≠ []) (cls : Int) :
    D.loadCSVTesting file true cls = .ok { D with
      rows := D.rows ++ T.map (fun r => (List.range D.numVars).filterMap (fun j =>
        if cellText r j = [] then none else ((D.valueIds.getD j []).find (cellText r j)).map (fun v => ((j : Int), v))))
      numInstance := D.rows.length + T.length
      classVar := cls } := by
  unfold Dataset.loadCSVTesting
  have hv : D.valueIds ≠ [] := by
    intro e
    rw [e] at hids
    simp at hids
    omega
  obtain ⟨_, h2⟩ := csvFile_read hf (csvLine_newline (fun c hc => (hnames.2 c hc).2)) (cleanLines hT) hne
    (testLine D.valueIds D.numVars true) D.rows
  rw [if_neg (by simp [hv])]
  rcases e' : readTwo file with ⟨header, sample, f⟩
  rw [e'] at h2
  simp only at h2 ⊢
  rw [h2, testLines hn hids hT, ok_bind]
  simp only [List.length_append, List.length_map]
  rfl

/-- C51.  Training and test file together: in the test row, variable `j` has the value `v` exactly if its text is not empty, occurs in
column `j` of the training table, and `v` is its training code; no variable occurs twice. -/
theorem C51_training_codes {n : Nat} (hn : 0 < n) {names : List Str} {T0 : List (List Str)} {file0 : Str} (hf0 : CsvFile names T0 file0)
    (hnames : CleanRow n names) (hT0 : ∀ r ∈ T0, CleanRow n r) (hne0 : T0 ≠ []) (hnd : ((List.range n).map (cellText names)).Nodup)
    {names' : List Str} {T : List (List Str)} {file : Str} (hf : CsvFile names' T file) (hnames' : CleanRow n names')
    (hT : ∀ r ∈ T, CleanRow n r) (hne : T ≠ []) (cls : Int) :
    ∃ D D', loadCSVTraining file0 true cls = .ok D ∧ D.forTesting.loadCSVTesting file true cls = .ok D' ∧ D'.numInstance = T.length ∧
      D'.rows.length = T.length ∧ ∀ (i : Nat) (hi : i < T.length), ∃ row, D'.rows[i]? = some row ∧
        row.Pairwise (fun p q => p.1 < q.1) ∧
        ∀ (k v : Int), (k, v) ∈ row ↔ ∃ j : Nat, j < n ∧ k = j ∧ cellText T[i] j ≠ [] ∧ cellText T[i] j ∈ column T0 j ∧
          v = ((firstSeen (column T0 j)).idxOf (cellText T[i] j) : Int) := by
  obtain ⟨D, hD, h1, _, _, _, h5, h6, _⟩ := C50_encode hn hf0 hnames hT0 hne0 hnd cls
  have h1' : D.forTesting.numVars = n := h1
  have hload := C51_encode (D := D.forTesting) (by rw [h1']; exact hn) (by rw [h1']; exact Nat.le_of_eq h5.symm) hf (by rw [h1']; exact hnames')
    (by rw [h1']; exact hT) hne cls
  refine ⟨D, _, hD, hload, by simp [Dataset.forTesting], by simp [Dataset.forTesting], ?_⟩
  intro i hi
  refine ⟨_, by simp only [Dataset.forTesting, List.nil_append, List.getElem?_map, List.getElem?_eq_getElem hi, Option.map_some]; rfl, ?_, ?_⟩
  · rw [List.pairwise_filterMap]
    refine List.Pairwise.imp ?_ List.pairwise_lt_range
    intro a b hab p hp q hq
    have key : ∀ (c : Nat) (x : Int × Int), (if cellText T[i] c = [] then none else
        ((D.valueIds.getD c []).find (cellText T[i] c)).map (fun v => ((c : Int), v))) = some x → x.1 = c := by
      intro c x hx
      split at hx
      · exact absurd hx (by simp)
      · rw [Option.map_eq_some_iff] at hx
        obtain ⟨v, _, rfl⟩ := hx
        rfl
    have e1 := key a p hp
    have e2 := key b q hq
    omega
  · intro k v
    rw [List.mem_filterMap]
    simp only [List.mem_range]
    constructor
    · rintro ⟨j, hj, hx⟩
      have hj' : j < n := by rw [← h1]; exact hj
      split at hx
      · exact absurd hx (by simp)
      · rename_i hc
        rw [h6 j hj'] at hx
        split at hx
        · rename_i hm
          simp only [Option.map_some, Option.some.injEq, Prod.mk.injEq] at hx
          exact ⟨j, hj', hx.1.symm, hc, hm, hx.2.symm⟩
        · exact absurd hx (by simp)
    · rintro ⟨j, hj, rfl, hc, hm, rfl⟩
      refine ⟨j, by rw [h1]; exact hj, ?_⟩
      rw [if_neg hc, h6 j hj, if_pos hm]
      rfl

/-- C51.  Without value maps the loader ends the program. -/
theorem C51_no_maps_exit (D : Dataset) (h : D.valueIds = []) (file : Str) (cls : Int) : D.loadCSVTesting file true cls = .error .exit := by
  simp [Dataset.loadCSVTesting, h]

-- trained on "a,b\nx,y\nz,w\n", tested on "a,b\nz,\nq,w\n": the unknown "q" and the empty cell are left out
example : ∃ D D', loadCSVTraining (textOf (csvLine [[97], [98]] :: [[[120], [121]], [[122], [119]]].map csvLine)) true 0 = .ok D ∧
    D.forTesting.loadCSVTesting (textOf (csvLine [[97], [98]] :: [[[122], []], [[113], [119]]].map csvLine)) true 0 = .ok D' ∧
    ∃ row, D'.rows[1]? = some row ∧ (1, 1) ∈ row ∧ ∀ v, (0, v) ∉ row := by
  obtain ⟨D, D', h1, h2, _, _, h3⟩ := C51_training_codes (n := 2) (by omega) (names := [[97], [98]]) (T0 := [[[120], [121]], [[122], [119]]])
    CsvFile.newline (by simp [CleanRow, CleanCell]) (by simp [CleanRow, CleanCell]) (by simp) (by decide) (names' := [[97], [98]])
    (T := [[[122], []], [[113], [119]]]) CsvFile.newline (by simp [CleanRow, CleanCell]) (by simp [CleanRow, CleanCell]) (by simp) 0
  obtain ⟨row, r1, _, r3⟩ := h3 1 (by decide)
  refine ⟨D, D', h1, h2, row, r1, ?_, ?_⟩
  · exact (r3 1 1).2 ⟨1, by omega, rfl, by decide, by decide, by decide⟩
  · intro v hv
    obtain ⟨j, _, hj, _, hm, _⟩ := (r3 0 v).1 hv
    have : j = 0 := by omega
    subst this
    revert hm
    decide

/-! ### C53: the arrays -/

/-- C53.  The row-major array holds at (instance, variable) the last value listed for the variable, 0 if there is none; the column-major
array is its transpose. -/
theorem C53_arrays (D : Dataset) (hlen : D.rows.length = D.numInstance) (hrows : ∀ row ∈ D.rows, ∀ p ∈ row, 0 ≤ p.1 ∧ p.1 < D.numVars) :
    ∃ D1 D2, D.vector2IntArray = .ok D1 ∧ D1.rowMajor2ColumnMajor = .ok D2 ∧
      D2.allVars = D.rows.map (fun row => (List.range D.numVars).map (lastValue row)) ∧
      D2.columns = (List.range D.numVars).map (fun i => D.rows.map (fun row => lastValue row i)) ∧
      D2 = { D with allVars := D2.allVars, columns := D2.columns } := by
  obtain ⟨h1, h2⟩ := arrays_eq hlen hrows
  exact ⟨_, _, h1, h2, rfl, rfl, rfl⟩

/-- C53.  A listed variable outside the range makes the conversion undefined. -/
theorem C53_out_of_range_ub (D : Dataset) (hlen : D.rows.length = D.numInstance)
    (h : ∃ row ∈ D.rows, ∃ p ∈ row, p.1 < 0 ∨ (D.numVars : Int) ≤ p.1) : D.vector2IntArray = .error .ub := by
  apply vector2IntArray_ub hlen
  intro hall
  obtain ⟨row, hr, p, hp, h⟩ := h
  have := hall row hr p hp
  omega

theorem arrays_of_ok {D : Dataset} {D' : Dataset} (hlen : D.rows.length = D.numInstance)
    (h : (D.vector2IntArray >>= fun D => D.rowMajor2ColumnMajor) = .ok D') :
    (∀ row ∈ D.rows, RowIn D.numVars row) ∧ D' = { D with
      allVars := D.rows.map (fun row => tab D.numVars (lastValue row))
      columns := tab D.numVars (fun i => D.rows.map (fun row => lastValue row i)) } := by
  by_cases hr : ∀ row ∈ D.rows, RowIn D.numVars row
  · obtain ⟨h1, h2⟩ := arrays_eq hlen hr
    rw [h1, ok_bind, h2] at h
    exact ⟨hr, (Except.ok.inj h).symm⟩
  · rw [vector2IntArray_ub hlen hr] at h
    exact absurd h (by simp)

/-- C53.  Every data set the CSV training loader returns, in both modes and for every file, has these arrays. -/
theorem C53_csv (file : Str) (strVal : Bool) (cls : Int) (D : Dataset) (h : loadCSVTraining file strVal cls = .ok D) :
    D.rows.length = D.numInstance ∧ (∀ row ∈ D.rows, ∀ p ∈ row, 0 ≤ p.1 ∧ p.1 < D.numVars) ∧
      D.allVars = D.rows.map (fun row => (List.range D.numVars).map (lastValue row)) ∧
      D.columns = (List.range D.numVars).map (fun i => D.rows.map (fun row => lastValue row i)) := by
  unfold loadCSVTraining at h
  rcases readTwo file with ⟨header, sample, f⟩
  simp only at h
  obtain ⟨names, _, h⟩ := ok_of_bind h
  split at h
  · exact absurd h (by simp)
  · obtain ⟨st, _, h⟩ := ok_of_bind h
    obtain ⟨nv, _, h⟩ := ok_of_bind h
    obtain ⟨hr, rfl⟩ := arrays_of_ok (by rfl) h
    exact ⟨rfl, hr, rfl, rfl⟩

/-- C53.  The same for the LIBSVM training loader. -/
theorem C53_libsvm (file : Str) (cls : Int) (D : Dataset) (h : loadLIBSVMTraining file cls = .ok D) :
    D.rows.length = D.numInstance ∧ (∀ row ∈ D.rows, ∀ p ∈ row, 0 ≤ p.1 ∧ p.1 < D.numVars) ∧
      D.allVars = D.rows.map (fun row => (List.range D.numVars).map (lastValue row)) ∧
      D.columns = (List.range D.numVars).map (fun i => D.rows.map (fun row => lastValue row i)) := by
  have h' := h
  unfold loadLIBSVMTraining at h'
  obtain ⟨⟨rows, m⟩, h1, _⟩ := ok_of_bind h'
  rw [whileGetline_lines _ _ _ (by omega)] at h1
  rw [loadLIBSVMTraining_lines file cls h1] at h
  split at h
  · rename_i hin
    cases h
    exact ⟨rfl, hin, rfl, rfl⟩
  · exact absurd h (by simp)

theorem colMax_spec (l : List Int) : (∀ v ∈ l, v ≤ colMax l) ∧ -1 ≤ colMax l ∧ (colMax l = -1 ∨ colMax l ∈ l) := by
  unfold colMax
  suffices H : ∀ (l : List Int) (m : Int), (∀ v ∈ l, v ≤ l.foldl (fun m v => if v > m then v else m) m) ∧
      m ≤ l.foldl (fun m v => if v > m then v else m) m ∧
      (l.foldl (fun m v => if v > m then v else m) m = m ∨ l.foldl (fun m v => if v > m then v else m) m ∈ l) from H l (-1)
  intro l
  induction l with
  | nil => intro m; simp
  | cons a l ih =>
    intro m
    obtain ⟨h1, h2, h3⟩ := ih (if a > m then a else m)
    have hb : m ≤ (if a > m then a else m) ∧ a ≤ (if a > m then a else m) := by split <;> omega
    rw [List.foldl_cons]
    refine ⟨?_, ?_, ?_⟩
    · intro v hv
      rcases List.mem_cons.1 hv with rfl | hv
      · omega
      · exact h1 v hv
    · omega
    · rcases h3 with h | h
      · split at h
        · rename_i hlt
          rw [if_pos hlt]
          right
          rw [h]
          simp
        · rename_i hlt
          rw [if_neg hlt]
          exact .inl h
      · exact .inr (List.mem_cons_of_mem _ h)

/-- C60.  After loading a LIBSVM training file, every stored value of a variable is below its recorded number of values, and that number is
attained: it is 0 or one more than a stored value. -/
theorem C60_cardinalities (file : Str) (cls : Int) (D : Dataset) (h : loadLIBSVMTraining file cls = .ok D) :
    D.numValues.length = D.numVars ∧ ∀ i < D.numVars, ∃ k col, D.numValues[i]? = some k ∧ D.columns[i]? = some col ∧
      (∀ v ∈ col, v < k) ∧ 0 ≤ k ∧ (k = 0 ∨ k - 1 ∈ col) := by
  have h' := h
  unfold loadLIBSVMTraining at h'
  obtain ⟨⟨rows, m⟩, h1, _⟩ := ok_of_bind h'
  rw [whileGetline_lines _ _ _ (by omega)] at h1
  rw [loadLIBSVMTraining_lines file cls h1] at h
  split at h
  · cases h
    refine ⟨by simp [svmData], ?_⟩
    intro i hi
    simp only [svmData] at hi ⊢
    refine ⟨_, _, by rw [tab_get?, if_pos hi], by rw [tab_get?, if_pos hi], ?_⟩
    obtain ⟨c1, c2, c3⟩ := colMax_spec (rows.map (fun row => lastValue row i))
    refine ⟨fun v hv => by have := c1 v hv; omega, by omega, ?_⟩
    rcases c3 with c3 | c3
    · left; omega
    · right
      rw [Int.add_sub_cancel]
      exact c3
  · exact absurd h (by simp)

/-- C60.  Variable and instance counts of a LIBSVM training file: the variables are numbered up to the largest feature index; the variables
are called by their numbers. -/
theorem C60_names (file : Str) (cls : Int) (D : Dataset) (h : loadLIBSVMTraining file cls = .ok D) :
    D.varNames = (List.range D.numVars).map (fun i : Nat => intToStr i) ∧ D.classVar = cls ∧ D.numInstance = (linesOf file).length := by
  have h' := h
  unfold loadLIBSVMTraining at h'
  obtain ⟨⟨rows, m⟩, h1, _⟩ := ok_of_bind h'
  rw [whileGetline_lines _ _ _ (by omega)] at h1
  rw [loadLIBSVMTraining_lines file cls h1] at h
  have hcount : ∀ (ls : List Str) (st st' : List (List (Int × Int)) × Int), ls.foldlM (svmTrainLine cls) st = .ok st' →
      st'.1.length = st.1.length + ls.length := by
    intro ls
    induction ls with
    | nil => intro st st' he; cases he; rfl
    | cons l ls ih =>
      intro st st' he
      rw [List.foldlM_cons] at he
      obtain ⟨st1, he1, he2⟩ := ok_of_bind he
      rw [ih st1 st' he2]
      unfold svmTrainLine at he1
      obtain ⟨parsed, _, he1⟩ := ok_of_bind he1
      obtain ⟨c, _, he1⟩ := ok_of_bind he1
      obtain ⟨label, _, he1⟩ := ok_of_bind he1
      obtain ⟨⟨row, m'⟩, _, he1⟩ := ok_of_bind he1
      cases he1
      simp
      omega
  split at h
  · cases h
    have := hcount _ _ _ h1
    simp at this
    exact ⟨rfl, rfl, this⟩
  · exact absurd h (by simp)

/-! ### C52: LIBSVM files -/

/-- C52.  Writing complete data in LIBSVM format and loading it as test data gives back the instances: the loaded row lists the variables
in order, and it is a rearrangement of the row that was written. -/
theorem C52_store_load (D : Dataset) (hlen : D.rows.length = D.numInstance) (h0 : 0 ≤ D.classVar) (h1 : D.classVar < D.numVars)
    (hn : D.numVars ≤ 2147483647) (hrows : ∀ row ∈ D.rows, CompleteRow D.numVars row) (hval : ∀ row ∈ D.rows, ∀ p ∈ row, IntRange p.2)
    (D' : Dataset) (hnum : D'.numVars = D.numVars) (hempty : D'.rows = []) :
    ∃ text D'', D.storeLIBSVM = .ok text ∧ D'.loadLIBSVMTesting text D.classVar = .ok D'' ∧ D''.numInstance = D.numInstance ∧
      D''.classVar = D.classVar ∧ D''.rows.length = D.rows.length ∧
      ∀ i (hi : i < D.rows.length), ∃ row, D''.rows[i]? = some row ∧ D.rows[i].Perm row ∧
        row.map (fun p => p.1) = (List.range D.numVars).map (fun i : Nat => (i : Int)) := by
  refine ⟨_, { D' with
      rows := D.rows.map (fun row => tab D.numVars (fun i => ((i : Int), lastValue row i)))
      numInstance := D.rows.length
      classVar := D.classVar }, storeLIBSVM_eq hlen h0 h1 hrows, ?_⟩
  · have hvalid : ∀ row ∈ D.rows, (storedLine D.classVar row).Valid := fun row hr => storedLine_valid h0 h1 hn (hrows row hr) (hval row hr)
    refine ⟨?_, hlen, rfl, by simp, ?_⟩
    · rw [loadLIBSVMTesting_lines]
      have := completeLines_textOf (ls := D.rows.map (fun row => (storedLine D.classVar row).text)) (by
        intro l hl
        obtain ⟨row, hr, rfl⟩ := List.mem_map.1 hl
        exact (hvalid row hr).newline) [] (by simp)
      rw [List.append_nil] at this
      rw [this, hnum, hempty]
      have hs := svmTestLines (n := D.numVars) ⟨h0, h1⟩ (D.rows.map (storedLine D.classVar)) (by
        intro L hL
        obtain ⟨row, hr, rfl⟩ := List.mem_map.1 hL
        exact hvalid row hr) (by
        intro L hL p hp
        obtain ⟨row, hr, rfl⟩ := List.mem_map.1 hL
        exact ((hrows row hr).range (List.mem_filter.1 hp).1).1) []
      rw [List.map_map] at hs
      rw [show (D.rows.map (fun row => (storedLine D.classVar row).text)) = D.rows.map (SvmLine.text ∘ storedLine D.classVar) from rfl, hs, ok_bind,
        List.map_map]
      have e : (D.rows.map ((fun L => tab D.numVars (fun i => ((i : Int), lastValue ((D.classVar, L.label) :: L.feats) i))) ∘ storedLine D.classVar)) =
          D.rows.map (fun row => tab D.numVars (fun i => ((i : Int), lastValue row i))) := by
        apply List.map_congr_left
        intro row hr
        apply tab_congr
        intro i _
        rw [storedLine_value (hrows row hr) h1]
      rw [e]
      simp
    · intro i hi
      refine ⟨_, by simp only [List.getElem?_map, List.getElem?_eq_getElem hi, Option.map_some], (hrows _ (List.getElem_mem hi)).perm, ?_⟩
      simp [tab]

/-- C52.  Data that is not complete ends the program. -/
theorem C52_incomplete_exit (D : Dataset) (row : List (Int × Int)) (rows : List (List (Int × Int))) (hr : D.rows = row :: rows)
    (hlen : 0 < D.numInstance) (h : row.length ≠ D.numVars) : D.storeLIBSVM = .error .exit := by
  unfold Dataset.storeLIBSVM
  obtain ⟨k, hk⟩ : ∃ k, D.numInstance = k + 1 := ⟨D.numInstance - 1, by omega⟩
  rw [hk, List.range_succ_eq_map, List.foldlM_cons, hr, rd_ok (a := row) rfl, ok_bind, svmStoreRow, if_pos h]
  rfl

/-- C52, finding: the test loader ignores a last line that is not ended by a newline. -/
theorem C52_unterminated_line_lost (D : Dataset) (lines : List Str) (h : ∀ l ∈ lines, 10 ∉ l) (last : Str) (hl : 10 ∉ last) (cls : Int) :
    D.loadLIBSVMTesting (textOf lines ++ last) cls = D.loadLIBSVMTesting (textOf lines) cls := by
  have := completeLines_textOf h [] (by simp)
  rw [List.append_nil] at this
  rw [loadLIBSVMTesting_lines, loadLIBSVMTesting_lines, completeLines_textOf h last hl, this]

/-- C52, finding: the training loader counts only the variables up to the largest feature with a non-zero value, `M`.  If the class variable
is among them, the written data is loaded with the variables 0, ..., `M` (later ones, which are 0 everywhere, are lost); if the class variable
has a larger number, the loader writes outside its array. -/
theorem C52_training (D : Dataset) (hlen : D.rows.length = D.numInstance) (h0 : 0 ≤ D.classVar) (h1 : D.classVar < D.numVars)
    (hn : D.numVars ≤ 2147483647) (hrows : ∀ row ∈ D.rows, CompleteRow D.numVars row) (hval : ∀ row ∈ D.rows, ∀ p ∈ row, IntRange p.2)
    (M : Nat) (hM : ∃ row ∈ D.rows, ∃ p ∈ row, p.1 = M ∧ p.1 ≠ D.classVar ∧ p.2 ≠ 0)
    (hmax : ∀ row ∈ D.rows, ∀ p ∈ row, p.1 ≠ D.classVar → p.2 ≠ 0 → p.1 ≤ M) :
    ∃ text, D.storeLIBSVM = .ok text ∧
      (D.classVar ≤ M → ∃ D', loadLIBSVMTraining text D.classVar = .ok D' ∧ D'.numVars = M + 1 ∧ D'.numInstance = D.numInstance ∧
        D'.columns = (List.range (M + 1)).map (fun i => D.rows.map (fun row => lastValue row i))) ∧
      (M < D.classVar → loadLIBSVMTraining text D.classVar = .error .ub) := by
  refine ⟨_, storeLIBSVM_eq hlen h0 h1 hrows, ?_⟩
  have hvalid : ∀ row ∈ D.rows, (storedLine D.classVar row).Valid := fun row hr => storedLine_valid h0 h1 hn (hrows row hr) (hval row hr)
  have hl := linesOf_textOf (ls := D.rows.map (fun row => (storedLine D.classVar row).text)) (by
        intro l hl
        obtain ⟨row, hr, rfl⟩ := List.mem_map.1 hl
        exact (hvalid row hr).newline) [] (by simp)
  rw [List.append_nil, if_pos rfl, List.append_nil] at hl
  have hs := svmTrainLines D.classVar (D.rows.map (storedLine D.classVar)) (by
        intro L hL
        obtain ⟨row, hr, rfl⟩ := List.mem_map.1 hL
        exact hvalid row hr) [] (-1)
  rw [List.map_map, show D.rows.map (SvmLine.text ∘ storedLine D.classVar) = D.rows.map (fun row => (storedLine D.classVar row).text) from rfl,
    List.nil_append, List.map_map] at hs
  generalize hmi : maxIndex (-1) ((D.rows.map (storedLine D.classVar)).flatMap (fun L => L.feats)) = m at hs
  have hm : m = M := by
    obtain ⟨_, g2, g3⟩ := maxIndex_spec (-1) ((D.rows.map (storedLine D.classVar)).flatMap (fun L => L.feats))
    rw [hmi] at g2 g3
    have hin : ∀ p : Int × Int, p ∈ (D.rows.map (storedLine D.classVar)).flatMap (fun L => L.feats) ↔
        ∃ row ∈ D.rows, p ∈ row ∧ p.1 ≠ D.classVar ∧ p.2 ≠ 0 := by
      intro p
      simp [List.mem_flatMap, storedLine, List.mem_filter]
    obtain ⟨row, hr, p, hp, e, hc, hz⟩ := hM
    have := g2 p ((hin p).2 ⟨row, hr, hp, hc, hz⟩)
    rcases g3 with g3 | ⟨q, hq, g3⟩
    · omega
    · obtain ⟨row', hr', hq', hc', hz'⟩ := (hin q).1 hq
      have := hmax row' hr' q hq' hc' hz'
      omega
  have hN : (m + 1).toNat = M + 1 := by omega
  rw [← hl] at hs
  rw [loadLIBSVMTraining_lines _ _ hs, hN]
  constructor
  · intro hle
    rw [if_pos]
    · refine ⟨_, rfl, rfl, by simp [svmData, hlen], ?_⟩
      simp only [svmData]
      apply tab_congr
      intro i _
      rw [List.map_map]
      apply List.map_congr_left
      intro row hr
      exact storedLine_value (hrows row hr) h1 i
    · intro row hrow p hp
      obtain ⟨row', hr', rfl⟩ := List.mem_map.1 hrow
      rcases List.mem_cons.1 hp with rfl | hp
      · simp only; omega
      · obtain ⟨q1, q2⟩ := List.mem_filter.1 hp
        simp only [decide_eq_true_eq] at q2
        have a := (hrows row' hr').range q1
        have b := hmax row' hr' p q1 q2.1 q2.2
        omega
  · intro hlt
    rw [if_neg]
    intro hall
    obtain ⟨row, hr, _⟩ := hM
    have := hall _ (List.mem_map.2 ⟨row, hr, rfl⟩) (D.classVar, (storedLine D.classVar row).label) (by simp)
    simp only at this
    omega

-- three variables, class 1, values out of order and negative
example : ∃ text D'', ({ numInstance := 1, numVars := 3, classVar := 1, rows := [[(2, -7), (0, 0), (1, 4)]] } : Dataset).storeLIBSVM = .ok text ∧
    ({ numVars := 3 } : Dataset).loadLIBSVMTesting text 1 = .ok D'' ∧ D''.numInstance = 1 := by
  obtain ⟨t, D'', h1, h2, h3, _⟩ := C52_store_load { numInstance := 1, numVars := 3, classVar := 1, rows := [[(2, -7), (0, 0), (1, 4)]] } rfl
    (by decide) (by decide) (by decide) (by simp only [List.mem_singleton, forall_eq]; unfold CompleteRow; decide)
    (by simp [IntRange]; omega) { numVars := 3 } rfl rfl
  exact ⟨t, D'', h1, h2, h3⟩

-- class variable last: stored, but not loadable as training data
example : ∃ text, ({ numInstance := 1, numVars := 2, classVar := 1, rows := [[(0, 3), (1, 4)]] } : Dataset).storeLIBSVM = .ok text ∧
    loadLIBSVMTraining text 1 = .error .ub := by
  obtain ⟨t, h1, _, h2⟩ := C52_training { numInstance := 1, numVars := 2, classVar := 1, rows := [[(0, 3), (1, 4)]] } rfl
    (by decide) (by decide) (by decide) (by simp only [List.mem_singleton, forall_eq]; unfold CompleteRow; decide)
    (by simp [IntRange]; omega) 0 ⟨_, List.mem_singleton.2 rfl, (0, 3), by simp, by simp⟩ (by simp; omega)
  exact ⟨t, h1, h2 (by decide)⟩

/-! ### C59: CSV files -/

/-- C59.  A data set loaded from a table without empty texts can be stored, and loading the stored file gives the same data set. -/
theorem C59_store_load {n : Nat} (hn : 0 < n) {names : List Str} {T : List (List Str)} {file : Str} (hf : CsvFile names T file)
    (hnames : CleanRow n names) (hT : ∀ r ∈ T, CleanRow n r) (hne : T ≠ []) (hnd : ((List.range n).map (cellText names)).Nodup) (cls : Int)
    (htext : ∀ r ∈ T, ∀ j < n, cellText r j ≠ []) :
    ∃ D text, loadCSVTraining file true cls = .ok D ∧ D.storeCSV true = .ok text ∧
      text = textOf (csvLine ((List.range n).map (cellText names)) :: T.map (fun r => csvLine ((List.range n).map (cellText r)))) ∧
      loadCSVTraining text true cls = .ok D := by
  have e : cellTexts names = (List.range n).map (cellText names) := by rw [cellTexts, hnames.1]; rfl
  have hstore : (tableData n names T cls).storeCSV true =
      .ok (textOf (csvLine (cellTexts names) :: (T.map cellTexts).map csvLine)) := by
    rw [storeCSV_table hn hnames.1, storeRows hn T (fun _ h => h) htext, textOf_cons, List.map_map]
    congr 1
    rw [show csvLine (cellTexts names) ++ [10] ++ textOf (T.map (fun r => csvLine (tab n (cellText r)))) =
      csvLine (cellTexts names) ++ 10 :: textOf (T.map (fun r => csvLine (tab n (cellText r)))) by simp]
    congr 3
    apply List.map_congr_left
    intro r hr
    simp only [Function.comp, cellTexts, (hT r hr).1]
  refine ⟨_, _, loadCSVTraining_eq hn hf hnames hT hne (e ▸ hnd) cls, hstore, ?_, ?_⟩
  · rw [e, List.map_map]
    congr 2
    apply List.map_congr_left
    intro r hr
    simp only [Function.comp, cellTexts, (hT r hr).1]
    rfl
  · rw [loadCSVTraining_eq hn CsvFile.newline (cleanRow_cellTexts hnames) (by
        intro r hr
        obtain ⟨r', hr', rfl⟩ := List.mem_map.1 hr
        exact cleanRow_cellTexts (hT r' hr')) (by simpa using hne) (by rw [cellTexts_idem, e]; exact hnd) cls,
      tableData_cellTexts (fun r hr => (hT r hr).1)]

/-- C59, finding: if some cell of the training file is empty, the data set is loaded but cannot be stored: the program ends. -/
theorem C59_empty_cell_exit {n : Nat} (hn : 0 < n) {names : List Str} {T : List (List Str)} {file : Str} (hf : CsvFile names T file)
    (hnames : CleanRow n names) (hT : ∀ r ∈ T, CleanRow n r) (hne : T ≠ []) (hnd : ((List.range n).map (cellText names)).Nodup) (cls : Int)
    (htext : ∃ r ∈ T, ∃ j < n, cellText r j = []) :
    ∃ D, loadCSVTraining file true cls = .ok D ∧ D.storeCSV true = .error .exit := by
  have e : cellTexts names = (List.range n).map (cellText names) := by rw [cellTexts, hnames.1]; rfl
  refine ⟨_, loadCSVTraining_eq hn hf hnames hT hne (e ▸ hnd) cls, ?_⟩
  rw [storeCSV_table hn hnames.1, storeRows_exit hn T (fun _ h => h) htext]

/-- C59, finding: a data set made for testing has no variable names, so storing it always ends the program. -/
theorem C59_test_data_exit (D : Dataset) (file : Str) (cls : Int) (strVal strVal' : Bool) (D' : Dataset)
    (h : D.forTesting.loadCSVTesting file strVal cls = .ok D') : D'.storeCSV strVal' = .error .exit := by
  unfold Dataset.loadCSVTesting at h
  split at h
  · exact absurd h (by simp)
  · rcases readTwo file with ⟨a, b, f⟩
    simp only at h
    obtain ⟨rows, _, h⟩ := ok_of_bind h
    cases h
    simp [Dataset.storeCSV, Dataset.forTesting]

-- "a,b\nx,y\n" can be stored; "a,b\n,y\n" cannot
example : ∃ D text, loadCSVTraining (textOf (csvLine [[97], [98]] :: [[[120], [121]]].map csvLine)) true 0 = .ok D ∧ D.storeCSV true = .ok text := by
  obtain ⟨D, t, h1, h2, _⟩ := C59_store_load (n := 2) (by omega) (names := [[97], [98]]) (T := [[[120], [121]]]) CsvFile.newline
    (by simp [CleanRow, CleanCell]) (by simp [CleanRow, CleanCell]) (by simp) (by decide) 0 (by decide)
  exact ⟨D, t, h1, h2⟩

example : ∃ D, loadCSVTraining (textOf (csvLine [[97], [98]] :: [[[], [121]]].map csvLine)) true 0 = .ok D ∧ D.storeCSV true = .error .exit :=
  C59_empty_cell_exit (n := 2) (by omega) (names := [[97], [98]]) (T := [[[], [121]]]) CsvFile.newline
    (by simp [CleanRow, CleanCell]) (by simp [CleanRow, CleanCell]) (by simp) (by decide) 0 ⟨_, List.mem_singleton.2 rfl, 0, by omega, by decide⟩

end FastPGM
