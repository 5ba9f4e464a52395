import Verif.Lemmas.Dataset2

/-!
Test data, storing CSV files, numbers.
-/

namespace FastPGM

open Spec

/-! ### Test data -/

/-- What is kept of cell `j`. -/
def testEntry (ids : List ValueMap) (r : List Str) (j : Nat) : Option (Int × Int) :=
  if cellText r j = [] then none else ((ids.getD j []).find (cellText r j)).map (fun v => ((j : Int), v))

theorem filterMap_range_snoc {β : Type} (f : Nat → Option β) (i : Nat) :
    (List.range (i + 1)).filterMap f = (List.range i).filterMap f ++ (f i).toList := by
  rw [List.range_succ, List.filterMap_append]
  cases h : f i <;> simp [h]

theorem testLine_eq {n : Nat} (hn : 0 < n) {ids : List ValueMap} (hids : n ≤ ids.length) (rows : List (List (Int × Int))) {r : List Str}
    (hr : CleanRow n r) :
    testLine ids n true rows (csvLine r) = .ok (rows ++ [(List.range n).filterMap (testEntry ids r)]) := by
  unfold testLine
  rw [split_line hn hr, ok_bind]
  have h := foldlM_range_eq (f := testCell ids true (cellTexts r)) (s := fun i => (List.range i).filterMap (testEntry ids r)) (n := n) (by
    intro i hi
    rw [filterMap_range_snoc]
    unfold testCell testEntry
    rw [cellTexts, hr.1, rd_tab hi, ok_bind]
    by_cases hc : cellText r i = []
    · rw [if_pos hc, if_pos hc]; simp
    · rw [if_neg hc, if_neg hc]
      have hi' : i < ids.length := by omega
      simp only [if_true]
      rw [rd_getElem hi', ok_bind]
      have e : ids.getD i [] = ids[i] := by simp [hi']
      rw [e]
      cases ValueMap.find ids[i] (cellText r i) <;> simp)
  rw [show (List.range 0).filterMap (testEntry ids r) = [] from rfl] at h
  rw [h, ok_bind]
  rfl

theorem testLines {n : Nat} (hn : 0 < n) {ids : List ValueMap} (hids : n ≤ ids.length) {T : List (List Str)} (hT : ∀ r ∈ T, CleanRow n r) :
    ∀ rows, (T.map csvLine).foldlM (testLine ids n true) rows = .ok (rows ++ T.map (fun r => (List.range n).filterMap (testEntry ids r))) := by
  induction T with
  | nil => intro rows; simp
  | cons r T ih =>
    intro rows
    rw [List.map_cons, List.foldlM_cons, testLine_eq hn hids rows (hT r (by simp)), ok_bind, ih (fun x hx => hT x (by simp [hx]))]
    simp

/-! ### Storing -/

theorem popBack_join {cells : List Str} (h : cells ≠ []) : popBack (cells.flatMap (fun v => v ++ [44])) = .ok (csvLine cells) := by
  have e : cells.flatMap (fun v => v ++ [44]) = csvLine cells ++ [44] := by
    unfold csvLine
    induction cells with
    | nil => exact absurd rfl h
    | cons c cells ih =>
      by_cases hc : cells = []
      · subst hc; simp [List.intercalate]
      · rw [List.flatMap_cons, ih hc, intercalate_cons _ _ hc]; simp
  rw [e, popBack, if_neg (by simp), List.dropLast_concat]

theorem cell_mem_column {T : List (List Str)} {r : List Str} (h : r ∈ T) (j : Nat) : cellText r j ∈ firstSeen (column T j) :=
  mem_firstSeen.2 (List.mem_map.2 ⟨r, h, rfl⟩)

theorem storeCell_eq {n : Nat} {names : List Str} {T : List (List Str)} {cls : Int} {r : List Str} (hr : r ∈ T) {i : Nat} (hi : i < n)
    (value : List Str) (hv : value.length = n) :
    storeCell (tableData n names T cls) true value ((i : Int), code T r i) =
      if cellText r i = [] then .error .exit else .ok (value.set i (cellText r i)) := by
  unfold storeCell tableData
  simp only [if_true]
  rw [rdI, if_neg (by omega), Int.toNat_natCast, rd_tab hi, ok_bind]
  have := codesFrom_key 0 (cell_mem_column hr i)
  rw [Int.zero_add] at this
  unfold code
  rw [this]
  simp only
  split
  · rfl
  · rw [wrI, if_neg (by omega), Int.toNat_natCast, wr_ok (by omega)]

theorem storeRow_eq {n : Nat} {names : List Str} {T : List (List Str)} {cls : Int} {r : List Str} (hr : r ∈ T)
    (hne : ∀ j < n, cellText r j ≠ []) :
    (codeRow n T r).foldlM (storeCell (tableData n names T cls) true) (List.replicate n []) = .ok (tab n (cellText r)) := by
  unfold codeRow
  rw [show tab n (fun j => ((j : Int), code T r j)) = (List.range n).map (fun j : Nat => ((j : Int), code T r j)) from rfl, List.foldlM_map,
    replicate_eq_tab]
  apply foldlM_pointwise
  intro i hi f _
  rw [storeCell_eq hr hi _ (by simp), if_neg (hne i hi), set_tab]

theorem storeRow_exit {n : Nat} {names : List Str} {T : List (List Str)} {cls : Int} {r : List Str} (hr : r ∈ T)
    (he : ∃ j < n, cellText r j = []) :
    (codeRow n T r).foldlM (storeCell (tableData n names T cls) true) (List.replicate n []) = .error .exit := by
  unfold codeRow
  rw [show tab n (fun j => ((j : Int), code T r j)) = (List.range n).map (fun j : Nat => ((j : Int), code T r j)) from rfl, List.foldlM_map]
  suffices H : ∀ (l : List Nat), (∀ j ∈ l, j < n) → (∃ j ∈ l, cellText r j = []) → ∀ value : List Str, value.length = n →
      l.foldlM (fun x (y : Nat) => storeCell (tableData n names T cls) true x ((y : Int), code T r y)) value = .error .exit by
    obtain ⟨j, hj, h⟩ := he
    exact H _ (by simp) ⟨j, by simpa using hj, h⟩ _ (by simp)
  intro l
  induction l with
  | nil => rintro _ ⟨j, hj, _⟩; simp at hj
  | cons i l ih =>
    rintro hl ⟨j, hj, h⟩ value hv
    rw [List.foldlM_cons, storeCell_eq hr (hl i (by simp)) _ hv]
    by_cases hi : cellText r i = []
    · rw [if_pos hi]; rfl
    · rw [if_neg hi, ok_bind]
      refine ih (fun k hk => hl k (by simp [hk])) ⟨j, ?_, h⟩ _ (by simp [hv])
      rcases List.mem_cons.1 hj with rfl | hj
      · exact absurd h hi
      · exact hj

/-- The loop over the instances of `StoreCSVData`. -/
def storeStep (D : Dataset) (out : Str) (row : List (Int × Int)) : Except Fault Str := do
  let value ← row.foldlM (storeCell D true) (List.replicate D.numVars [])
  let sample ← popBack (value.flatMap (fun v => v ++ [44]))
  return out ++ sample ++ [10]

theorem foldlM_range_rd {α β : Type} (l : List α) (f : β → α → Except Fault β) (b : β) :
    (List.range l.length).foldlM (fun b i => do let a ← rd l i; f b a) b = l.foldlM f b := by
  suffices H : ∀ (Q P : List α), l = P ++ Q → ∀ b,
      ((List.range' P.length Q.length).foldlM (fun b i => do let a ← rd l i; f b a) b) = Q.foldlM f b by
    have := H l [] rfl b
    rwa [List.length_nil, ← List.range_eq_range'] at this
  intro Q
  induction Q with
  | nil => intro P _ b; rfl
  | cons a Q ih =>
    intro P h b
    rw [List.length_cons, List.range'_succ, List.foldlM_cons, List.foldlM_cons, rd_ok (a := a) (by rw [h]; simp), ok_bind]
    congr 1
    funext b'
    have := ih (P ++ [a]) (by simp [h]) b'
    rwa [List.length_append, List.length_singleton] at this

theorem storeCSV_table {n : Nat} (hn : 0 < n) {names : List Str} (hnames : names.length = n) (T : List (List Str)) (cls : Int) :
    (tableData n names T cls).storeCSV true =
      (T.map (codeRow n T)).foldlM (storeStep (tableData n names T cls)) (csvLine (cellTexts names) ++ [10]) := by
  unfold Dataset.storeCSV
  have h1 : cellTexts names ≠ [] := by
    intro e
    have := congrArg List.length e
    simp [cellTexts, hnames] at this
    omega
  have h2 : (tableData n names T cls).valueIds ≠ [] := by
    intro e
    have := congrArg List.length e
    simp [tableData] at this
    omega
  rw [if_neg (by simp only [Bool.or_eq_true, Bool.true_and, decide_eq_true_eq, not_or]; exact ⟨h1, h2⟩), if_neg (by simp [tableData, cellTexts, hnames])]
  rw [show (tableData n names T cls).varNames = cellTexts names from rfl, popBack_join h1, ok_bind]
  have h := foldlM_range_rd (T.map (codeRow n T)) (storeStep (tableData n names T cls)) (csvLine (cellTexts names) ++ [10])
  rw [List.length_map] at h
  exact h

theorem storeStep_row {n : Nat} (hn : 0 < n) {names : List Str} {T : List (List Str)} {cls : Int} {r : List Str} (hr : r ∈ T)
    (hne : ∀ j < n, cellText r j ≠ []) (out : Str) :
    storeStep (tableData n names T cls) out (codeRow n T r) = .ok (out ++ csvLine (tab n (cellText r)) ++ [10]) := by
  unfold storeStep
  rw [show (tableData n names T cls).numVars = n from rfl, storeRow_eq hr hne, ok_bind, popBack_join, ok_bind]
  · rfl
  · intro e
    have := congrArg List.length e
    simp at this
    omega

theorem storeRows {n : Nat} (hn : 0 < n) {names : List Str} {T : List (List Str)} {cls : Int} : ∀ (Q : List (List Str)),
    (∀ r ∈ Q, r ∈ T) → (∀ r ∈ Q, ∀ j < n, cellText r j ≠ []) → ∀ out,
    (Q.map (codeRow n T)).foldlM (storeStep (tableData n names T cls)) out = .ok (out ++ textOf (Q.map (fun r => csvLine (tab n (cellText r))))) := by
  intro Q
  induction Q with
  | nil => intro _ _ out; simp [textOf]
  | cons r Q ih =>
    intro h1 h2 out
    rw [List.map_cons, List.foldlM_cons, storeStep_row hn (h1 r (by simp)) (h2 r (by simp)), ok_bind,
      ih (fun x hx => h1 x (by simp [hx])) (fun x hx => h2 x (by simp [hx])), List.map_cons, textOf_cons]
    simp

theorem storeRows_exit {n : Nat} (hn : 0 < n) {names : List Str} {T : List (List Str)} {cls : Int} : ∀ (Q : List (List Str)),
    (∀ r ∈ Q, r ∈ T) → (∃ r ∈ Q, ∃ j < n, cellText r j = []) → ∀ out,
    (Q.map (codeRow n T)).foldlM (storeStep (tableData n names T cls)) out = .error .exit := by
  intro Q
  induction Q with
  | nil => rintro _ ⟨r, hr, _⟩; simp at hr
  | cons r Q ih =>
    rintro h1 ⟨s, hs, he⟩ out
    rw [List.map_cons, List.foldlM_cons]
    by_cases hr : ∃ j < n, cellText r j = []
    · unfold storeStep
      rw [show (tableData n names T cls).numVars = n from rfl, storeRow_exit (h1 r (by simp)) hr]
      rfl
    · rw [storeStep_row hn (h1 r (by simp)) (fun j hj e => hr ⟨j, hj, e⟩), ok_bind]
      refine ih (fun x hx => h1 x (by simp [hx])) ⟨s, ?_, he⟩ _
      rcases List.mem_cons.1 hs with rfl | hs
      · exact absurd he hr
      · exact hs

/-! ### Normalised tables -/

theorem dropBlanks_idem (s : Str) : dropBlanks (dropBlanks s) = dropBlanks s := by
  unfold dropBlanks
  rw [List.reverse_reverse]
  congr 1
  generalize s.reverse = t
  induction t with
  | nil => rfl
  | cons c t ih =>
    by_cases h : c < 33
    · rw [List.dropWhile_cons_of_pos (by simpa using h)]; exact ih
    · rw [List.dropWhile_cons_of_neg (by simpa using h), List.dropWhile_cons_of_neg (by simpa using h)]

theorem cellText_cellTexts {r : List Str} {j : Nat} (hj : j < r.length) : cellText (cellTexts r) j = cellText r j := by
  have e : (cellTexts r).getD j [] = cellText r j := getD_tab hj
  unfold cellText at e ⊢
  rw [e, show (cellTexts r).length = r.length by simp [cellTexts]]
  split
  · exact dropBlanks_idem _
  · rfl

theorem cleanRow_cellTexts {n : Nat} {r : List Str} (h : CleanRow n r) : CleanRow n (cellTexts r) := by
  refine ⟨by simp [cellTexts, h.1], ?_⟩
  intro c hc
  obtain ⟨j, hj, rfl⟩ := List.mem_map.1 hc
  simp at hj
  have hm : r.getD j [] ∈ r := by simp [hj]
  have := h.2 _ hm
  unfold cellText
  split
  · exact ⟨fun hx => this.1 (mem_dropBlanks hx), fun hx => this.2 (mem_dropBlanks hx)⟩
  · exact this

theorem cellTexts_idem (r : List Str) : cellTexts (cellTexts r) = cellTexts r := by
  conv_lhs => rw [cellTexts]
  rw [show (cellTexts r).length = r.length by simp [cellTexts]]
  exact tab_congr (fun j hj => cellText_cellTexts hj)

theorem column_cellTexts {n : Nat} {T : List (List Str)} (hT : ∀ r ∈ T, r.length = n) {j : Nat} (hj : j < n) :
    column (T.map cellTexts) j = column T j := by
  unfold column
  rw [List.map_map]
  apply List.map_congr_left
  intro r hr
  exact cellText_cellTexts (by rw [hT r hr]; exact hj)

theorem code_cellTexts {n : Nat} {T : List (List Str)} (hT : ∀ r ∈ T, r.length = n) {r : List Str} (hr : r ∈ T) {j : Nat} (hj : j < n) :
    code (T.map cellTexts) (cellTexts r) j = code T r j := by
  unfold code
  rw [column_cellTexts hT hj, cellText_cellTexts (by rw [hT r hr]; exact hj)]

theorem tableData_cellTexts {n : Nat} {names : List Str} {T : List (List Str)} (hT : ∀ r ∈ T, r.length = n) (cls : Int) :
    tableData n (cellTexts names) (T.map cellTexts) cls = tableData n names T cls := by
  unfold tableData codeRow
  rw [cellTexts_idem]
  congr 1
  · simp
  · exact tab_congr (fun j hj => by rw [column_cellTexts hT hj])
  · exact tab_congr (fun j hj => by rw [column_cellTexts hT hj])
  · rw [List.map_map]
    exact List.map_congr_left (fun r hr => tab_congr (fun j hj => code_cellTexts hT hr hj))
  · apply tab_congr
    intro j hj
    rw [List.map_map]
    exact List.map_congr_left (fun r hr => code_cellTexts hT hr hj)
  · rw [List.map_map]
    exact List.map_congr_left (fun r hr => tab_congr (fun j hj => by rw [code_cellTexts hT hr hj]))

/-! ### Numbers -/

theorem digitsVal_snoc (s : Str) (c : Int) : digitsVal (s ++ [c]) = digitsVal s * 10 + (c - 48) := by simp [digitsVal]

theorem natDigits_spec (n : Nat) : natDigits n ≠ [] ∧ (∀ c ∈ natDigits n, 48 ≤ c ∧ c ≤ 57) ∧ digitsVal (natDigits n) = n := by
  induction n using Nat.strongRecOn with
  | ind n ih =>
    rw [natDigits]
    split
    · refine ⟨by simp, ?_, ?_⟩
      · intro c hc
        rw [List.mem_singleton] at hc
        omega
      · simp [digitsVal]; omega
    · obtain ⟨h1, h2, h3⟩ := ih (n / 10) (by omega)
      refine ⟨by simp, ?_, ?_⟩
      · intro c hc
        rw [List.mem_append, List.mem_singleton] at hc
        rcases hc with hc | rfl
        · exact h2 c hc
        · omega
      · rw [digitsVal_snoc, h3]; omega

theorem takeWhile_digits {s : Str} (h : ∀ c ∈ s, 48 ≤ c ∧ c ≤ 57) : s.takeWhile isDigit = s := by
  have := List.takeWhile_append_of_pos (p := isDigit) (l₁ := s) (l₂ := []) (by
    intro c hc
    simp [isDigit, h c hc])
  simpa using this

theorem numberPart_intToStr (i : Int) : numberPart (intToStr i) = (decide (i < 0), natDigits i.natAbs) := by
  obtain ⟨h1, h2, _⟩ := natDigits_spec i.natAbs
  unfold intToStr
  split
  · rename_i h
    unfold numberPart
    rw [List.dropWhile_cons_of_neg (by decide)]
    simp only [takeWhile_digits h2]
    simp [h]
  · rename_i h
    obtain ⟨c, cs, e⟩ := List.exists_cons_of_ne_nil h1
    have hc := h2 c (by simp [e])
    rw [e]
    unfold numberPart
    rw [List.dropWhile_cons_of_neg (by simp [isSpace]; omega)]
    rw [e] at h2
    split
    · rename_i ds heq; simp at heq; omega
    · rename_i ds heq; simp at heq; omega
    · rw [takeWhile_digits h2]; simp [h]

/-- `stoi` reads what `to_string` wrote. -/
theorem stoi_intToStr {i : Int} (h : inInt i = true) : stoi (intToStr i) = .ok i := by
  obtain ⟨h1, _, h3⟩ := natDigits_spec i.natAbs
  unfold stoi
  rw [numberPart_intToStr]
  simp only
  rw [if_neg h1, h3]
  have e : (if decide (i < 0) = true then -(i.natAbs : Int) else i.natAbs) = i := by
    by_cases hi : i < 0
    · rw [if_pos (by simpa using hi)]; omega
    · rw [if_neg (by simpa using hi)]; omega
  rw [e, if_pos h]

theorem intToStr_chars (i : Int) : intToStr i ≠ [] ∧ ∀ c ∈ intToStr i, 45 ≤ c ∧ c ≤ 57 := by
  obtain ⟨h1, h2, _⟩ := natDigits_spec i.natAbs
  unfold intToStr
  split
  · refine ⟨by simp, ?_⟩
    intro c hc
    rcases List.mem_cons.1 hc with rfl | hc
    · omega
    · have := h2 c hc; omega
  · exact ⟨h1, fun c hc => by have := h2 c hc; omega⟩

end FastPGM
