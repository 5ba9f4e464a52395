import Verif.Lemmas.Dataset3

/-!
LIBSVM files.
-/

namespace FastPGM

open Spec

/-! ### The text of a line -/

/-- "index:value" -/
def svmPiece (p : Int × Int) : Str := intToStr p.1 ++ 58 :: intToStr p.2

/-- The label and the features of a line. -/
def svmPieces (label : Int) (feats : List (Int × Int)) : List Str := intToStr label :: feats.map svmPiece

/-- Pieces without blanks. -/
def Solid (l : List Str) : Prop := ∀ s ∈ l, s ≠ [] ∧ ∀ c ∈ s, 33 ≤ c

theorem svmPiece_solid (p : Int × Int) : svmPiece p ≠ [] ∧ ∀ c ∈ svmPiece p, 33 ≤ c := by
  obtain ⟨_, h1⟩ := intToStr_chars p.1
  obtain ⟨_, h2⟩ := intToStr_chars p.2
  refine ⟨by simp [svmPiece], ?_⟩
  intro c hc
  simp only [svmPiece, List.mem_append, List.mem_cons] at hc
  rcases hc with hc | rfl | hc
  · have := h1 c hc; omega
  · omega
  · have := h2 c hc; omega

theorem svmPieces_solid (label : Int) (feats : List (Int × Int)) : Solid (svmPieces label feats) := by
  intro s hs
  rcases List.mem_cons.1 hs with rfl | hs
  · obtain ⟨h1, h2⟩ := intToStr_chars label
    exact ⟨h1, fun c hc => by have := h2 c hc; omega⟩
  · obtain ⟨p, _, rfl⟩ := List.mem_map.1 hs
    exact svmPiece_solid p

theorem intercalate_last {l : List Str} (h : Solid l) (hne : l ≠ []) :
    List.intercalate [32] l ≠ [] ∧ ∀ c, (List.intercalate [32] l).getLast? = some c → 33 ≤ c := by
  induction l with
  | nil => exact absurd rfl hne
  | cons s l ih =>
    by_cases e : l = []
    · subst e
      obtain ⟨h1, h2⟩ := h s (by simp)
      rw [show List.intercalate [32] [s] = s by simp [List.intercalate]]
      exact ⟨h1, fun c hc => h2 c (List.mem_of_getLast? hc)⟩
    · obtain ⟨h1, h2⟩ := ih (fun x hx => h x (by simp [hx])) e
      rw [intercalate_cons _ _ e]
      refine ⟨by simp, ?_⟩
      intro c hc
      apply h2
      rw [List.getLast?_append, List.getLast?_cons] at hc
      obtain ⟨d, t, ht⟩ := List.exists_cons_of_ne_nil h1
      rw [ht, List.getLast?_eq_some_getLast (by simp)] at hc ⊢
      simpa using hc

/-- Reading the pieces of a line; blanks at the end do not count. -/
theorem split_pieces {l : List Str} (h : Solid l) (hne : l ≠ []) {blanks : Str} (hb : ∀ c ∈ blanks, c < 33) :
    split (trimRight (List.intercalate [32] l ++ blanks)) [32] = .ok l := by
  obtain ⟨h1, h2⟩ := intercalate_last h hne
  rw [trimRight_eq, dropBlanks_append _ _ h2 h1]
  have e : dropBlanks blanks = [] := by
    unfold dropBlanks
    have := List.dropWhile_append_of_pos (p := fun c : Int => decide (c < 33)) (l₁ := blanks.reverse) (l₂ := []) (by simpa using hb)
    rw [List.append_nil] at this
    rw [this]
    rfl
  rw [e, List.append_nil]
  apply split_intercalate _ _ hne
  intro s hs h32
  have := (h s hs).2 32 h32
  omega

theorem flatMap_blank {l : List Str} (hne : l ≠ []) : l.flatMap (fun s => s ++ [32]) = List.intercalate [32] l ++ [32] := by
  induction l with
  | nil => exact absurd rfl hne
  | cons s l ih =>
    by_cases e : l = []
    · subst e; simp [List.intercalate]
    · rw [List.flatMap_cons, ih e, intercalate_cons _ _ e]; simp

theorem split_piece (p : Int × Int) : split (svmPiece p) [58] = .ok [intToStr p.1, intToStr p.2] := by
  have e : svmPiece p = List.intercalate [58] [intToStr p.1, intToStr p.2] := by
    rw [intercalate_cons _ _ (by simp)]; simp [svmPiece, List.intercalate]
  rw [e]
  apply split_intercalate _ _ (by simp)
  intro c hc h58
  simp only [List.mem_cons, List.not_mem_nil, or_false] at hc
  rcases hc with rfl | rfl
  · have := (intToStr_chars p.1).2 58 h58; omega
  · have := (intToStr_chars p.2).2 58 h58; omega

/-! ### Reading lines -/

/-- All numbers are `int`s. -/
def IntPairs (l : List (Int × Int)) : Prop := ∀ p ∈ l, inInt p.1 = true ∧ inInt p.2 = true

/-- A line: label and features separated by single spaces, then blanks. -/
structure SvmLine where
  label : Int
  feats : List (Int × Int)
  blanks : Str := []

/-- The text of a line. -/
def SvmLine.text (L : SvmLine) : Str := List.intercalate [32] (svmPieces L.label L.feats) ++ L.blanks

/-- The numbers are `int`s, the blanks are blanks and contain no newline. -/
structure SvmLine.Valid (L : SvmLine) : Prop where
  label : inInt L.label = true
  feats : IntPairs L.feats
  blanks : ∀ c ∈ L.blanks, c < 33 ∧ c ≠ 10

theorem SvmLine.Valid.split {L : SvmLine} (h : L.Valid) : split (trimRight L.text) [32] = .ok (svmPieces L.label L.feats) :=
  split_pieces (svmPieces_solid _ _) (by simp [svmPieces]) (fun c hc => (h.blanks c hc).1)

theorem SvmLine.Valid.newline {L : SvmLine} (h : L.Valid) : 10 ∉ L.text := by
  unfold SvmLine.text
  rw [List.mem_append, not_or]
  constructor
  · have hs := svmPieces_solid L.label L.feats
    generalize svmPieces L.label L.feats = l at hs
    induction l with
    | nil => simp [List.intercalate]
    | cons s l ih =>
      by_cases e : l = []
      · subst e
        rw [show List.intercalate [32] [s] = s by simp [List.intercalate]]
        intro hx
        have := (hs s (by simp)).2 10 hx
        omega
      · rw [intercalate_cons _ _ e]
        simp only [List.mem_append, List.mem_cons, not_or]
        refine ⟨?_, by omega, ih (fun x hx => hs x (by simp [hx]))⟩
        intro hx
        have := (hs s (by simp)).2 10 hx
        omega
  · intro hx
    exact (h.blanks 10 hx).2 rfl

theorem lastValue_filter_lt {n i : Nat} (hi : i < n) (l : List (Int × Int)) (p : Int × Int) (hp : p.1 ≥ n) :
    lastValue (l ++ [p]) i = lastValue l i := by
  rw [lastValue_snoc, if_neg (by omega)]

theorem testFeatures {n : Nat} {l0 : List (Int × Int)} : ∀ (Q P : List (Int × Int)), IntPairs Q → (∀ p ∈ Q, 0 ≤ p.1) →
    (Q.map svmPiece).foldlM (svmTestFeature n) (tab n (fun i => ((i : Int), lastValue (l0 ++ P) i))) =
      .ok (tab n (fun i => ((i : Int), lastValue (l0 ++ (P ++ Q)) i))) := by
  intro Q
  induction Q with
  | nil => intro P _ _; simp
  | cons p Q ih =>
    intro P h1 h2
    have e : svmTestFeature n (tab n (fun i => ((i : Int), lastValue (l0 ++ P) i))) (svmPiece p) =
        .ok (tab n (fun i => ((i : Int), lastValue (l0 ++ (P ++ [p])) i))) := by
      unfold svmTestFeature
      obtain ⟨i1, i2⟩ := h1 p (by simp)
      have h0 := h2 p (by simp)
      rw [split_piece, ok_bind, rd_ok (a := intToStr p.1) rfl, ok_bind, stoi_intToStr i1, ok_bind]
      split
      · rename_i hge
        simp only [pure_eq_ok]
        congr 1
        apply tab_congr
        intro i hi
        rw [← List.append_assoc, lastValue_filter_lt hi _ _ hge]
      · rename_i hlt
        rw [rd_ok (a := intToStr p.2) rfl, ok_bind, stoi_intToStr i2, ok_bind, wrI, if_neg (by omega), wr_tab (by omega)]
        congr 1
        apply tab_congr
        intro i hi
        rw [← List.append_assoc, lastValue_snoc]
        by_cases hip : i = p.1.toNat
        · rw [if_pos hip, if_pos (by omega)]
          congr 1
          omega
        · rw [if_neg hip, if_neg (by omega)]
    rw [List.map_cons, List.foldlM_cons, e, ok_bind, ih (P ++ [p]) (fun q hq => h1 q (by simp [hq])) (fun q hq => h2 q (by simp [hq]))]
    simp

theorem svmTestLine_eq {n : Nat} {cls : Int} (hc : 0 ≤ cls ∧ cls < n) (rows : List (List (Int × Int))) {L : SvmLine} (hL : L.Valid)
    (hpos : ∀ p ∈ L.feats, 0 ≤ p.1) :
    svmTestLine n cls rows L.text = .ok (rows ++ [tab n (fun i => ((i : Int), lastValue ((cls, L.label) :: L.feats) i))]) := by
  unfold svmTestLine
  rw [hL.split, ok_bind, rd_ok (a := intToStr L.label) rfl, ok_bind, stoi_intToStr hL.label, ok_bind]
  have e : wrI ((List.range n).map (fun i : Nat => ((i : Int), (0 : Int)))) cls (cls, L.label) =
      .ok (tab n (fun i => ((i : Int), lastValue ([(cls, L.label)] ++ []) i))) := by
    rw [show (List.range n).map (fun i : Nat => ((i : Int), (0 : Int))) = tab n (fun i => ((i : Int), (0 : Int))) from rfl, wrI,
      if_neg (by omega), wr_tab (by omega)]
    congr 1
    apply tab_congr
    intro i _
    have := lastValue_snoc [] (cls, L.label) i
    rw [List.append_nil]
    rw [List.nil_append] at this
    rw [this]
    by_cases h : i = cls.toNat
    · rw [if_pos h, if_pos (show cls = i by omega)]
      congr 1
      omega
    · rw [if_neg h, if_neg (show ¬ cls = i by omega)]
      rfl
  rw [e, ok_bind, show (svmPieces L.label L.feats).drop 1 = L.feats.map svmPiece from rfl, testFeatures _ _ hL.feats hpos, ok_bind]
  simp

theorem svmTestLines {n : Nat} {cls : Int} (hc : 0 ≤ cls ∧ cls < n) : ∀ (Ls : List SvmLine), (∀ L ∈ Ls, L.Valid) →
    (∀ L ∈ Ls, ∀ p ∈ L.feats, 0 ≤ p.1) → ∀ rows,
    (Ls.map SvmLine.text).foldlM (svmTestLine n cls) rows =
      .ok (rows ++ Ls.map (fun L => tab n (fun i => ((i : Int), lastValue ((cls, L.label) :: L.feats) i)))) := by
  intro Ls
  induction Ls with
  | nil => intro _ _ rows; simp
  | cons L Ls ih =>
    intro h1 h2 rows
    rw [List.map_cons, List.foldlM_cons, svmTestLine_eq hc rows (h1 L (by simp)) (h2 L (by simp)), ok_bind,
      ih (fun x hx => h1 x (by simp [hx])) (fun x hx => h2 x (by simp [hx]))]
    simp

theorem loadLIBSVMTesting_lines (D : Dataset) (file : Str) (cls : Int) :
    D.loadLIBSVMTesting file cls = (do
      let rows ← (completeLines file).foldlM (svmTestLine D.numVars cls) D.rows
      return { D with rows := rows, numInstance := rows.length, classVar := cls }) := by
  unfold Dataset.loadLIBSVMTesting
  have := whileNotEof_lines (svmTestLine D.numVars cls) (file.length + 2) file (by omega) D.rows []
  rcases e : getline { rest := file } [] with ⟨s, f⟩
  rw [e] at this
  simp only at this ⊢
  rw [this]

/-! ### Training files -/

/-- The largest feature index, -1 if there is no feature. -/
def maxIndex (m : Int) (l : List (Int × Int)) : Int := l.foldl (fun m p => if p.1 > m then p.1 else m) m

theorem trainFeatures : ∀ (Q P : List (Int × Int)) (m : Int), IntPairs Q →
    (Q.map svmPiece).foldlM svmTrainFeature (P, m) = .ok (P ++ Q, maxIndex m Q) := by
  intro Q
  induction Q with
  | nil => intro P m _; simp [maxIndex]
  | cons p Q ih =>
    intro P m h
    obtain ⟨i1, i2⟩ := h p (by simp)
    have e : svmTrainFeature (P, m) (svmPiece p) = .ok (P ++ [p], if p.1 > m then p.1 else m) := by
      unfold svmTrainFeature
      rw [split_piece, ok_bind, rd_ok (a := intToStr p.1) rfl, ok_bind, stoi_intToStr i1, ok_bind, rd_ok (a := intToStr p.2) rfl, ok_bind,
        stoi_intToStr i2, ok_bind]
      rfl
    rw [List.map_cons, List.foldlM_cons, e, ok_bind, ih _ _ (fun q hq => h q (by simp [hq]))]
    simp [maxIndex]

theorem svmTrainLines (cls : Int) : ∀ (Ls : List SvmLine), (∀ L ∈ Ls, L.Valid) → ∀ rows m,
    (Ls.map SvmLine.text).foldlM (svmTrainLine cls) (rows, m) =
      .ok (rows ++ Ls.map (fun L => (cls, L.label) :: L.feats), maxIndex m (Ls.flatMap (fun L => L.feats))) := by
  intro Ls
  induction Ls with
  | nil => intro _ rows m; simp [maxIndex]
  | cons L Ls ih =>
    intro h rows m
    have hL := h L (by simp)
    have e : svmTrainLine cls (rows, m) L.text = .ok (rows ++ [(cls, L.label) :: L.feats], maxIndex m L.feats) := by
      unfold svmTrainLine
      rw [hL.split, ok_bind, rd_ok (a := intToStr L.label) rfl, ok_bind, stoi_intToStr hL.label, ok_bind,
        show (svmPieces L.label L.feats).drop 1 = L.feats.map svmPiece from rfl, trainFeatures _ _ _ hL.feats, ok_bind]
      rfl
    rw [List.map_cons, List.foldlM_cons, e, ok_bind, ih (fun x hx => h x (by simp [hx]))]
    simp [maxIndex]

theorem maxIndex_spec (m : Int) (l : List (Int × Int)) : m ≤ maxIndex m l ∧ (∀ p ∈ l, p.1 ≤ maxIndex m l) ∧
    (maxIndex m l = m ∨ ∃ p ∈ l, p.1 = maxIndex m l) := by
  induction l generalizing m with
  | nil => simp [maxIndex]
  | cons p l ih =>
    obtain ⟨h1, h2, h3⟩ := ih (if p.1 > m then p.1 else m)
    have e : maxIndex m (p :: l) = maxIndex (if p.1 > m then p.1 else m) l := rfl
    rw [← e] at h1 h2 h3
    refine ⟨?_, ?_, ?_⟩
    · split at h1 <;> omega
    · intro q hq
      rcases List.mem_cons.1 hq with rfl | hq
      · split at h1 <;> omega
      · exact h2 q hq
    · rcases h3 with h | ⟨q, hq, h⟩
      · split at h
        · exact .inr ⟨p, by simp, h.symm⟩
        · exact .inl h
      · exact .inr ⟨q, by simp [hq], h⟩

/-- The largest value of a column, at least -1. -/
def colMax (l : List Int) : Int := l.foldl (fun m v => if v > m then v else m) (-1)

/-- The data set of a list of instances. -/
def svmData (n : Nat) (cls : Int) (rows : List (List (Int × Int))) : Dataset :=
  { numInstance := rows.length
    numVars := n
    classVar := cls
    varNames := tab n (fun i => intToStr i)
    valueIds := List.replicate n []
    numValues := tab n (fun i => colMax (rows.map (fun row => lastValue row i)) + 1)
    allVars := rows.map (fun row => tab n (lastValue row))
    columns := tab n (fun i => rows.map (fun row => lastValue row i))
    rows := rows }

theorem mapM_stops {α β : Type} {f : α → Except Fault β} {e : Fault} {l : List α} (h : ∀ x ∈ l, (∃ y, f x = .ok y) ∨ f x = .error e)
    (hx : ∃ x ∈ l, f x = .error e) : l.mapM f = .error e := by
  induction l with
  | nil => obtain ⟨x, hx, _⟩ := hx; simp at hx
  | cons x l ih =>
    rw [List.mapM_cons]
    rcases h x (by simp) with ⟨y, hy⟩ | he
    · rw [hy, ok_bind, ih (fun z hz => h z (by simp [hz]))]
      · rfl
      · obtain ⟨z, hz, hez⟩ := hx
        rcases List.mem_cons.1 hz with rfl | hz
        · rw [hy] at hez; exact absurd hez (by simp)
        · exact ⟨z, hz, hez⟩
    · rw [he]; rfl

/-- A variable outside the range makes the conversion undefined. -/
theorem vector2IntArray_ub {D : Dataset} (hlen : D.rows.length = D.numInstance) (h : ¬ ∀ row ∈ D.rows, RowIn D.numVars row) :
    D.vector2IntArray = .error .ub := by
  unfold Dataset.vector2IntArray
  rw [mapM_stops (e := .ub)]
  · rfl
  · intro s hs
    simp only [List.mem_range] at hs
    have hs' : s < D.rows.length := by omega
    rw [rd_getElem hs', ok_bind]
    by_cases hr : RowIn D.numVars D.rows[s]
    · exact .inl ⟨_, intRow_eq hr⟩
    · exact .inr (intRow_ub hr)
  · simp only [not_forall] at h
    obtain ⟨row, hrow, hnot⟩ := h
    obtain ⟨s, hs, rfl⟩ := List.getElem_of_mem hrow
    exact ⟨s, by simp; omega, by rw [rd_getElem hs, ok_bind, intRow_ub hnot]⟩

/-- The training loader, except for reading the file. -/
theorem loadLIBSVMTraining_lines (file : Str) (cls : Int) {rows : List (List (Int × Int))} {m : Int}
    (h : (linesOf file).foldlM (svmTrainLine cls) ([], -1) = .ok (rows, m)) :
    loadLIBSVMTraining file cls = if ∀ row ∈ rows, ∀ p ∈ row, 0 ≤ p.1 ∧ p.1 < (m + 1).toNat then .ok (svmData (m + 1).toNat cls rows) else .error .ub := by
  unfold loadLIBSVMTraining
  rw [whileGetline_lines _ _ _ (by omega), h, ok_bind]
  simp only
  split
  · rename_i hin
    obtain ⟨a1, a2⟩ := arrays_eq
      (D := { numInstance := rows.length, numVars := (m + 1).toNat, classVar := cls,
              varNames := (List.range (m + 1).toNat).map (fun i : Nat => intToStr i), rows := rows }) rfl hin
    rw [a1, ok_bind, a2, ok_bind]
    simp only
    rw [range_mapM_tab (g := fun i => colMax (rows.map (fun row => lastValue row i)) + 1), ok_bind]
    · rfl
    · intro i hi
      have hcol := foldlM_range_rd (rows.map (fun row => lastValue row i)) (fun (m : Int) v => .ok (if v > m then v else m)) (-1)
      rw [List.length_map, foldlM_ok (g := fun m v => if v > m then v else m) (fun _ _ _ => rfl)] at hcol
      simp only [rd_tab hi, ok_bind]
      have e : (List.range rows.length).foldlM (fun (m : Int) j => do
            let v ← rd (rows.map (fun row => lastValue row i)) j
            return if v > m then v else m) (-1) = (.ok (colMax (rows.map (fun row => lastValue row i))) : Except Fault Int) := hcol
      refine Eq.trans (congrArg (fun x => x >>= _) e) ?_
      rfl
  · rename_i hin
    rw [vector2IntArray_ub rfl hin]
    rfl

end FastPGM
