import Verif.Lemmas.Dataset4
import Mathlib.Data.List.Nodup

/-!
Storing LIBSVM files and reading them back.
-/

namespace FastPGM

open Spec

theorem lastValue_of_mem {row : List (Int × Int)} (hnd : (row.map (fun p => p.1)).Nodup) {i : Nat} {v : Int} (h : ((i : Int), v) ∈ row) :
    lastValue row i = v := by
  have e : row.filter (fun p => p.1 = (i : Int)) = [((i : Int), v)] := by
    induction row with
    | nil => simp at h
    | cons p row ih =>
      rw [List.map_cons, List.nodup_cons] at hnd
      rcases List.mem_cons.1 h with rfl | h
      · rw [List.filter_cons_of_pos (by simp)]
        congr 1
        rw [List.filter_eq_nil_iff]
        intro q hq
        simp only [decide_eq_true_eq]
        intro e
        exact hnd.1 (List.mem_map.2 ⟨q, hq, e⟩)
      · rw [List.filter_cons_of_neg, ih hnd.2 h]
        simp only [decide_eq_true_eq]
        intro e
        exact hnd.1 (List.mem_map.2 ⟨_, h, e.symm⟩)
  unfold lastValue
  rw [e]
  rfl

theorem lastValue_of_not {row : List (Int × Int)} {i : Nat} (h : ∀ p ∈ row, p.1 ≠ i) : lastValue row i = 0 := by
  unfold lastValue
  rw [List.filter_eq_nil_iff.2 (by simpa using h)]
  rfl

theorem Spec.CompleteRow.nodup {n : Nat} {row : List (Int × Int)} (h : CompleteRow n row) : (row.map (fun p => p.1)).Nodup := by
  refine h.nodup_iff.2 ?_
  apply List.Nodup.map _ List.nodup_range
  intro a b hab
  have : (a : Int) = b := hab
  omega

theorem Spec.CompleteRow.length {n : Nat} {row : List (Int × Int)} (h : CompleteRow n row) : row.length = n := by
  have := h.length_eq
  simpa using this

theorem Spec.CompleteRow.mem {n : Nat} {row : List (Int × Int)} (h : CompleteRow n row) {i : Int} (h0 : 0 ≤ i) (h1 : i < n) : ∃ v, (i, v) ∈ row := by
  have : i ∈ row.map (fun p => p.1) := h.mem_iff.2 (by simp; exact ⟨i.toNat, by omega, by omega⟩)
  obtain ⟨p, hp, rfl⟩ := List.mem_map.1 this
  exact ⟨p.2, hp⟩

theorem Spec.CompleteRow.range {n : Nat} {row : List (Int × Int)} (h : CompleteRow n row) {p : Int × Int} (hp : p ∈ row) : 0 ≤ p.1 ∧ p.1 < n := by
  have : p.1 ∈ (List.range n).map (fun i : Nat => (i : Int)) := h.mem_iff.1 (List.mem_map.2 ⟨p, hp, rfl⟩)
  obtain ⟨i, hi, e⟩ := List.mem_map.1 this
  simp at hi
  omega

/-- A complete row is a rearrangement of the row with the variables in order. -/
theorem Spec.CompleteRow.perm {n : Nat} {row : List (Int × Int)} (h : CompleteRow n row) :
    row.Perm (tab n (fun i => ((i : Int), lastValue row i))) := by
  have hnd : row.Nodup := List.Nodup.of_map _ h.nodup
  have hnd2 : (tab n (fun i => ((i : Int), lastValue row i))).Nodup := by
    apply List.Nodup.map _ List.nodup_range
    intro a b hab
    have : (a : Int) = b := congrArg Prod.fst hab
    omega
  rw [List.perm_ext_iff_of_nodup hnd hnd2]
  intro p
  constructor
  · intro hp
    obtain ⟨h0, h1⟩ := h.range hp
    refine List.mem_map.2 ⟨p.1.toNat, by simp; omega, ?_⟩
    have e : ((p.1.toNat : Nat) : Int) = p.1 := by omega
    rw [lastValue_of_mem h.nodup (v := p.2) (by rw [e]; exact hp), e]
  · intro hp
    obtain ⟨i, hi, rfl⟩ := List.mem_map.1 hp
    simp at hi
    obtain ⟨v, hv⟩ := h.mem (i := (i : Int)) (by omega) (by omega)
    rw [lastValue_of_mem h.nodup hv]
    exact hv

/-- The line written for a row. -/
def storedLine (cls : Int) (row : List (Int × Int)) : SvmLine :=
  { label := lastValue row cls.toNat
    feats := row.filter (fun p => p.1 ≠ cls ∧ p.2 ≠ 0)
    blanks := [32] }

theorem SvmLine.text_flat (L : SvmLine) (h : L.blanks = [32]) : L.text = (svmPieces L.label L.feats).flatMap (fun s => s ++ [32]) := by
  rw [flatMap_blank (by simp [svmPieces]), SvmLine.text, h]

theorem svmStoreRow_eq {n : Nat} {cls : Int} (h0 : 0 ≤ cls) (h1 : cls < n) {row : List (Int × Int)} (h : CompleteRow n row) :
    svmStoreRow n cls row = .ok (storedLine cls row).text := by
  obtain ⟨v, hv⟩ := h.mem h0 h1
  obtain ⟨A, B, rfl⟩ := List.append_of_mem hv
  have hnd := h.nodup
  simp only [List.map_append, List.map_cons] at hnd
  rw [List.nodup_middle, List.nodup_cons, List.mem_append, not_or] at hnd
  have hA : ∀ p ∈ A, p.1 ≠ cls := fun p hp e => hnd.1.1 (List.mem_map.2 ⟨p, hp, e⟩)
  have hB : ∀ p ∈ B, p.1 ≠ cls := fun p hp e => hnd.1.2 (List.mem_map.2 ⟨p, hp, e⟩)
  have hlen := h.length
  have hidx : (A ++ (cls, v) :: B).findIdx? (fun vv => vv.1 = cls) = some A.length := by
    rw [List.findIdx?_eq_some_iff_getElem]
    refine ⟨by simp, by simp, ?_⟩
    intro j hj
    rw [List.getElem_append_left hj]
    simpa using hA _ (List.getElem_mem hj)
  unfold svmStoreRow
  rw [if_neg (by simpa using hlen), hidx]
  simp only
  rw [rd_ok (a := (cls, v)) (by simp), ok_bind]
  have her : (A ++ (cls, v) :: B).eraseIdx A.length = A ++ B := by
    rw [List.eraseIdx_append_of_length_le (Nat.le_refl _)]
    simp
  rw [her]
  have hlab : (storedLine cls (A ++ (cls, v) :: B)).label = v := by
    unfold storedLine
    simp only
    apply lastValue_of_mem h.nodup
    rw [show ((cls.toNat : Nat) : Int) = cls by omega]
    simp
  have hfe : (storedLine cls (A ++ (cls, v) :: B)).feats = (A ++ B).filter (fun p => p.2 ≠ 0) := by
    unfold storedLine
    simp only
    rw [List.filter_append, List.filter_cons_of_neg (by simp), ← List.filter_append]
    apply List.filter_congr
    intro p hp
    have : p.1 ≠ cls := by
      rcases List.mem_append.1 hp with hp | hp
      · exact hA p hp
      · exact hB p hp
    simp [this]
  rw [SvmLine.text_flat _ rfl, hlab, hfe]
  have hl : n - 1 = (A ++ B).length := by simp at hlen ⊢; omega
  have := foldlM_range_rd (A ++ B) (fun sample vv => (.ok (if vv.2 ≠ 0 then sample ++ intToStr vv.1 ++ [58] ++ intToStr vv.2 ++ [32] else sample) : Except Fault Str))
    (intToStr v ++ [32])
  rw [hl]
  refine Eq.trans this ?_
  rw [foldlM_ok (fun _ _ _ => rfl)]
  congr 1
  generalize A ++ B = R
  suffices H : ∀ (R : List (Int × Int)) (s : Str), R.foldl (fun sample vv => if vv.2 ≠ 0 then sample ++ intToStr vv.1 ++ [58] ++ intToStr vv.2 ++ [32] else sample) s =
      s ++ ((R.filter (fun p => p.2 ≠ 0)).map svmPiece).flatMap (fun s => s ++ [32]) by
    rw [H, svmPieces, List.flatMap_cons]
  intro R
  induction R with
  | nil => intro s; simp
  | cons p R ih =>
    intro s
    rw [List.foldl_cons, ih]
    by_cases hp : p.2 = 0
    · simp [hp]
    · rw [if_pos hp, List.filter_cons_of_pos (by simpa using hp)]
      simp [svmPiece]

theorem storedLine_valid {n : Nat} {cls : Int} (h0 : 0 ≤ cls) (h1 : cls < n) (hn : n ≤ 2147483647) {row : List (Int × Int)} (h : CompleteRow n row)
    (hv : ∀ p ∈ row, IntRange p.2) : (storedLine cls row).Valid where
  label := by
    obtain ⟨v, hm⟩ := h.mem h0 h1
    have := hv _ hm
    unfold storedLine
    simp only
    rw [lastValue_of_mem h.nodup (v := v) (by rw [show ((cls.toNat : Nat) : Int) = cls by omega]; exact hm)]
    simpa [inInt, IntRange] using this
  feats := by
    intro p hp
    have hp' := (List.mem_filter.1 hp).1
    have h2 := h.range hp'
    have h3 := hv p hp'
    simp only [IntRange] at h3
    simp only [inInt, Bool.and_eq_true, decide_eq_true_eq]
    omega
  blanks := by simp [storedLine]

/-- Reading the written line gives the row. -/
theorem storedLine_value {n : Nat} {cls : Int} {row : List (Int × Int)} (h : CompleteRow n row) (h1 : cls < n) (i : Nat) :
    lastValue ((cls, (storedLine cls row).label) :: (storedLine cls row).feats) i = lastValue row i := by
  have hnd : (((cls, (storedLine cls row).label) :: (storedLine cls row).feats).map (fun p => p.1)).Nodup := by
    rw [List.map_cons, List.nodup_cons]
    constructor
    · simp [storedLine]
    · exact h.nodup.sublist (List.Sublist.map _ List.filter_sublist)
  by_cases hi : i < n
  · obtain ⟨v, hv⟩ := h.mem (i := (i : Int)) (by omega) (by omega)
    rw [lastValue_of_mem h.nodup hv]
    by_cases hc : (i : Int) = cls
    · apply lastValue_of_mem hnd
      have : (storedLine cls row).label = v := by
        unfold storedLine
        simp only
        rw [← hc]
        exact lastValue_of_mem h.nodup hv
      rw [this, hc]
      simp
    · by_cases hz : v = 0
      · rw [lastValue_of_not, hz]
        intro p hp e
        rcases List.mem_cons.1 hp with rfl | hp
        · exact hc e.symm
        · obtain ⟨hp1, hp2⟩ := List.mem_filter.1 hp
          simp only [decide_eq_true_eq] at hp2
          apply hp2.2
          have h3 : ((i : Int), p.2) ∈ row := by rw [← e]; exact hp1
          rw [← lastValue_of_mem h.nodup h3, lastValue_of_mem h.nodup hv, hz]
      · apply lastValue_of_mem hnd
        refine List.mem_cons_of_mem _ (List.mem_filter.2 ⟨hv, ?_⟩)
        simp [hc, hz]
  · rw [lastValue_of_not (row := row), lastValue_of_not]
    · intro p hp e
      rcases List.mem_cons.1 hp with rfl | hp
      · simp only at e; omega
      · have := h.range (List.mem_filter.1 hp).1
        omega
    · intro p hp e
      have := h.range hp
      omega

theorem storeLIBSVM_eq {D : Dataset} (hlen : D.rows.length = D.numInstance) (h0 : 0 ≤ D.classVar) (h1 : D.classVar < D.numVars)
    (hrows : ∀ row ∈ D.rows, CompleteRow D.numVars row) :
    D.storeLIBSVM = .ok (textOf (D.rows.map (fun row => (storedLine D.classVar row).text))) := by
  unfold Dataset.storeLIBSVM
  have := foldlM_range_rd D.rows (fun out row => do
    let line ← svmStoreRow D.numVars D.classVar row
    return out ++ line ++ [10]) []
  rw [← hlen]
  refine Eq.trans this ?_
  suffices H : ∀ (R : List (List (Int × Int))), (∀ row ∈ R, CompleteRow D.numVars row) → ∀ out,
      R.foldlM (fun out row => do
        let line ← svmStoreRow D.numVars D.classVar row
        return out ++ line ++ [10]) out = (.ok (out ++ textOf (R.map (fun row => (storedLine D.classVar row).text))) : Except Fault Str) by
    exact H _ hrows []
  intro R
  induction R with
  | nil => intro _ out; simp [textOf]
  | cons row R ih =>
    intro hR out
    rw [List.foldlM_cons, svmStoreRow_eq h0 h1 (hR row (by simp)), ok_bind]
    refine Eq.trans (ih (fun r hr => hR r (by simp [hr])) _) ?_
    rw [List.map_cons, textOf_cons]
    simp

end FastPGM
