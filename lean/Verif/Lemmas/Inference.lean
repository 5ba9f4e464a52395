import Verif.Model.Inference
import Verif.Lemmas.Except
import Verif.Lemmas.Index
import Mathlib.Data.List.Perm.Basic

/-!
Lemmas about the inference helpers.
-/

namespace FastPGM

theorem prefixSums_eq (sizes : List Nat) :
    prefixSums sizes = (tab sizes.length (fun j => (sizes.take j).sum), sizes.sum) := by
  induction sizes using List.reverseRecOn with
  | nil => rfl
  | append_singleton l s ih =>
    unfold prefixSums at ih ⊢
    rw [List.foldl_append, ih]
    simp only [List.foldl_cons, List.foldl_nil, List.sum_append, List.sum_cons, List.sum_nil, Nat.add_zero, Prod.mk.injEq,
      and_true]
    apply tab_ext (by simp)
    intro i hi
    simp only [List.length_append, List.length_cons, List.length_nil] at hi
    rw [List.getElem?_append, tab_length]
    split
    · rename_i h
      rw [tab_get?, if_pos h, List.take_append_of_le_length (by omega)]
    · rename_i h
      have : i = l.length := by omega
      subst this
      simp

theorem take_sum_mono (sizes : List Nat) {i j : Nat} (h : i ≤ j) : (sizes.take i).sum ≤ (sizes.take j).sum := by
  rw [show sizes.take i = (sizes.take j).take i by rw [List.take_take, Nat.min_eq_left h]]
  conv_rhs => rw [← List.take_append_drop i (sizes.take j), List.sum_append]
  omega

theorem take_succ_sum (sizes : List Nat) {j : Nat} (h : j < sizes.length) :
    (sizes.take (j + 1)).sum = (sizes.take j).sum + sizes[j] := by
  rw [List.take_succ_eq_append_getElem h, List.sum_append]
  simp

theorem findTable_tab {n : Nat} {c : Nat → Nat} {s j : Nat} (m : Nat) (hm : m ≤ n) (hj : j < m) (h1 : c j ≤ s)
    (h2 : ∀ i, j < i → i < m → s < c i) : findTable (tab n c) s m = .ok (some j) := by
  induction m with
  | zero => omega
  | succ m ih =>
    rw [findTable, rd_tab (by omega), ok_bind]
    by_cases h : j = m
    · subst h; rw [if_pos h1]; rfl
    · rw [if_neg (by have := h2 m (by omega) (by omega); omega)]
      exact ih (by omega) (by omega) (fun i hi hi' => h2 i hi (by omega))

/-- The table and offset of a flat index. -/
theorem compute2DIndex_eq {sizes : List Nat} {j k : Nat} (hj : j < sizes.length) (hk : k < sizes[j]) :
    compute2DIndex ((sizes.take j).sum + k) sizes.length (prefixSums sizes).1 = .ok (j, k) := by
  have hf := findTable_tab (n := sizes.length) (c := fun j => (sizes.take j).sum) (s := (sizes.take j).sum + k) (j := j)
    sizes.length le_rfl hj (by simp) (fun i hi hi' => by
      have := take_sum_mono sizes (show j + 1 ≤ i by omega)
      rw [take_succ_sum sizes hj] at this
      omega)
  rw [compute2DIndex, prefixSums_eq, hf, ok_bind]
  show (do let c ← rd (tab _ _) j; return (j, _ - c)) = _
  rw [rd_tab hj, ok_bind]
  simp [pure_eq_ok]

theorem exists_cell {sizes : List Nat} {s : Nat} (h : s < sizes.sum) :
    ∃ j k, ∃ hj : j < sizes.length, k < sizes[j] ∧ s = (sizes.take j).sum + k := by
  induction sizes generalizing s with
  | nil => simp at h
  | cons x xs ih =>
    by_cases hx : s < x
    · exact ⟨0, s, by simp, by simpa using hx, by simp⟩
    · obtain ⟨j, k, hj, hk, e⟩ := ih (s := s - x) (by simp at h; omega)
      exact ⟨j + 1, k, by simpa using hj, by simpa using hk, by simp; omega⟩

theorem flat_inj {sizes : List Nat} {j k j' k' : Nat} (hj : j < sizes.length) (hk : k < sizes[j])
    (hj' : j' < sizes.length) (hk' : k' < sizes[j']) (e : (sizes.take j).sum + k = (sizes.take j').sum + k') :
    j = j' ∧ k = k' := by
  have h1 := compute2DIndex_eq hj hk
  rw [e, compute2DIndex_eq hj' hk'] at h1
  simp only [Except.ok.injEq, Prod.mk.injEq] at h1
  exact ⟨h1.1.symm, h1.2.symm⟩

theorem flat_lt {sizes : List Nat} {j k : Nat} (hj : j < sizes.length) (hk : k < sizes[j]) :
    (sizes.take j).sum + k < sizes.sum := by
  have h1 := take_succ_sum sizes hj
  have h2 := take_sum_mono sizes (show j + 1 ≤ sizes.length by omega)
  rw [List.take_length] at h2
  omega

/-- State of the cells when exactly the iterations in `done` have been executed. -/
theorem flatLoop_done {α : Type} (f : Nat → Nat → α) (sizes l : List Nat) (hl : ∀ s ∈ l, s < sizes.sum)
    (g : Nat → Nat → α) :
    flatLoop f sizes l (tab sizes.length (fun j => tab (sizes.getD j 0) (g j))) =
      .ok (tab sizes.length (fun j => tab (sizes.getD j 0)
        (fun k => if (sizes.take j).sum + k ∈ l then f j k else g j k))) := by
  induction l generalizing g with
  | nil => simp [flatLoop, pure_eq_ok]
  | cons s l ih =>
    obtain ⟨j, k, hj, hk, rfl⟩ := exists_cell (hl s (by simp))
    have hgd : sizes.getD j 0 = sizes[j] := by simp [hj]
    have step : flatLoop f sizes (((sizes.take j).sum + k) :: l) (tab sizes.length (fun j => tab (sizes.getD j 0) (g j))) =
        flatLoop f sizes l (tab sizes.length (fun j' => tab (sizes.getD j' 0)
          (fun k' => if j' = j ∧ k' = k then f j k else g j' k'))) := by
      unfold flatLoop
      rw [List.foldlM_cons, compute2DIndex_eq hj hk, ok_bind]
      simp only [rd_tab hj, ok_bind]
      rw [wr_tab (by rw [hgd]; exact hk), ok_bind, wr_tab hj, ok_bind]
      congr 1
      apply tab_congr
      intro j' _
      by_cases h : j' = j
      · subst h; rw [if_pos rfl]; simp
      · simp [h]
    rw [step, ih (fun s hs => hl s (by simp [hs]))]
    congr 1
    apply tab_congr
    intro j' hj'
    apply tab_congr
    intro k' hk'
    have hgd' : sizes.getD j' 0 = sizes[j'] := by simp [hj']
    rw [hgd'] at hk'
    by_cases h : j' = j ∧ k' = k
    · obtain ⟨rfl, rfl⟩ := h; simp
    · have : ¬ ((sizes.take j').sum + k' = (sizes.take j).sum + k) := fun e =>
        h (flat_inj hj' hk' hj hk e)
      simp only [List.mem_cons, this, false_or, if_neg h]

theorem rank_append (ds es cs xs : List Nat) (hc : cs.length = ds.length) :
    Spec.rank (ds ++ es) (cs ++ xs) = Spec.rank ds cs * es.prod + Spec.rank es xs := by
  induction ds generalizing cs with
  | nil =>
    have : cs = [] := by simpa using hc
    subst this; simp [Spec.rank]
  | cons d ds ih =>
    cases cs with
    | nil => simp at hc
    | cons c cs =>
      simp only [List.cons_append, Spec.rank, ih cs (by simpa using hc), List.prod_append]
      ring

end FastPGM
