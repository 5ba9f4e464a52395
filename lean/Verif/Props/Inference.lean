import Verif.Lemmas.Inference
import Verif.Lemmas.Table
import Mathlib.Algebra.Order.Field.Rat
import Mathlib.Data.Rat.Cast.Order

/-!
Properties C45–C49: flattened loops, the modulo shortcut, arg max, accuracy and evidence extraction.
-/

namespace FastPGM

/-- C45.  The flat loop counter enumerates the cells of all tables of a level: every `s` below the sum of the sizes is mapped to a
cell `(j, k)` inside table `j`, and every cell is the image of exactly one such `s`. -/
theorem C45_bijection (sizes : List Nat) :
    (∀ s < (prefixSums sizes).2, ∃ j k, compute2DIndex s sizes.length (prefixSums sizes).1 = .ok (j, k) ∧
      ∃ hj : j < sizes.length, k < sizes[j]) ∧
    (∀ j k, ∀ hj : j < sizes.length, k < sizes[j] →
      ∃! s, s < (prefixSums sizes).2 ∧ compute2DIndex s sizes.length (prefixSums sizes).1 = .ok (j, k)) := by
  have hsum : (prefixSums sizes).2 = sizes.sum := by rw [prefixSums_eq]
  rw [hsum]
  refine ⟨fun s hs => ?_, fun j k hj hk => ⟨_, ⟨flat_lt hj hk, compute2DIndex_eq hj hk⟩, ?_⟩⟩
  · obtain ⟨j, k, hj, hk, rfl⟩ := exists_cell hs
    exact ⟨j, k, compute2DIndex_eq hj hk, hj, hk⟩
  · rintro s ⟨hs, he⟩
    obtain ⟨j', k', hj', hk', rfl⟩ := exists_cell hs
    rw [compute2DIndex_eq hj' hk'] at he
    simp only [Except.ok.injEq, Prod.mk.injEq] at he
    obtain ⟨rfl, rfl⟩ := he
    rfl

/-- C45.  Whatever the schedule – any order in which the iterations `0, …, final_sum - 1` are executed, each once – the flattened
loop stores `f j k` in every cell `(j, k)` and does not fault. -/
theorem C45_schedule {α : Type} (f : Nat → Nat → α) (sizes schedule : List Nat) (cells : List (List α))
    (hcells : cells.map List.length = sizes) (hs : schedule.Perm (List.range (prefixSums sizes).2)) :
    ∃ out, flatLoop f sizes schedule cells = .ok out ∧ out.map List.length = sizes ∧
      ∀ j k, ∀ hj : j < sizes.length, k < sizes[j] → out[j]?.bind (fun row => row[k]?) = some (f j k) := by
  have hsum : (prefixSums sizes).2 = sizes.sum := by rw [prefixSums_eq]
  rw [hsum] at hs
  have hmem : ∀ s, s ∈ schedule ↔ s < sizes.sum := fun s => by rw [hs.mem_iff]; simp
  have hc : cells = tab sizes.length (fun j => tab (sizes.getD j 0) (fun k => (cells.getD j []).getD k (f 0 0))) := by
    subst hcells
    apply tab_ext (by simp)
    intro i hi
    rw [List.length_map] at hi
    rw [List.getElem?_eq_getElem hi]
    congr 1
    have : (cells.map List.length).getD i 0 = (cells.getD i []).length := by simp [hi]
    rw [this, ← eq_tab_getD]
    simp [hi]
  rw [hc, flatLoop_done f sizes schedule (fun s h => (hmem s).1 h)]
  refine ⟨_, rfl, ?_, ?_⟩
  · apply List.ext_getElem? 
    intro i
    rw [List.getElem?_map, tab_get?]
    split
    · rename_i h; simp [h]
    · rename_i h; simp at h; simp [h]
  · intro j k hj hk
    rw [tab_get?, if_pos hj]
    simp only [Option.bind_some]
    have hgd : sizes.getD j 0 = sizes[j] := by simp [hj]
    rw [tab_get?, hgd, if_pos hk, if_pos ((hmem _).2 (flat_lt hj hk))]

example : compute2DIndex 4 4 (prefixSums [3, 0, 2, 0]).1 = .ok (2, 1) := by decide
example : flatLoop (fun j k => 10 * j + k) [2, 0, 1] [2, 0, 1] [[7, 7], [], [7]] = .ok [[0, 1], [], [20]] := by decide
example : ([2, 0, 1] : List Nat).Perm (List.range (prefixSums [2, 0, 1]).2) := by decide

/-- C46.  Let a clique table have variables `us ++ ws` and a separator table variables `ws`.  Then for every entry `k` of the clique
table, `k % (size of the separator table)` is the entry obtained by converting `k` to a configuration, keeping the separator's
variables, and converting back. -/
theorem C46_modulo {K : Type} (card : Nat → Nat) (us ws : List Nat) (C S : Table K)
    (hC : Spec.WellFormed card C) (hS : Spec.WellFormed card S) (hCv : C.vars = us ++ ws) (hSv : S.vars = ws)
    (k : Nat) (hk : k < C.size) :
    transferIndex C.cum (S.vars.map (getVariableIndex C.vars)) S.cum k = .ok (k % S.size) := by
  have hposC : ∀ d ∈ C.dims, 0 < d := by
    rw [hC.dims]; intro d hd
    obtain ⟨v, hv, rfl⟩ := List.mem_map.1 hd
    exact hC.pos v hv
  have hposS : ∀ d ∈ S.dims, 0 < d := by
    rw [hS.dims]; intro d hd
    obtain ⟨v, hv, rfl⟩ := List.mem_map.1 hd
    exact hS.pos v hv
  have hCc : C.cum = cumLevels C.dims := eq_cumLevels (by rw [hC.cum_length, hC.dims]; simp)
    (fun i hi => hC.cum i (by rw [hC.dims] at hi; simpa using hi))
  have hSc : S.cum = cumLevels S.dims := eq_cumLevels (by rw [hS.cum_length, hS.dims]; simp)
    (fun i hi => hS.cum i (by rw [hS.dims] at hi; simpa using hi))
  rw [hCc, hSc, transferIndex_eq hposC (by rw [hC.dims]; simp)
    (fun v hv => by rw [hCv]; rw [hSv] at hv; simp [hv])]
  congr 1
  have hk' : k < C.dims.prod := by rw [← hC.size]; exact hk
  have hmap : C.vars.map (asgOf C.vars (digits C.dims k)) = digits C.dims k :=
    map_asgOf hC.nodup (by simp [hC.dims])
  have hlt : Spec.InRange card C.vars (asgOf C.vars (digits C.dims k)) := by
    rw [hC.dims] at hk' ⊢
    exact asgOf_lt hk'
  generalize asgOf C.vars (digits C.dims k) = a at hmap hlt
  have hr := rank_digits hk'
  rw [← hmap] at hr
  rw [hC.dims, hCv, List.map_append, List.map_append, rank_append _ _ _ _ (by simp)] at hr
  rw [hS.size, hS.dims, hSv, ← hr, Nat.mul_comm, Nat.mul_add_mod]
  refine (Nat.mod_eq_of_lt (rank_lt (cfgIn_map ?_))).symm
  intro v hv
  exact hlt v (by rw [hCv]; simp [hv])

/-- A clique table on variables 5, 2, 3 and a separator table on 2, 3, with numbers of values 2, 3, 2. -/
example : ∃ C S : Table Rat, Spec.WellFormed (fun v => if v = 2 then 3 else 2) C ∧
    Spec.WellFormed (fun v => if v = 2 then 3 else 2) S ∧ C.vars = [5] ++ [2, 3] ∧ S.vars = [2, 3] ∧ 7 < C.size ∧
    transferIndex C.cum (S.vars.map (getVariableIndex C.vars)) S.cum 7 = .ok 1 :=
  ⟨⟨[5, 2, 3], [2, 3, 2], [6, 2, 1], 12, List.replicate 12 1⟩, ⟨[2, 3], [3, 2], [2, 1], 6, List.replicate 6 1⟩,
    ⟨by decide, by decide, by decide, by decide, by decide, by decide, by decide⟩,
    ⟨by decide, by decide, by decide, by decide, by decide, by decide, by decide⟩, rfl, rfl, by decide, by decide⟩

/-- C47.  If some entry is positive, `ArgMax` returns an index whose entry is the largest of the vector, and it is the first such
index. -/
theorem C47_argMax {K : Type} [Field K] [LinearOrder K] [IsStrictOrderedRing K] (array : List K) (h : ∃ x ∈ array, 0 < x) :
    ∃ i, argMax array = .ok i ∧ ∃ hi : i < array.length,
      (∀ x ∈ array, x ≤ array[i]) ∧ ∀ j, ∀ hj : j < i, array[j] < array[i] := by
  have key := foldlM_range (f := fun (st : K × Option Nat) i => do
      let a ← rd array i
      if st.1 < a then return (a, some i) else (return st : Except Fault _))
    (P := fun n st => (st.2 = none ∧ st.1 = 0 ∧ ∀ j, ∀ hj : j < array.length, j < n → array[j] ≤ 0) ∨
      ∃ i, st.2 = some i ∧ ∃ hi : i < array.length, i < n ∧ st.1 = array[i] ∧ 0 < array[i] ∧
        (∀ j, ∀ hj : j < array.length, j < n → array[j] ≤ array[i]) ∧ ∀ j, ∀ hj : j < i, array[j] < array[i])
    (n := array.length) (b := ((0 : K), (none : Option Nat))) (Or.inl ⟨rfl, rfl, fun _ _ h => absurd h (by omega)⟩) ?_
  · obtain ⟨⟨m, o⟩, hfold, hP⟩ := key
    rcases hP with ⟨_, _, h3⟩ | ⟨i, rfl, hi, _, _, _, h5, h6⟩
    · obtain ⟨x, hx, hpos⟩ := h
      obtain ⟨j, hj, rfl⟩ := List.getElem_of_mem hx
      exact absurd hpos (not_lt.2 (h3 j hj hj))
    · refine ⟨i, ?_, hi, ?_, h6⟩
      · unfold argMax
        rw [hfold, ok_bind]
        rfl
      · intro x hx
        obtain ⟨j, hj, rfl⟩ := List.getElem_of_mem hx
        exact h5 j hj hj
  · rintro i hi ⟨m, o⟩ hP
    rw [rd_getElem hi, ok_bind]
    rcases hP with ⟨rfl, rfl, h3⟩ | ⟨k, rfl, hk, hki, rfl, hpos, h5, h6⟩
    · by_cases hlt : (0 : K) < array[i]
      · refine ⟨(array[i], some i), by rw [if_pos hlt]; rfl, Or.inr ⟨i, rfl, hi, by omega, rfl, hlt, ?_, ?_⟩⟩
        · intro j hj hji
          by_cases e : j = i
          · subst e; exact le_rfl
          · exact le_trans (h3 j hj (by omega)) hlt.le
        · intro j hj
          exact lt_of_le_of_lt (h3 j (by omega) hj) hlt
      · refine ⟨(0, none), by rw [if_neg hlt]; rfl, Or.inl ⟨rfl, rfl, ?_⟩⟩
        intro j hj hji
        by_cases e : j = i
        · subst e; exact not_lt.1 hlt
        · exact h3 j hj (by omega)
    · by_cases hlt : array[k] < array[i]
      · refine ⟨(array[i], some i), by rw [if_pos hlt]; rfl, Or.inr ⟨i, rfl, hi, by omega, rfl, hpos.trans hlt, ?_, ?_⟩⟩
        · intro j hj hji
          by_cases e : j = i
          · subst e; exact le_rfl
          · exact le_trans (h5 j hj (by omega)) hlt.le
        · intro j hj
          exact lt_of_le_of_lt (h5 j (by omega) hj) hlt
      · refine ⟨(array[k], some k), by rw [if_neg hlt]; rfl, Or.inr ⟨k, rfl, hk, by omega, rfl, hpos, ?_, h6⟩⟩
        intro j hj hji
        by_cases e : j = i
        · subst e; exact not_lt.1 hlt
        · exact h5 j hj (by omega)

/-- C47.  Without a positive entry (an all-zero distribution, or an empty vector) `ArgMax` returns an uninitialised variable. -/
theorem C47_indeterminate {K : Type} [Field K] [LinearOrder K] [IsStrictOrderedRing K] (array : List K)
    (h : ∀ x ∈ array, x ≤ 0) : argMax array = .error .ub := by
  have : (List.range array.length).foldlM (fun (st : K × Option Nat) i => do
      let a ← rd array i
      if st.1 < a then return (a, some i) else (return st : Except Fault _)) (0, none) = .ok (0, none) := by
    refine foldlM_range_eq (s := fun _ => ((0 : K), (none : Option Nat))) (fun i hi => ?_)
    rw [rd_getElem hi, ok_bind, if_neg (not_lt.2 (h _ (List.getElem_mem hi)))]
    rfl
  unfold argMax
  rw [this]
  rfl

example : argMax ([0, 1, 3, 2, 3] : List Rat) = .ok 2 := by decide +kernel
example : argMax ([0, 0] : List Rat) = .error .ub := by decide +kernel

/-- C48.  With at least one instance and a prediction for each, the accuracy is the number of positions where truth and prediction
agree, divided by the number of instances. -/
theorem C48_accuracy {K : Type} [NatCast K] [Div K] (truths predictions : List Nat) (hne : truths ≠ [])
    (hlen : truths.length ≤ predictions.length) :
    accuracy (K := K) truths predictions =
      .ok ((((List.range truths.length).filter (fun i => truths[i]? = predictions[i]?)).length : K) / (truths.length : K)) := by
  have key := foldlM_range_eq (f := fun (st : Nat × Nat) i => do
      let g ← rdAt truths i
      let p ← rdAt predictions i
      if g = p then return (st.1 + 1, st.2) else (return (st.1, st.2 + 1) : Except Fault _))
    (s := fun n => (((List.range n).filter (fun i => truths[i]? = predictions[i]?)).length,
      n - ((List.range n).filter (fun i => truths[i]? = predictions[i]?)).length)) (n := truths.length) ?_
  · have hz : ((((List.range 0).filter (fun i => truths[i]? = predictions[i]?)).length,
      0 - ((List.range 0).filter (fun i => truths[i]? = predictions[i]?)).length) : Nat × Nat) = (0, 0) := rfl
    rw [hz] at key
    have hle := List.length_filter_le (fun i => decide (truths[i]? = predictions[i]?)) (List.range truths.length)
    rw [List.length_range] at hle
    have hpos : 0 < truths.length := List.length_pos_iff.2 hne
    unfold accuracy
    rw [key, ok_bind]
    generalize ((List.range truths.length).filter (fun i => decide (truths[i]? = predictions[i]?))).length = c at hle ⊢
    show (if c + (truths.length - c) = 0 then _ else _) = _
    rw [if_neg (by omega), show c + (truths.length - c) = truths.length by omega]
    rfl
  · intro i hi
    have hle := List.length_filter_le (fun i => decide (truths[i]? = predictions[i]?)) (List.range i)
    rw [List.length_range] at hle
    have h1 : rdAt truths i = .ok truths[i] := by simp [rdAt, hi]
    have h2 : rdAt predictions i = .ok predictions[i] := by
      simp [rdAt, List.getElem?_eq_getElem (show i < predictions.length by omega)]
    rw [h1, ok_bind, h2, ok_bind, List.range_succ, List.filter_append, List.length_append]
    have h3 : (truths[i]? = predictions[i]?) ↔ truths[i] = predictions[i] := by
      rw [List.getElem?_eq_getElem hi, List.getElem?_eq_getElem (show i < predictions.length by omega)]
      simp
    by_cases h : truths[i] = predictions[i]
    · rw [if_pos h, List.filter_singleton, decide_eq_true (h3.2 h), cond_true]
      simp only [pure_eq_ok, List.length_cons, List.length_nil, Except.ok.injEq, Prod.mk.injEq, true_and]
      omega
    · rw [if_neg h, List.filter_singleton, decide_eq_false (mt h3.1 h), cond_false]
      simp only [pure_eq_ok, List.length_nil, Except.ok.injEq, Prod.mk.injEq, Nat.add_zero, true_and]
      omega

/-- C48.  The accuracy lies between 0 and 1, and is 1 exactly when every instance is predicted correctly. -/
theorem C48_range {K : Type} [Field K] [LinearOrder K] [IsStrictOrderedRing K] (truths predictions : List Nat)
    (hne : truths ≠ []) (hlen : truths.length ≤ predictions.length) :
    ∃ r : K, accuracy truths predictions = .ok r ∧ 0 ≤ r ∧ r ≤ 1 ∧
      (r = 1 ↔ ∀ i < truths.length, truths[i]? = predictions[i]?) := by
  refine ⟨_, C48_accuracy truths predictions hne hlen, ?_, ?_, ?_⟩
  · positivity
  · have hle := List.length_filter_le (fun i => decide (truths[i]? = predictions[i]?)) (List.range truths.length)
    rw [List.length_range] at hle
    have hpos : (0 : K) < truths.length := Nat.cast_pos.2 (List.length_pos_iff.2 hne)
    rw [div_le_one hpos]
    exact_mod_cast hle
  · have hpos : (0 : K) < truths.length := Nat.cast_pos.2 (List.length_pos_iff.2 hne)
    rw [div_eq_one_iff_eq hpos.ne', Nat.cast_inj]
    have h1 : ((List.range truths.length).filter (fun i => decide (truths[i]? = predictions[i]?))).length = truths.length ↔
        ((List.range truths.length).filter (fun i => decide (truths[i]? = predictions[i]?))).length =
          (List.range truths.length).length := by rw [List.length_range]
    rw [h1, List.length_filter_eq_length_iff]
    simp

/-- C48.  With no instance the accuracy is NaN, and a missing prediction makes `.at` throw. -/
theorem C48_degenerate {K : Type} [Field K] : accuracy (K := K) [] [] = .error .nan ∧
    ∀ g gs, accuracy (K := K) (g :: gs) [] = .error .throw := by
  refine ⟨rfl, fun g gs => ?_⟩
  unfold accuracy
  rw [List.length_cons, List.range_succ_eq_map, List.foldlM_cons]
  rfl

example : accuracy (K := Rat) [0, 1, 2, 1] [0, 2, 2, 1] = .ok (3 / 4) := by decide +kernel

/-- `e` is the evidence asked for: the pairs of the row that do not belong to the class variable `q`. -/
def Spec.IsEvidence (q : Nat) (row e : List (Nat × Nat)) : Prop :=
  ∀ p, p ∈ e ↔ p ∈ row ∧ p.1 ≠ q

theorem mem_configInsert {p x : Nat × Nat} {l : List (Nat × Nat)} : x ∈ configInsert p l ↔ x = p ∨ x ∈ l := by
  induction l with
  | nil => simp [configInsert]
  | cons q qs ih =>
    unfold configInsert
    split
    · simp
    · split
      · rename_i h; subst h; simp
      · simp only [List.mem_cons, ih]; tauto

/-- What the constructor computes for one instance: the pairs at all *positions* other than `q`, and the value at position `q`. -/
theorem instanceEvidence_eq {q : Nat} {row : List (Nat × Nat)} (h : q < row.length) :
    ∃ e, instanceEvidence q row = .ok (e, row[q].2) ∧ ∀ p, p ∈ e ↔ ∃ j, ∃ hj : j < row.length, j ≠ q ∧ row[j] = p := by
  have key := foldlM_range (f := fun e j => do
      if j = q then return e
      else
        let p ← rdAt row j
        (return configInsert p e : Except Fault _))
    (P := fun n (e : List (Nat × Nat)) => ∀ p, p ∈ e ↔ ∃ j, ∃ hj : j < row.length, j < n ∧ j ≠ q ∧ row[j] = p)
    (n := row.length) (b := []) (by intro p; simp) ?_
  · obtain ⟨e, he, hP⟩ := key
    refine ⟨e, ?_, fun p => ?_⟩
    · unfold instanceEvidence
      rw [he, ok_bind]
      simp only [rdAt, List.getElem?_eq_getElem h]
      rfl
    · rw [hP]
      constructor
      · rintro ⟨j, hj, _, h2, h3⟩; exact ⟨j, hj, h2, h3⟩
      · rintro ⟨j, hj, h2, h3⟩; exact ⟨j, hj, hj, h2, h3⟩
  · intro i hi e he
    by_cases hq : i = q
    · refine ⟨e, by rw [if_pos hq]; rfl, fun p => ?_⟩
      rw [he]
      constructor
      · rintro ⟨j, hj, h1, h2, h3⟩; exact ⟨j, hj, by omega, h2, h3⟩
      · rintro ⟨j, hj, h1, h2, h3⟩; exact ⟨j, hj, by omega, h2, h3⟩
    · refine ⟨configInsert row[i] e, ?_, fun p => ?_⟩
      · rw [if_neg hq]
        simp only [rdAt, List.getElem?_eq_getElem hi]
        rfl
      · rw [mem_configInsert, he]
        constructor
        · rintro (rfl | ⟨j, hj, h1, h2, h3⟩)
          · exact ⟨i, hi, by omega, hq, rfl⟩
          · exact ⟨j, hj, by omega, h2, h3⟩
        · rintro ⟨j, hj, h1, h2, h3⟩
          by_cases e : j = i
          · subst e; exact Or.inl h3.symm
          · exact Or.inr ⟨j, hj, by omega, h2, h3⟩

/-- C49, the part that holds: rows in which the class variable's pair stands at position `q` and nowhere else – in particular
complete rows, whose `i`-th pair belongs to variable `i`.  Then the evidence is exactly the set of the other pairs and the ground
truth is the class value.  Missing: rows in which the class variable stands elsewhere (see the two theorems below). -/
theorem C49_evidence_partial (q : Nat) (row : List (Nat × Nat)) (hq : q < row.length)
    (h : ∀ j, ∀ hj : j < row.length, row[j].1 = q ↔ j = q) :
    ∃ e, instanceEvidence q row = .ok (e, row[q].2) ∧ Spec.IsEvidence q row e ∧ (q, row[q].2) ∈ row := by
  obtain ⟨e, he, hm⟩ := instanceEvidence_eq hq
  refine ⟨e, he, fun p => ?_, ?_⟩
  · rw [hm]
    constructor
    · rintro ⟨j, hj, h1, rfl⟩
      exact ⟨List.getElem_mem hj, fun e => h1 ((h j hj).1 e)⟩
    · rintro ⟨hp, hne⟩
      obtain ⟨j, hj, rfl⟩ := List.getElem_of_mem hp
      exact ⟨j, hj, fun e => hne ((h j hj).2 e), rfl⟩
  · have := (h q hq).2 rfl
    have h2 : (q, row[q].2) = row[q] := Prod.ext this.symm rfl
    rw [h2]
    exact List.getElem_mem hq

/-- Complete rows satisfy the hypothesis. -/
theorem C49_complete_partial (q : Nat) (row : List (Nat × Nat)) (hq : q < row.length)
    (hc : ∀ j, ∀ hj : j < row.length, row[j].1 = j) :
    ∃ e, instanceEvidence q row = .ok (e, row[q].2) ∧ Spec.IsEvidence q row e ∧ (q, row[q].2) ∈ row :=
  C49_evidence_partial q row hq (fun j hj => by rw [hc j hj])

/-- C49 fails for incomplete rows: whenever the class variable's pair stands at another position than `q` (some earlier variable is
missing), it is part of the evidence, so the value to be predicted is given away; and the pair at position `q` is left out. -/
theorem C49_class_leaks (q c p : Nat) (row : List (Nat × Nat)) (hq : q < row.length) (hp : row[p]? = some (q, c)) (hne : p ≠ q) :
    ∃ e g, instanceEvidence q row = .ok (e, g) ∧ (q, c) ∈ e ∧ ¬ Spec.IsEvidence q row e := by
  obtain ⟨e, he, hm⟩ := instanceEvidence_eq hq
  obtain ⟨hp', hpe⟩ := List.getElem?_eq_some_iff.1 hp
  have hin : (q, c) ∈ e := (hm _).2 ⟨p, hp', hne, hpe⟩
  exact ⟨e, _, he, hin, fun h => ((h _).1 hin).2 rfl⟩

/-- C49.  A row with at most `q` pairs makes the constructor throw, even in inference mode where no ground truth is needed. -/
theorem C49_short_row_throws (q : Nat) (row : List (Nat × Nat)) (hq : row.length ≤ q) :
    instanceEvidence q row = .error .throw := by
  have : ∃ e, (List.range row.length).foldlM (fun e j => do
      if j = q then return e
      else
        let p ← rdAt row j
        (return configInsert p e : Except Fault _)) [] = .ok e := by
    obtain ⟨e, he, _⟩ := foldlM_range (f := fun e j => do
      if j = q then return e
      else
        let p ← rdAt row j
        (return configInsert p e : Except Fault _)) (P := fun _ _ => True) (n := row.length) (b := []) trivial
      (fun i hi e _ => ⟨configInsert row[i] e, by
        rw [if_neg (by omega)]
        simp only [rdAt, List.getElem?_eq_getElem hi]
        rfl, trivial⟩)
    exact ⟨e, he⟩
  obtain ⟨e, he⟩ := this
  unfold instanceEvidence
  rw [he, ok_bind]
  simp only [rdAt, List.getElem?_eq_none hq]
  rfl

/-- C49.  The constructor treats the instances independently, and keeps one ground truth per instance in classification mode. -/
theorem C49_all_instances (mode q : Nat) (dataset : List (List (Nat × Nat)))
    (out : List (List (Nat × Nat) × Nat)) (h : dataset.mapM (instanceEvidence q) = .ok out) :
    inferenceInit mode q dataset = .ok (out.map Prod.fst, if mode = 1 then out.map Prod.snd else []) := by
  have gen : ∀ (dataset : List (List (Nat × Nat))) (out : List (List (Nat × Nat) × Nat)) (acc : List (List (Nat × Nat)) × List Nat),
      dataset.mapM (instanceEvidence q) = .ok out →
      dataset.foldlM (fun acc inst => do
        let (e, g) ← instanceEvidence q inst
        return (acc.1 ++ [e], if mode = 1 then acc.2 ++ [g] else acc.2)) acc =
        .ok (acc.1 ++ out.map Prod.fst, acc.2 ++ if mode = 1 then out.map Prod.snd else []) := by
    intro dataset
    induction dataset with
    | nil =>
      intro out acc h
      have : out = [] := by simpa [pure_eq_ok] using h.symm
      subst this
      simp [pure_eq_ok]
    | cons r rs ih =>
      intro out acc h
      rw [List.mapM_cons] at h
      rw [List.foldlM_cons]
      cases hr : instanceEvidence q r with
      | error f => rw [hr] at h; cases h
      | ok eg =>
        rw [hr, ok_bind] at h
        cases hrs : rs.mapM (instanceEvidence q) with
        | error f => rw [hrs] at h; cases h
        | ok out' =>
          rw [hrs, ok_bind] at h
          have : out = eg :: out' := by simpa [pure_eq_ok] using h.symm
          subst this
          rw [ok_bind]
          obtain ⟨e, g⟩ := eg
          refine (ih out' (acc.1 ++ [e], if mode = 1 then acc.2 ++ [g] else acc.2) hrs).trans ?_
          split <;> simp
  have := gen dataset out ([], []) h
  simpa [inferenceInit] using this

example : instanceEvidence 1 [(0, 5), (1, 7), (2, 3)] = .ok ([(0, 5), (2, 3)], 7) := by decide
/-- Variable 0 is missing: the class value 7 of variable 1 ends up in the evidence, and the value of variable 2 is the "truth". -/
example : instanceEvidence 1 [(1, 7), (2, 3)] = .ok ([(1, 7)], 3) := by decide
example : inferenceInit 1 0 [[(0, 1), (1, 2)], [(0, 3), (1, 4)]] = .ok ([[(1, 2)], [(1, 4)]], [1, 3]) := by decide

end FastPGM
