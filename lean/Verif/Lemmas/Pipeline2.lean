import Verif.Lemmas.Pipeline

/-!
The rows of a test file as evidence, the columns of a training file as data.
-/

namespace FastPGM

open Spec

theorem configInsert_last {p : Nat × Nat} (e : List (Nat × Nat)) (h : ∀ q ∈ e, q.1 < p.1) : configInsert p e = e ++ [p] := by
  induction e with
  | nil => rfl
  | cons q e ih =>
    have hq := h q (by simp)
    rw [configInsert, if_neg (by omega), if_neg (by rintro rfl; omega), ih (fun x hx => h x (by simp [hx]))]
    rfl

theorem instanceEvidence_sorted {p : Nat × Nat} {rest : List (Nat × Nat)} (h : (p :: rest).Pairwise (fun x y => x.1 < y.1)) :
    instanceEvidence 0 (p :: rest) = .ok (rest, p.2) := by
  have key := foldlM_range_eq (f := fun e j => do
      if j = 0 then return e
      else
        let x ← rdAt (p :: rest) j
        (return configInsert x e : Except Fault _)) (s := fun k => rest.take (k - 1)) (n := (p :: rest).length) ?_
  · unfold instanceEvidence
    rw [show rest.take (0 - 1) = [] by simp] at key
    rw [key, ok_bind]
    simp [rdAt, pure_eq_ok, ok_bind]
  · intro i hi
    rcases i with - | i
    · rfl
    · have hi' : i < rest.length := by simpa using hi
      have e1 : rdAt (p :: rest) (i + 1) = .ok rest[i] := by simp [rdAt, hi']
      rw [if_neg (by omega), e1, ok_bind, configInsert_last]
      · show Except.ok _ = Except.ok _
        congr 1
        exact (List.take_succ_eq_append_getElem hi').symm
      · intro q hq
        obtain ⟨j, hj, rfl⟩ := List.getElem_of_mem hq
        rw [List.length_take] at hj
        rw [List.getElem_take]
        exact List.pairwise_iff_getElem.1 (List.pairwise_cons.1 h).2 j i (by omega) hi' (by omega)

theorem testCells_sorted (train : List (List Str)) (n : Nat) (r : List Str) : (testCells train n r).Pairwise (fun x y => x.1 < y.1) := by
  unfold testCells
  rw [List.pairwise_map]
  exact List.Pairwise.filter _ List.pairwise_lt_range

theorem testCells_class {train : List (List Str)} {n : Nat} (hn : 0 < n) {r : List Str} (h : Known train r 0) :
    testCells train n r = (0, codeIn train 0 (cellText r 0)) :: knownCells train n r := by
  obtain ⟨m, rfl⟩ : ∃ m, n = m + 1 := ⟨n - 1, by omega⟩
  unfold testCells knownCells
  rw [List.range_succ_eq_map, List.filter_cons, if_pos (by simpa using h), List.filter_cons, if_neg (by simp), List.map_cons, List.cons.injEq]
  refine ⟨rfl, ?_⟩
  congr 1
  apply List.filter_congr
  intro j hj
  obtain ⟨k, _, rfl⟩ := List.mem_map.1 hj
  simp

theorem testCells_mem {train : List (List Str)} {n : Nat} {r : List Str} {e : Nat × Nat} (he : e ∈ testCells train n r) :
    e.1 < n ∧ e.2 < (firstSeen (column train e.1)).length := by
  unfold testCells at he
  obtain ⟨j, hj, rfl⟩ := List.mem_map.1 he
  rw [List.mem_filter, List.mem_range] at hj
  obtain ⟨h1, h2⟩ := hj
  simp only [decide_eq_true_eq] at h2
  exact ⟨h1, List.idxOf_lt_length_iff.2 (mem_firstSeen.2 h2.2)⟩

theorem knownCells_nodup (train : List (List Str)) (n : Nat) (r : List Str) : ((knownCells train n r).map Prod.fst).Nodup := by
  unfold knownCells
  rw [List.map_map]
  have : (Prod.fst ∘ fun j => (j, codeIn train j (cellText r j))) = id := rfl
  rw [this, List.map_id]
  exact List.nodup_range.filter _

theorem knownCells_mem {train : List (List Str)} {n : Nat} {r : List Str} {e : Nat × Nat} (he : e ∈ knownCells train n r) :
    e.1 < n ∧ e.1 ≠ 0 ∧ e.2 < (firstSeen (column train e.1)).length := by
  unfold knownCells at he
  obtain ⟨j, hj, rfl⟩ := List.mem_map.1 he
  rw [List.mem_filter, List.mem_range] at hj
  obtain ⟨h1, h2⟩ := hj
  simp only [ne_eq, decide_eq_true_eq] at h2
  exact ⟨h1, h2.1, List.idxOf_lt_length_iff.2 (mem_firstSeen.2 h2.2.2)⟩

/-- The rows of the test dataset. -/
theorem test_rows {train : List (List Str)} {n : Nat} {ids : List ValueMap}
    (hids : ∀ j < n, ∀ s, (ids.getD j []).find s = if s ∈ column train j then some ((firstSeen (column train j)).idxOf s : Int) else none)
    (T : List (List Str)) :
    (T.map (fun r => (List.range n).filterMap (fun j =>
      if cellText r j = [] then none else ((ids.getD j []).find (cellText r j)).map (fun v => ((j : Int), v))))).map
        (fun r => r.map (fun p => (p.1.toNat, p.2.toNat))) = T.map (testCells train n) := by
  rw [List.map_map]
  apply List.map_congr_left
  intro r _
  simp only [Function.comp]
  unfold testCells
  rw [List.map_filterMap, ← List.filterMap_eq_map, List.filterMap_filter]
  apply List.filterMap_congr
  intro j hj
  rw [List.mem_range] at hj
  rw [hids j hj]
  by_cases h1 : cellText r j = []
  · have : ¬ Known train r j := fun h => h.1 h1
    simp [h1, this]
  · by_cases h2 : cellText r j ∈ column train j
    · have : Known train r j := ⟨h1, h2⟩
      simp [h1, h2, this, codeIn]
    · have : ¬ Known train r j := fun h => h2 h.2
      simp [h1, h2, this]

/-- The columns of the training dataset. -/
theorem train_columns {train : List (List Str)} {n : Nat} {card : Nat → Nat} (hcard : ∀ j < n, card j = (firstSeen (column train j)).length) :
    Columns card n (((List.range n).map (fun j => (column train j).map (fun s => ((firstSeen (column train j)).idxOf s : Int)))).map
      (fun c => c.map Int.toNat)) (train.map (rowAssignment train)) := by
  constructor
  · intro v hv
    refine ⟨(column train v).map (codeIn train v), ?_, ?_⟩
    · rw [List.map_map, List.getElem?_map, List.getElem?_range hv]
      simp [codeIn, Function.comp_def]
    · intro j r hr
      rw [List.getElem?_map] at hr
      unfold column
      rw [List.map_map, List.getElem?_map]
      cases h : train[j]? with
      | none => rw [h] at hr; cases hr
      | some x =>
        rw [h] at hr
        cases hr
        rfl
  · intro r hr v hv
    obtain ⟨x, hx, rfl⟩ := List.mem_map.1 hr
    rw [hcard v hv]
    exact List.idxOf_lt_length_iff.2 (mem_firstSeen.2 (List.mem_map.2 ⟨x, hx, rfl⟩))

end FastPGM
