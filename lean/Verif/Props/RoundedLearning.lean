import Verif.Model.RoundedLearning
import Verif.Props.RoundedTest
import Verif.Props.SameData

/-!
Structure learning from a file in machine arithmetic (C119).
-/

namespace FastPGM

open Spec

/-- C119.  Learning from a training file with fewer than 2^31 rows, with correctly rounded `double`s and the chi-square distribution: if every test
on the table is clear, the learned network (or the fault) and the number of edges are those of exact arithmetic with single tests, whatever the
orders of the parallel loops in the two runs and whether or not the edges left undirected are directed and ROOT is added. -/
theorem C119_structure {alpha π : ℝ} {pchisq : ℝ → Nat → Option ℝ} (htail : AccurateTail (doubleOps pchisq) chiSquare π) {n : Nat}
    {train : List (List Str)} (hm : train.length < 2 ^ 31)
    (hclear : ∀ x y z, (∀ v ∈ z ++ [x, y], v < n) → (z ++ [x, y]).Nodup →
      ClearTest chiSquare alpha π (statisticError (2 ^ (-53 : ℤ)) train.length
        (cellBound (fun v => (firstSeen (column train v)).length) train.length x y z))
        (fun v => (firstSeen (column train v)).length) (train.map (rowAssignment train)) x y z)
    {g : Nat} (hg0 : 0 < g)
    (hg : g ≤ 1 ∨ g ≤ 8 ∧ ∀ x y z, (∀ v ∈ z ++ [x, y], v < n) → (z ++ [x, y]).Nodup → z ≠ [] →
      degrees (fun v => (firstSeen (column train v)).length) (train.map (rowAssignment train)) x y z ≠ 0) :
    ∃ F, ∀ (X X' : Execution ℝ) (names : List Str) (file : Str) (dag addRoot : Bool), SameMachine n X X' → X.log = Real.log →
      X.pchisq = (fun g df => some (chiSquare g df)) → F ≤ X.fuel → TrainFile n names train file →
      (do structLearnFullR (doubleOps pchisq) X' alpha g dag addRoot (← loadCSVTraining file true 0)) =
        (do structLearnFull X alpha 1 dag addRoot (← loadCSVTraining file true 0)) := by
  have hdims : ∀ v < n, (trainDims train n)[v]? = some ((fun v => (firstSeen (column train v)).length) v) := by
    intro v hv
    simp [trainDims, List.getElem?_range hv]
  have hlen : (train.map (rowAssignment train)).length = train.length := List.length_map _
  obtain ⟨F, h⟩ := C119_skeleton_doubles (alpha := alpha) htail (train_cols train n) hdims (by rw [hlen]; exact hm) (by rw [hlen]; exact hclear)
    hg0 hg 1000
  rw [hlen] at h
  refine ⟨F, ?_⟩
  rintro X X' names file dag addRoot ⟨-, -, m3, m4, m5, m6, m7, m8⟩ hlog hchi hF hf
  obtain ⟨D, hD, hr⟩ := readsTrain hf
  obtain ⟨k, k', h1, h1', hedges, hadj, hsep⟩ := h 128 128 X'.order0 X.order0 X'.sched X.sched X'.fuel X.fuel (by omega) (by omega) m6 m5 m8 m7
    (by rw [m4]; exact hF) hF
  have hnet : ∀ dims, skeletonNet dims k = skeletonNet dims k' := by
    intro dims
    unfold skeletonNet
    have := congrArg (List.map (fun p : Nat × Nat => mkUndirected p.1 p.2)) hedges
    rw [List.map_map, List.map_map] at this
    exact congrArg (fun es => { Net.empty dims with edges := es }) this
  have hl : k.edges.length = k'.edges.length := by simpa using congrArg List.length hedges
  rw [hD, ok_bind, ok_bind]
  unfold structLearnFullR structLearnFull
  rw [hr.dims, ok_bind, ok_bind, hr.vars, hr.rows, hr.columns, hlog, hchi, h1, h1', ok_bind, ok_bind, hl]
  unfold orientPhase
  rw [hnet, hadj, hsep, m3, m4]

namespace RoundedFile

/-- A training table with six rows: every combination of three and two texts. -/
def train : List (List Str) := [[lit "a", lit "x"], [lit "a", lit "y"], [lit "b", lit "x"], [lit "b", lit "y"], [lit "c", lit "x"], [lit "c", lit "y"]]

theorem cell0 : rowAssignment train [lit "a", lit "x"] 0 = 0 ∧ rowAssignment train [lit "a", lit "x"] 1 = 0 := by decide +kernel

theorem cell1 : rowAssignment train [lit "a", lit "y"] 0 = 0 ∧ rowAssignment train [lit "a", lit "y"] 1 = 1 := by decide +kernel

theorem cell2 : rowAssignment train [lit "b", lit "x"] 0 = 1 ∧ rowAssignment train [lit "b", lit "x"] 1 = 0 := by decide +kernel

theorem cell3 : rowAssignment train [lit "b", lit "y"] 0 = 1 ∧ rowAssignment train [lit "b", lit "y"] 1 = 1 := by decide +kernel

theorem cell4 : rowAssignment train [lit "c", lit "x"] 0 = 2 ∧ rowAssignment train [lit "c", lit "x"] 1 = 0 := by decide +kernel

theorem cell5 : rowAssignment train [lit "c", lit "y"] 0 = 2 ∧ rowAssignment train [lit "c", lit "y"] 1 = 1 := by decide +kernel

theorem card0 : (firstSeen (column train 0)).length = 3 := by decide +kernel

theorem card1 : (firstSeen (column train 1)).length = 2 := by decide +kernel

theorem statistic {x y : Nat} (h : x = 0 ∧ y = 1 ∨ x = 1 ∧ y = 0) :
    gSquare Real.log (fun v => (firstSeen (column train v)).length) (train.map (rowAssignment train)) x y [] = 0 ∧
      degrees (fun v => (firstSeen (column train v)).length) (train.map (rowAssignment train)) x y [] = 2 := by
  have e : train.map (rowAssignment train) = [rowAssignment train [lit "a", lit "x"], rowAssignment train [lit "a", lit "y"], rowAssignment train [lit "b", lit "x"], rowAssignment train [lit "b", lit "y"], rowAssignment train [lit "c", lit "x"], rowAssignment train [lit "c", lit "y"]] := rfl
  rw [e]
  rcases h with ⟨rfl, rfl⟩ | ⟨rfl, rfl⟩
  · exact ⟨by norm_num [gSquare, sumOut, countSame, gTerm, Assignment.set, Finset.sum_range_succ, card0, card1, (cell0).1, (cell0).2, (cell1).1, (cell1).2, (cell2).1, (cell2).2, (cell3).1, (cell3).2, (cell4).1, (cell4).2, (cell5).1, (cell5).2], by decide +kernel⟩
  · exact ⟨by norm_num [gSquare, sumOut, countSame, gTerm, Assignment.set, Finset.sum_range_succ, card0, card1, (cell0).1, (cell0).2, (cell1).1, (cell1).2, (cell2).1, (cell2).2, (cell3).1, (cell3).2, (cell4).1, (cell4).2, (cell5).1, (cell5).2], by decide +kernel⟩

/-- All tests on the table at the level 0.05 are clear. -/
example {x y : Nat} {z : List Nat} (hv : ∀ v ∈ z ++ [x, y], v < 2) (hn : (z ++ [x, y]).Nodup) :
    ClearTest chiSquare (1 / 20) (2 ^ (-53 : ℤ)) (statisticError (2 ^ (-53 : ℤ)) train.length
        (cellBound (fun v => (firstSeen (column train v)).length) train.length x y z))
        (fun v => (firstSeen (column train v)).length) (train.map (rowAssignment train)) x y z := by
  have h := RoundedExample.clear hv hn
  obtain ⟨rfl, hxy⟩ := RoundedExample.pairs hv hn
  have e1 : cellBound (fun v => (firstSeen (column train v)).length) train.length x y [] = 6 := by
    rcases hxy with ⟨rfl, rfl⟩ | ⟨rfl, rfl⟩ <;> decide +kernel
  have e2 : cellBound RoundedExample.card RoundedExample.rows.length x y [] = 6 := by
    rcases hxy with ⟨rfl, rfl⟩ | ⟨rfl, rfl⟩ <;> decide
  unfold ClearTest at h ⊢
  rw [(RoundedExample.statistic hxy).1, (RoundedExample.statistic hxy).2, e2] at h
  rw [(statistic hxy).1, (statistic hxy).2, e1]
  exact h

end RoundedFile

end FastPGM
