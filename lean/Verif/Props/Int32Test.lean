import Verif.Lemmas.Int32Test2
import Verif.Props.CellTable
import Verif.Props.Int32

/-!
C115: the tests of conditional independence in 32-bit arithmetic.
-/

namespace FastPGM

open Spec

variable {K : Type} [Field K] [LinearOrder K] (log : K → K) (pchisq : K → Nat → Option K) (alpha : K)
  {card : Nat → Nat} {numVars : Nat} {cols : List (List Nat)} {rows : List Assignment} {dims : List Nat} {x y : Nat}

/-- C115, one test.  If the number of cells of the contingency table is less than 2³¹, no index, size or number of degrees of freedom
overflows and the verdict is the one specified (as in C27); otherwise the behaviour is undefined. -/
theorem C115_single (hc : Columns card numVars cols rows) (hdim : ∀ v < numVars, dims[v]? = some (card v))
    {z : List Nat} (hv : ∀ v ∈ z ++ [x, y], v < numVars) (hn : (z ++ [x, y]).Nodup) (hd : ∀ v ∈ z ++ [x, y], 0 < card v ∧ card v < 2 ^ 31) :
    (((z ++ [x, y]).map card).prod < 2 ^ 31 →
      ∃ res, independenceResult32 log pchisq alpha dims cols rows.length x y z 1 = .ok res ∧
        (res.indep = true ↔ Independent log pchisq alpha card rows x y z) ∧
        res.p = if degrees card rows x y z = 0 then some 1
          else (pchisq (gSquare log card rows x y z) (degrees card rows x y z)).map (fun q => 1 - q)) ∧
    (2 ^ 31 ≤ ((z ++ [x, y]).map card).prod →
      independenceResult32 log pchisq alpha dims cols rows.length x y z 1 = .error .ub) := by
  have hcell : ((z ++ [x, y]).map card).prod = (z.map card).prod * card x * card y := by simp [Nat.mul_assoc]
  have hD : DimsFor card dims (z ++ [x, y]) := fun v hv' => hdim v (hv v hv')
  have key : independenceResult32 log pchisq alpha dims cols rows.length x y z 1 =
      if ((z ++ [x, y]).map card).prod ≤ intMax then independenceResult log pchisq alpha dims cols rows.length x y z 1 else .error .ub := by
    unfold independenceResult32 independenceResult
    by_cases hz : z = []
    · subst hz
      rw [if_pos rfl, if_pos rfl, gSquareXY32_eq log pchisq alpha (hd x (by simp)).1 (hd y (by simp)).1 (Columns.for hc hv) hD, hcell]
      simp
    · rw [if_neg hz, if_neg hz, if_neg (show ¬ 1 > 1 by omega), if_neg (show ¬ 1 > 1 by omega), hcell]
      exact gSquareXYZ32_eq log pchisq alpha hz (fun v hv' => ⟨(hd v hv').1, le_intMax.2 (hd v hv').2⟩) (Columns.for hc hv) hD
  rw [key]
  constructor
  · intro h
    rw [if_pos (le_intMax.2 h)]
    exact C27_statistic log pchisq alpha hc hdim hv hn
  · intro h
    rw [if_neg (by rw [le_intMax]; omega)]

/-- C115, a group of at most eight tests with `depth` conditioning variables each.  The tables of the group lie in one array: if their
cells together are fewer than 2³¹, the result is the specified one (as in C26); otherwise the behaviour is undefined. -/
theorem C115_group (hc : Columns card numVars cols rows) (hdim : ∀ v < numVars, dims[v]? = some (card v))
    {sets : List (List Nat)} {depth : Nat} (h2 : 2 ≤ sets.length) (h8 : sets.length ≤ 8) (hdp : 0 < depth) (hu : ∀ s ∈ sets, s.length = depth)
    (hv : ∀ v ∈ sets.flatten ++ [x, y], v < numVars) (hn : ∀ s ∈ sets, (s ++ [x, y]).Nodup)
    (hd : ∀ v ∈ sets.flatten ++ [x, y], 0 < card v) :
    ((sets.map (fun s => ((s ++ [x, y]).map card).prod)).sum < 2 ^ 31 →
      (∃ e s, sets[e]? = some s ∧
          (∃ q, pchisq (gSquare log card rows x y s) (degrees card rows x y s) = some q ∧ alpha < 1 - q) ∧
          (∀ e' < e, ∀ s', sets[e']? = some s' →
            ¬ ∃ q, pchisq (gSquare log card rows x y s') (degrees card rows x y s') = some q ∧ alpha < 1 - q) ∧
          independenceResult32 log pchisq alpha dims cols rows.length x y sets.flatten sets.length = .ok ⟨some (-1), true, some e⟩) ∨
        ((∀ s ∈ sets, ¬ ∃ q, pchisq (gSquare log card rows x y s) (degrees card rows x y s) = some q ∧ alpha < 1 - q) ∧
          independenceResult32 log pchisq alpha dims cols rows.length x y sets.flatten sets.length = .ok ⟨some 0, false, none⟩)) ∧
    (2 ^ 31 ≤ (sets.map (fun s => ((s ++ [x, y]).map card).prod)).sum →
      independenceResult32 log pchisq alpha dims cols rows.length x y sets.flatten sets.length = .error .ub) := by
  have hne : sets ≠ [] := by rintro rfl; simp at h2
  have hfl : sets.flatten ≠ [] := by
    intro e
    have := Uniform.length (sets := sets) (depth := depth) hu
    rw [e] at this
    have h3 : 0 < sets.length * depth := Nat.mul_pos (by omega) hdp
    simp only [List.length_nil] at this
    omega
  have hcell : (sets.map (fun s => ((s ++ [x, y]).map card).prod)).sum = (groupDims card sets).sum * card x * card y := by
    clear h2 h8 hu hv hn hd hne hfl
    unfold groupDims
    induction sets with
    | nil => simp
    | cons s sets ih =>
      rw [List.map_cons, List.sum_cons, ih, List.map_cons, List.sum_cons, Nat.add_mul, Nat.add_mul]
      simp [Nat.mul_assoc]
  have hD : DimsFor card dims (sets.flatten ++ [x, y]) := fun v hv' => hdim v (hv v hv')
  have key : independenceResult32 log pchisq alpha dims cols rows.length x y sets.flatten sets.length =
      if (groupDims card sets).sum * card x * card y ≤ intMax then
        gSquareXYZGroup log pchisq alpha dims cols rows.length x y sets.flatten sets.length
      else .error .ub := by
    unfold independenceResult32
    rw [if_neg hfl, if_pos (by omega)]
    exact gSquareXYZGroup32_eq log pchisq alpha hne hdp hu hd (Columns.for hc hv) hD
  rw [key, hcell]
  constructor
  · intro h
    rw [if_pos (le_intMax.2 h)]
    exact C26_group log pchisq alpha hc hdim hne hdp hu hv hn h8
  · intro h
    rw [if_neg (by rw [le_intMax]; omega)]

/-- C115, a sufficient condition in terms of the parameters of the learner: variables have at most `d` values, and `d ^ (depth + 2)`
times the group size is less than 2³¹. -/
theorem C115_sufficient {sets : List (List Nat)} {depth d size : Nat} (hs : sets.length ≤ size) (hu : ∀ s ∈ sets, s.length = depth)
    (hd : ∀ v, card v ≤ d) (h : size * d ^ (depth + 2) < 2 ^ 31) :
    (sets.map (fun s => ((s ++ [x, y]).map card).prod)).sum < 2 ^ 31 := by
  have h1 : ∀ l : List Nat, (l.map card).prod ≤ d ^ l.length := by
    intro l
    induction l with
    | nil => simp
    | cons v l ih =>
      rw [List.map_cons, List.prod_cons, List.length_cons, Nat.pow_succ, Nat.mul_comm]
      exact Nat.mul_le_mul ih (hd v)
  have h2 : (sets.map (fun s => ((s ++ [x, y]).map card).prod)).sum ≤ sets.length * d ^ (depth + 2) := by
    clear hs
    induction sets with
    | nil => simp
    | cons s sets ih =>
      have h3 := h1 (s ++ [x, y])
      rw [List.length_append, hu s (by simp)] at h3
      have h4 := ih (fun t ht => hu t (by simp [ht]))
      rw [List.map_cons, List.sum_cons, List.length_cons, Nat.succ_mul, Nat.add_comm]
      exact Nat.add_le_add h4 h3
  have h3 := Nat.mul_le_mul_right (d ^ (depth + 2)) hs
  omega

/-- Groups of eight, variables with at most 16 values: four conditioning variables are within the limit, five are not. -/
example : 8 * 16 ^ (4 + 2) < 2 ^ 31 ∧ ¬ 8 * 16 ^ (5 + 2) < 2 ^ 31 := by decide

/-- C115, violated for groups: with binary variables, eight tests given 26 variables each are defined when made one by one
(2²⁸ cells), and undefined when made as a group. -/
theorem C115_group_lost (hc : Columns card numVars cols rows) (hdim : ∀ v < numVars, dims[v]? = some (card v))
    {sets : List (List Nat)} (h8 : sets.length = 8) (hu : ∀ s ∈ sets, s.length = 26)
    (hv : ∀ v ∈ sets.flatten ++ [x, y], v < numVars) (hn : ∀ s ∈ sets, (s ++ [x, y]).Nodup) (h2 : ∀ v, card v = 2) :
    (∀ s ∈ sets, ∃ res, independenceResult32 log pchisq alpha dims cols rows.length x y s 1 = .ok res ∧
      (res.indep = true ↔ Independent log pchisq alpha card rows x y s)) ∧
    independenceResult32 log pchisq alpha dims cols rows.length x y sets.flatten sets.length = .error .ub := by
  have hcell : ∀ s ∈ sets, ((s ++ [x, y]).map card).prod = 2 ^ 28 := by
    intro s hs
    have : (s ++ [x, y]).map card = List.replicate 28 2 := by
      rw [List.eq_replicate_iff]
      exact ⟨by simp [hu s hs], fun b hb => by obtain ⟨v, _, rfl⟩ := List.mem_map.1 hb; exact h2 v⟩
    rw [this, List.prod_replicate]
  constructor
  · intro s hs
    have hv' : ∀ v ∈ s ++ [x, y], v < numVars := by
      intro v hv1
      refine hv v ?_
      rcases List.mem_append.1 hv1 with h | h
      · exact List.mem_append_left _ (List.mem_flatten.2 ⟨s, hs, h⟩)
      · exact List.mem_append_right _ h
    obtain ⟨res, h, h', _⟩ := (C115_single log pchisq alpha hc hdim hv' (hn s hs) (fun v _ => by rw [h2]; decide)).1
      (by rw [hcell s hs]; decide)
    exact ⟨res, h, h'⟩
  · refine (C115_group log pchisq alpha hc hdim (by omega) (by omega) (by omega) hu hv hn (fun v _ => by rw [h2]; decide)).2 ?_
    rw [List.map_congr_left hcell]
    simp [h8]

/-- 35 binary variables and one instance; the sets are eight of the sets of 26 of the variables 2-34. -/
example : Columns (fun _ => 2) 35 (List.replicate 35 [1]) [fun _ => 1] ∧ (∀ v < 35, (List.replicate 35 2)[v]? = some 2) ∧
    ∃ sets : List (List Nat), sets.Nodup ∧ sets.length = 8 ∧ (∀ s ∈ sets, s.length = 26) ∧ (∀ v ∈ sets.flatten ++ [0, 1], v < 35) ∧
      ∀ s ∈ sets, (s ++ [0, 1]).Nodup := by
  refine ⟨⟨fun v hv => ⟨[1], by rw [List.getElem?_replicate, if_pos hv], fun j r h => ?_⟩, fun r hr v _ => ?_⟩,
    fun v hv => by rw [List.getElem?_replicate, if_pos hv], (List.range 8).map (fun i => (List.range 26).map (· + 2 + i)), ?_⟩
  · match j with
    | 0 => simp at h; simp [← h]
    | j + 1 => simp at h
  · simp at hr; simp [hr]
  · decide +kernel

example : independenceResult32 (K := ℚ) (fun q => q - 1) (fun g _ => some g) (1 / 20) [2, 2, 2, 2] [[0, 1], [0, 1], [1, 1], [0, 1]] 2 0 1 [2] 1 =
      independenceResult (K := ℚ) (fun q => q - 1) (fun g _ => some g) (1 / 20) [2, 2, 2, 2] [[0, 1], [0, 1], [1, 1], [0, 1]] 2 0 1 [2] 1 ∧
    independenceResult32 (K := ℚ) (fun q => q - 1) (fun g _ => some g) (1 / 20) [2, 2, 2, 2] [[0, 1], [0, 1], [1, 1], [0, 1]] 2 0 1 [2, 3] 2 =
      .ok ⟨some (-1), true, some 1⟩ := by decide +kernel

end FastPGM
