import Verif.Lemmas.TestMemory6
import Verif.Lemmas.IndependenceTest2
import Verif.Spec.TestMemory

/-!
C113, C114: the memory used by the tests of conditional independence.
-/

namespace FastPGM

open Spec

variable {K : Type}

theorem Leaves.live {M M' : IntMem} {k : Nat} (h : Leaves M M' k) : Spec.live M' = Spec.live M + k := by
  unfold Spec.live
  obtain ⟨d, hd⟩ : ∃ d, M'.next = M.next + k + d := ⟨M'.next - (M.next + k), by have := h.next; omega⟩
  have split : ∀ a b, List.range (a + b) = List.range a ++ (List.range b).map (a + ·) := fun a b => List.range_add
  rw [hd, split, split, List.filter_append, List.filter_append, List.length_append, List.length_append]
  have h1 : (List.range M.next).filter (fun a => (M'.arr a).isSome) = (List.range M.next).filter (fun a => (M.arr a).isSome) := by
    apply List.filter_congr
    intro a ha
    rw [h.old a (List.mem_range.mp ha)]
  have h2 : ((List.range k).map (M.next + ·)).filter (fun a => (M'.arr a).isSome) = (List.range k).map (M.next + ·) := by
    rw [List.filter_eq_self]
    intro a ha
    simp only [List.mem_map, List.mem_range] at ha
    obtain ⟨i, hi, rfl⟩ := ha
    have := (h.alive (M.next + i) (by omega)).mpr (by omega)
    exact Option.isSome_iff_ne_none.mpr this
  have h3 : ((List.range d).map (M.next + k + ·)).filter (fun a => (M'.arr a).isSome) = [] := by
    rw [List.filter_eq_nil_iff]
    intro a ha
    simp only [List.mem_map, List.mem_range] at ha
    obtain ⟨i, hi, rfl⟩ := ha
    intro hs
    have := (h.alive (M.next + k + i) (by omega)).mp (Option.isSome_iff_ne_none.mp hs)
    omega
  rw [h1, h2, h3]
  simp

section

variable [Field K] [LinearOrder K] (log : K → K) (pchisq : K → Nat → Option K) (alpha : K)

theorem test_run (dims : List Nat) (cols : List (List Nat)) (m x y : Nat) (z : List Nat) (size : Nat) {M : IntMem} (hM : M.Fresh) :
    (∃ e, independenceResult log pchisq alpha dims cols m x y z size = .error e ∧
      independenceResultMem log pchisq alpha dims cols m x y z size M = .error e) ∨
    ∃ r M' k, independenceResult log pchisq alpha dims cols m x y z size = .ok r ∧
      independenceResultMem log pchisq alpha dims cols m x y z size M = .ok (r, M') ∧ Leaves M M' k ∧
      (z = [] → ∃ s, statXY log dims cols m x y = .ok s ∧ k = if s.2 = 0 then 4 else 0) ∧
      (z ≠ [] → 1 < size → k = 0) ∧
      (z ≠ [] → ¬ 1 < size → ∃ s, statXYZ log dims cols m x y z = .ok s ∧ k = if s.2 = 0 then (if z.length > 1 then 6 else 5) else 0) := by
  unfold independenceResultMem independenceResult
  by_cases hz : z = []
  · rw [if_pos hz, if_pos hz, gSquareXY_stat]
    rcases gSquareXYMem_run log pchisq alpha dims cols m x y hM with ⟨e, h1, h2⟩ | ⟨r, M', h1, h2, h3⟩
    · exact Or.inl ⟨e, by rw [h1]; rfl, h2⟩
    · refine Or.inr ⟨_, M', _, ?_, h2, h3, fun _ => ⟨r, h1, rfl⟩, fun h => absurd hz h, fun h => absurd hz h⟩
      rw [h1, exc_ok]; split <;> rfl
  · rw [if_neg hz, if_neg hz]
    by_cases hs : size > 1
    · rw [if_pos hs, if_pos hs]
      rcases gSquareXYZGroupMem_run log pchisq alpha dims cols m x y z (by omega : 0 < size) hM with ⟨e, h1, h2⟩ | ⟨r, M', h1, h2, h3⟩
      · exact Or.inl ⟨e, h1, h2⟩
      · exact Or.inr ⟨r, M', 0, h1, h2, h3, fun h => absurd h hz, fun _ _ => rfl, fun _ h => absurd hs h⟩
    · rw [if_neg hs, if_neg hs, gSquareXYZ_stat]
      rcases gSquareXYZMem_run log pchisq alpha dims cols m x y z hM with ⟨e, h1, h2⟩ | ⟨r, M', h1, h2, h3⟩
      · exact Or.inl ⟨e, by rw [h1]; rfl, h2⟩
      · refine Or.inr ⟨_, M', _, ?_, h2, h3, fun h => absurd h hz, fun _ h => absurd h hs, fun _ _ => ⟨r, h1, rfl⟩⟩
        rw [h1, exc_ok]; split <;> rfl

/-- C113.  For all arguments whatsoever, a test run on the memory gives the result (or the error) of the test on lists: no indeterminate
entry, no dead array and no place outside an array is used unless the test on lists fails as well.  The blocks of other owners are
unchanged. -/
theorem C113_refines (dims : List Nat) (cols : List (List Nat)) (m x y : Nat) (z : List Nat) (size : Nat) {M : IntMem} (hM : M.Fresh) :
    (∃ e, independenceResult log pchisq alpha dims cols m x y z size = .error e ∧
      independenceResultMem log pchisq alpha dims cols m x y z size M = .error e) ∨
    ∃ r M', independenceResult log pchisq alpha dims cols m x y z size = .ok r ∧
      independenceResultMem log pchisq alpha dims cols m x y z size M = .ok (r, M') ∧
      M'.Fresh ∧ M.next ≤ M'.next ∧ ∀ a, a < M.next → M'.arr a = M.arr a := by
  rcases test_run log pchisq alpha dims cols m x y z size hM with h | ⟨r, M', k, h1, h2, h3, _⟩
  · exact Or.inl h
  · exact Or.inr ⟨r, M', h1, h2, h3.fresh, by have := h3.next; omega, h3.old⟩

variable {card : Nat → Nat} {numVars : Nat} {dims : List Nat} {cols : List (List Nat)} {rows : List Assignment}

omit [LinearOrder K] in
theorem statXYZ_eq {x y : Nat} {z : List Nat} (hz : z ≠ []) (hn : (z ++ [x, y]).Nodup) (h : ColsFor card cols rows (z ++ [x, y]))
    (hd : DimsFor card dims (z ++ [x, y])) :
    statXYZ log dims cols rows.length x y z = .ok (gSquare log card rows x y z, degrees card rows x y z) := by
  unfold statXYZ
  rw [rd_ok (hd x (by simp)), ok_bind, rd_ok (hd y (by simp)), ok_bind,
    mapM_ok (g := card) (fun v hv => rd_ok (hd v (by simp [hv]))), ok_bind, counts3D_eq hz h, ok_bind]
  simp only
  rw [strata_single log hn h.lt (fun k hk => margTables_stratum (fun r hr => h.lt r hr x (by simp)) (fun r hr => h.lt r hr y (by simp)) hk)]

omit [LinearOrder K] in
theorem statXY_eq {x y : Nat} (hn : [x, y].Nodup) (h : ColsFor card cols rows [x, y]) (hd : DimsFor card dims [x, y]) :
    statXY log dims cols rows.length x y = .ok (gSquare log card rows x y [], degrees card rows x y []) := by
  unfold statXY
  rw [rd_ok (hd x (by simp)), ok_bind, rd_ok (hd y (by simp)), ok_bind, counts2D_eq h, ok_bind]
  have hst := strata_single (K := K) log (z := []) hn h.lt (off := 0)
    (t := { margTables rows (fun r => r x) (fun r => r y) (fun _ => 0) (card x) (card y) 1 with nk := [rows.length] }) ?_
  · rw [show (([] : List Nat).map card).prod = 1 from rfl, show List.range 1 = [0] from rfl, List.foldlM_cons] at hst
    rw [← hst]
    simp only
    cases gSquareStratum log { margTables rows (fun r => r x) (fun r => r y) (fun _ => 0) (card x) (card y) 1 with nk := [rows.length] }
      (card x) (card y) 0 ((0 : K), 0) 0 <;> rfl
  · intro k hk
    have hk0 : k = 0 := by simpa using hk
    subst hk0
    have := margTables_stratum (is := rows) (X := fun r => r x) (Y := fun r => r y) (Z := fun _ => 0) (D := 1) (dx := card x) (dy := card y)
      (fun r hr => h.lt r hr x (by simp)) (fun r hr => h.lt r hr y (by simp)) (k := 0) (off := 0) (by simp)
    have hz : ∀ r : Assignment, zOf card [] r = 0 := fun r => rfl
    simp only [hz] at this ⊢
    exact ⟨this.n, this.ni, this.nj, by simp [rd], this.row, this.col, this.total⟩

/-- The four arguments of a test: the two variables, the conditioning variables and the size of the group. -/
abbrev TestArgs := Nat × Nat × List Nat × Nat

/-- The variables of a test are different variables of the data set. -/
def TestArgs.Valid (numVars : Nat) (q : TestArgs) : Prop :=
  (∀ v ∈ q.2.2.1 ++ [q.1, q.2.1], v < numVars) ∧ (1 < q.2.2.2 ∨ (q.2.2.1 ++ [q.1, q.2.1]).Nodup) ∧ q.1 ≠ q.2.1

/-- C114 (what is missing: the release of the table when there is no degree of freedom, see `C114_leak`).  Of the blocks a test
allocates, none is alive when it returns if it tests a group or there is a degree of freedom; otherwise the table object with its three,
four or five arrays is. -/
theorem C114_released_partial (hc : Columns card numVars cols rows) (hdim : ∀ v < numVars, dims[v]? = some (card v)) {q : TestArgs}
    (hq : q.Valid numVars) {M M' : IntMem} (hM : M.Fresh) {r : CIResult K}
    (h : independenceResultMem log pchisq alpha dims cols rows.length q.1 q.2.1 q.2.2.1 q.2.2.2 M = .ok (r, M')) :
    live M' = live M + leftBehind card rows q.1 q.2.1 q.2.2.1 q.2.2.2 := by
  obtain ⟨x, y, z, size⟩ := q
  obtain ⟨hv, hnd, hne⟩ := hq
  simp only at hv hnd hne h ⊢
  rcases test_run log pchisq alpha dims cols rows.length x y z size hM with ⟨e, _, h2⟩ | ⟨r', M'', k, _, h2, h3, h4, h5, h6⟩
  · rw [h2] at h; cases h
  rw [h2] at h
  cases h
  rw [h3.live]
  congr 1
  unfold leftBehind
  by_cases hz : z = []
  · subst hz
    obtain ⟨s, hs, rfl⟩ := h4 rfl
    have hn : [x, y].Nodup := by simpa using hne
    rw [statXY_eq log hn (Columns.for hc hv) (fun v hv' => hdim v (hv v hv'))] at hs
    cases hs
    by_cases hdg : degrees card rows x y [] = 0 <;> simp [hdg]
  · by_cases hsz : 1 < size
    · rw [h5 hz hsz, if_pos ⟨hz, hsz⟩]
    · obtain ⟨s, hs, rfl⟩ := h6 hz hsz
      have hn : (z ++ [x, y]).Nodup := by
        rcases hnd with h | h
        · exact absurd h hsz
        · exact h
      rw [statXYZ_eq log hz hn (Columns.for hc hv) (fun v hv' => hdim v (hv v hv'))] at hs
      cases hs
      have h0 : z.length ≠ 0 := fun h => hz (List.length_eq_zero_iff.mp h)
      rw [if_neg (show ¬ (z ≠ [] ∧ 1 < size) from fun h => hsz h.2)]
      by_cases hdg : degrees card rows x y z = 0
      · simp only [hdg, if_true, ne_eq, not_true, if_false]
        by_cases h1 : z.length = 1
        · simp [h1]
        · rw [if_pos (by omega), if_neg h0, if_neg h1]
      · simp [hdg]

/-- C114, for a whole sequence of tests: what is alive afterwards is what was alive before and what the single tests leave behind. -/
theorem C114_sequence (hc : Columns card numVars cols rows) (hdim : ∀ v < numVars, dims[v]? = some (card v)) :
    ∀ (tests : List TestArgs), (∀ q ∈ tests, q.Valid numVars) → ∀ {M M' : IntMem}, M.Fresh → ∀ {rs : List (CIResult K)},
    (tests.mapM (fun q => independenceResultMem log pchisq alpha dims cols rows.length q.1 q.2.1 q.2.2.1 q.2.2.2)) M = .ok (rs, M') →
    live M' = live M + (tests.map (fun q => leftBehind card rows q.1 q.2.1 q.2.2.1 q.2.2.2)).sum := by
  intro tests
  induction tests with
  | nil => intro _ M M' _ rs h; cases h; simp
  | cons q tests ih =>
    intro hv M M' hM rs h
    rw [List.mapM_cons, memBind] at h
    obtain ⟨⟨r, M1⟩, h1, h⟩ := exc_bind_ok h
    rw [memBind] at h
    obtain ⟨⟨rs', M2⟩, h2, h⟩ := exc_bind_ok h
    rw [memPure] at h
    cases h
    have hfresh : M1.Fresh := by
      rcases C113_refines log pchisq alpha dims cols rows.length q.1 q.2.1 q.2.2.1 q.2.2.2 hM with ⟨e, _, he⟩ | ⟨_, _, _, he, hf, _⟩
      · rw [he] at h1; cases h1
      · rw [he] at h1; cases h1; exact hf
    have e1 := C114_released_partial log pchisq alpha hc hdim (hv q (List.mem_cons_self ..)) hM h1
    have e2 := ih (fun q' hq' => hv q' (List.mem_cons_of_mem _ hq')) hfresh h2
    rw [e2, e1, List.map_cons, List.sum_cons]
    omega

/-- C114, violation: testing two variables without a degree of freedom (for instance, one is constant in the data) `n` times leaves `4 n`
blocks that nothing refers to any more. -/
theorem C114_leak (hc : Columns card numVars cols rows) (hdim : ∀ v < numVars, dims[v]? = some (card v)) {x y : Nat} (hx : x < numVars)
    (hy : y < numVars) (hxy : x ≠ y) (hdf : degrees card rows x y [] = 0) (n : Nat) {M : IntMem} (hM : M.Fresh) :
    ∃ rs M', ((List.replicate n (x, y, [], 1)).mapM
      (fun (q : TestArgs) => independenceResultMem log pchisq alpha dims cols rows.length q.1 q.2.1 q.2.2.1 q.2.2.2)) M = .ok (rs, M') ∧
      live M' = live M + 4 * n := by
  have hval : TestArgs.Valid numVars (x, y, [], 1) :=
    ⟨fun v hv => by simp at hv; rcases hv with rfl | rfl <;> assumption, Or.inr (by simpa using hxy), hxy⟩
  have hrun : ∀ (n : Nat) (M : IntMem), M.Fresh → ∃ rs M', ((List.replicate n (x, y, [], 1)).mapM
      (fun (q : TestArgs) => independenceResultMem log pchisq alpha dims cols rows.length q.1 q.2.1 q.2.2.1 q.2.2.2)) M = .ok (rs, M') := by
    intro n
    induction n with
    | zero => intro M _; exact ⟨[], M, rfl⟩
    | succ n ih =>
      intro M hM
      rw [List.replicate_succ, List.mapM_cons]
      have hok := statXY_eq log (show [x, y].Nodup by simpa using hxy) (Columns.for hc hval.1) (fun v hv' => hdim v (hval.1 v hv'))
      rcases C113_refines log pchisq alpha dims cols rows.length x y [] 1 hM with ⟨e, he, _⟩ | ⟨r, M1, _, h1, hf, _⟩
      · unfold independenceResult at he
        rw [if_pos rfl, gSquareXY_stat, hok, exc_ok] at he
        split at he <;> cases he
      · obtain ⟨rs, M2, h2⟩ := ih M1 hf
        refine ⟨r :: rs, M2, ?_⟩
        rw [memBind, h1, exc_ok, memBind, h2, exc_ok, memPure]
  obtain ⟨rs, M', h⟩ := hrun n M hM
  refine ⟨rs, M', h, ?_⟩
  rw [C114_sequence log pchisq alpha hc hdim _ (fun q hq => by rw [(List.mem_replicate.mp hq).2]; exact hval) hM h]
  simp [leftBehind, hdf]
  omega

end

/-- The empty memory. -/
def IntMem.empty : IntMem := ⟨0, fun _ => none⟩

theorem empty_fresh : IntMem.empty.Fresh := fun _ _ => rfl

-- x0 is constant in three instances: the test leaves four blocks, a test given x2 five; tests with degrees of freedom and groups leave none
example : (match independenceResultMem (K := Rat) (fun r => r) (fun _ _ => some 0) (1 / 20) [2, 2, 2, 2]
    [[1, 1, 1], [0, 1, 0], [0, 1, 1], [1, 0, 0]] 3 0 1 [] 1 IntMem.empty with
    | .ok (r, M) => some (r.indep, live M) | .error _ => none) = some (true, 4) := by decide +kernel

example : (match independenceResultMem (K := Rat) (fun r => r) (fun _ _ => some 0) (1 / 20) [2, 2, 2, 2]
    [[1, 1, 1], [0, 1, 0], [0, 1, 1], [1, 0, 0]] 3 0 1 [2, 3] 1 IntMem.empty with
    | .ok (r, M) => some (r.indep, live M, M.next) | .error _ => none) = some (true, 6, 6) := by decide +kernel

example : (match independenceResultMem (K := Rat) (fun r => r) (fun _ _ => some 0) (1 / 20) [2, 2, 2, 2]
    [[1, 1, 1], [0, 1, 0], [0, 1, 1], [1, 0, 0]] 3 1 2 [0] 1 IntMem.empty with
    | .ok (r, M) => some (r.indep, live M, M.next) | .error _ => none) = some (true, 0, 5) := by decide +kernel

example : (match independenceResultMem (K := Rat) (fun r => r) (fun _ _ => some 0) (1 / 20) [2, 2, 2, 2]
    [[1, 1, 1], [0, 1, 0], [0, 1, 1], [1, 0, 0]] 3 0 1 [2, 3] 2 IntMem.empty with
    | .ok (r, M) => some (r.indep, live M, M.next) | .error _ => none) = some (true, 0, 16) := by decide +kernel

-- the hypotheses of `C114_leak`: one variable constant
example : Columns (fun _ => 2) 2 [[1, 1, 1], [0, 1, 0]] [fun v => if v = 0 then 1 else 0, fun _ => 1, fun v => if v = 0 then 1 else 0] ∧
    degrees (fun _ => 2) [fun v => if v = 0 then 1 else 0, fun _ => 1, fun v => if v = 0 then 1 else 0] 0 1 [] = 0 := by
  refine ⟨⟨?_, ?_⟩, by decide +kernel⟩
  · intro v hv
    rcases (show v = 0 ∨ v = 1 by omega) with rfl | rfl
    · refine ⟨_, rfl, ?_⟩
      intro j r hj
      rcases j with _ | _ | _ | j <;> simp at hj <;> subst hj <;> rfl
    · refine ⟨_, rfl, ?_⟩
      intro j r hj
      rcases j with _ | _ | _ | j <;> simp at hj <;> subst hj <;> rfl
  · intro r hr v hv
    simp only [List.mem_cons, List.not_mem_nil, or_false] at hr
    rcases hr with rfl | rfl | rfl <;> simp <;> split <;> omega

end FastPGM
