import Verif.Spec.RoundedTest
import Verif.Lemmas.IndependenceTest2

/-!
What the independence tests compute in an arbitrary arithmetic: the terms of the cells are added one after the other.
-/

namespace FastPGM

open Spec

variable {K : Type}

theorem foldlM_range_pure {β : Type} {n : Nat} {f : β → Nat → Except Fault β} {h : β → Nat → β} (hf : ∀ b, ∀ j < n, f b j = .ok (h b j)) (b : β) :
    (List.range n).foldlM f b = .ok ((List.range n).foldl h b) := by
  have := foldlM_range_eq (f := f) (s := fun i => (List.range i).foldl h b) (n := n) ?_
  · simpa using this
  · intro i hi
    rw [hf _ i hi, List.range_succ, List.foldl_append]
    rfl

/-- A cell: its count, and the counts of its row, its column and its stratum. -/
abbrev TableCell := Nat × Nat × Nat × Nat

/-- The statistic after one more cell. -/
def DoubleOps.step (o : DoubleOps K) (g : K) (q : TableCell) : K := if q.1 = 0 then g else o.add g (o.term q.1 q.2.1 q.2.2.1 q.2.2.2)

/-- The cells of a stratum, in the order of the loops. -/
def stratumCells (dx dy : Nat) (N : Nat → Nat → Nat) (R C : Nat → Nat) (T : Nat) : List TableCell :=
  (List.range dx).flatMap (fun i => (List.range dy).map (fun j => (N i j, R i, C j, T)))

theorem stratumCells_foldl {β : Type} (f : β → TableCell → β) (dx dy : Nat) (N : Nat → Nat → Nat) (R C : Nat → Nat) (T : Nat) (g : β) :
    (stratumCells dx dy N R C T).foldl f g =
      (List.range dx).foldl (fun g i => (List.range dy).foldl (fun g j => f g (N i j, R i, C j, T)) g) g := by
  unfold stratumCells
  rw [List.foldl_flatMap]
  congr 1
  funext g i
  rw [List.foldl_map]

theorem step_zero (o : DoubleOps K) {l : List TableCell} (h : ∀ q ∈ l, q.1 = 0) (g : K) : l.foldl o.step g = g := by
  induction l with
  | nil => rfl
  | cons q l ih =>
    rw [List.foldl_cons, DoubleOps.step, if_pos (h q (by simp))]
    exact ih (fun q hq => h q (by simp [hq]))

theorem gSquareStratumR_eq (o : DoubleOps K) {t : Counts} {dx dy off k : Nat} {N : Nat → Nat → Nat} {R C : Nat → Nat} {T : Nat}
    (h : Stratum t dx dy off k N R C T) (st : K × Nat) :
    gSquareStratumR o t dx dy off st k =
      .ok ((stratumCells dx dy N R C T).foldl o.step st.1,
        st.2 + ((List.range dx).countP (fun i => 0 < R i) - 1) * ((List.range dy).countP (fun j => 0 < C j) - 1)) := by
  unfold gSquareStratumR
  rw [positives_eq (g := R), ok_bind, positives_eq (g := C), ok_bind]
  · simp only [max_one_sub]
    rw [h.nk, ok_bind]
    by_cases hT : T = 0
    · rw [if_pos hT, step_zero]
      · rfl
      · intro q hq
        simp only [stratumCells, List.mem_flatMap, List.mem_map, List.mem_range] at hq
        obtain ⟨i, hi, j, hj, rfl⟩ := hq
        exact h.total i hi j hj hT
    · rw [if_neg hT, stratumCells_foldl, foldlM_range_pure (h := fun g i => (List.range dy).foldl (fun g j => o.step g (N i j, R i, C j, T)) g)]
      · rfl
      · intro g2 i hi
        rw [h.ni i hi, ok_bind]
        by_cases hR : R i = 0
        · rw [if_pos hR]
          show Except.ok _ = Except.ok _
          congr 1
          have := step_zero o (l := (List.range dy).map (fun j => (N i j, R i, C j, T))) (by
            intro q hq
            simp only [List.mem_map, List.mem_range] at hq
            obtain ⟨j, hj, rfl⟩ := hq
            exact h.row i hi j hj hR) g2
          rw [List.foldl_map] at this
          exact this.symm
        · rw [if_neg hR, foldlM_range_pure (h := fun g j => o.step g (N i j, R i, C j, T))]
          intro g2 j hj
          rw [h.nj j hj, ok_bind, h.n i hi j hj, ok_bind]
          by_cases hN : N i j = 0
          · rw [if_pos (Or.inr hN), DoubleOps.step, if_pos hN]; rfl
          · rw [if_neg (by
              rintro (e | e)
              · exact hN (h.col i hi j hj e)
              · exact hN e), DoubleOps.step, if_neg hN]
            rfl
  · intro j hj
    rw [← h.nj j hj]; congr 1; omega
  · intro i hi
    rw [← h.ni i hi]; congr 1; omega

/-- The cells of the contingency table of a data set, in the order of the loops. -/
def tableCells (card : Nat → Nat) (rows : List Assignment) (x y : Nat) (z : List Nat) : List TableCell :=
  (List.range (z.map card).prod).flatMap (fun k => stratumCells (card x) (card y)
    (fun i j => rows.countP (fun r => zOf card z r = k ∧ (r x = i ∧ r y = j)))
    (fun i => rows.countP (fun r => zOf card z r = k ∧ r x = i))
    (fun j => rows.countP (fun r => zOf card z r = k ∧ r y = j))
    (rows.countP (fun r => zOf card z r = k)))

/-- The statistic that the code computes. -/
def gSquareR (o : DoubleOps K) (card : Nat → Nat) (rows : List Assignment) (x y : Nat) (z : List Nat) : K :=
  (tableCells card rows x y z).foldl o.step o.zero

theorem pair_foldlM_pure {n : Nat} {f : K × Nat → Nat → Except Fault (K × Nat)} {g : K → Nat → K} {d : Nat → Nat} {st : K × Nat}
    (hf : ∀ st, ∀ k < n, f st k = .ok (g st.1 k, st.2 + d k)) :
    (List.range n).foldlM f st = .ok ((List.range n).foldl g st.1, st.2 + ∑ k ∈ Finset.range n, d k) := by
  have := foldlM_range_eq (f := f) (s := fun i => ((List.range i).foldl g st.1, st.2 + ∑ k ∈ Finset.range i, d k)) (n := n) ?_
  · simpa using this
  · intro i hi
    rw [hf _ i hi, Finset.sum_range_succ, add_assoc, List.range_succ, List.foldl_append]
    rfl

/-- The loop over the strata of the table of one conditioning set. -/
theorem strata_singleR (o : DoubleOps K) {card : Nat → Nat} {rows : List Assignment} {x y : Nat} {z : List Nat}
    (hn : (z ++ [x, y]).Nodup) (hr : ∀ r ∈ rows, InRange card (z ++ [x, y]) r) {t : Counts} {off : Nat}
    (ht : ∀ k < (z.map card).prod, Stratum t (card x) (card y) off k
      (fun i j => rows.countP (fun r => zOf card z r = k ∧ (r x = i ∧ r y = j)))
      (fun i => rows.countP (fun r => zOf card z r = k ∧ r x = i))
      (fun j => rows.countP (fun r => zOf card z r = k ∧ r y = j))
      (rows.countP (fun r => zOf card z r = k))) :
    (List.range (z.map card).prod).foldlM (gSquareStratumR o t (card x) (card y) off) (o.zero, 0) =
      .ok (gSquareR o card rows x y z, degrees card rows x y z) := by
  have hn' : ((z ++ [x]) ++ [y]).Nodup := by simpa using hn
  have hy : y ∉ z ++ [x] := fun h => (List.nodup_append.1 hn').2.2 y h y (by simp) rfl
  have hzx : (z ++ [x]).Nodup := (List.nodup_append.1 hn').1
  have hx : x ∉ z := fun h => (List.nodup_append.1 hzx).2.2 x h x (by simp) rfl
  have hyz : y ∉ z := fun h => hy (by simp [h])
  have hz : z.Nodup := (List.nodup_append.1 hzx).1
  have hrz : ∀ r ∈ rows, InRange card z r := fun r hr' v hv => hr r hr' v (by simp [hv])
  rw [pair_foldlM_pure (g := fun g k => (stratumCells (card x) (card y)
    (fun i j => rows.countP (fun r => zOf card z r = k ∧ (r x = i ∧ r y = j)))
    (fun i => rows.countP (fun r => zOf card z r = k ∧ r x = i))
    (fun j => rows.countP (fun r => zOf card z r = k ∧ r y = j))
    (rows.countP (fun r => zOf card z r = k))).foldl o.step g) (fun st k hk => gSquareStratumR_eq o (ht k hk) st)]
  simp only [zero_add]
  rw [← degrees_sum hn, gSquareR, tableCells, List.foldl_flatMap]
  congr 2
  apply Finset.sum_congr rfl
  intro k hk
  have hk' : k < (z.map card).prod := by simpa using hk
  simp only [count_zv hx hz hrz hk', count_zv hyz hz hrz hk']

/-- The result of a single test with statistic `g2` and `df` degrees of freedom. -/
def singleResultR [LinearOrder K] (o : DoubleOps K) (alpha : K) (first : Option Nat) (g2 : K) (df : Nat) : Bool × Option Nat :=
  if df = 0 then (true, first) else (exceeds (pValueR o g2 df) alpha, first)

section

variable [LinearOrder K] (o : DoubleOps K) (alpha : K)
  {card : Nat → Nat} {dims : List Nat} {cols : List (List Nat)} {rows : List Assignment} {x y : Nat}

theorem gSquareXYZR_eq {z : List Nat} (hz : z ≠ []) (hn : (z ++ [x, y]).Nodup) (h : ColsFor card cols rows (z ++ [x, y]))
    (hd : DimsFor card dims (z ++ [x, y])) :
    gSquareXYZR o alpha dims cols rows.length x y z =
      .ok (singleResultR o alpha (some 0) (gSquareR o card rows x y z) (degrees card rows x y z)) := by
  unfold gSquareXYZR
  rw [rd_ok (hd x (by simp)), ok_bind, rd_ok (hd y (by simp)), ok_bind,
    mapM_ok (g := card) (fun v hv => rd_ok (hd v (by simp [hv]))), ok_bind, counts3D_eq hz h, ok_bind]
  simp only
  rw [strata_singleR o hn h.lt (fun k hk => margTables_stratum (fun r hr => h.lt r hr x (by simp)) (fun r hr => h.lt r hr y (by simp)) hk), ok_bind]
  simp only [singleResultR]
  by_cases hdf : degrees card rows x y z = 0
  · rw [if_pos hdf, if_pos hdf]; rfl
  · rw [if_neg hdf, if_neg hdf]; rfl

theorem gSquareXYR_eq (hn : [x, y].Nodup) (h : ColsFor card cols rows [x, y]) (hd : DimsFor card dims [x, y]) :
    gSquareXYR o alpha dims cols rows.length x y =
      .ok (singleResultR o alpha none (gSquareR o card rows x y []) (degrees card rows x y [])) := by
  unfold gSquareXYR
  rw [rd_ok (hd x (by simp)), ok_bind, rd_ok (hd y (by simp)), ok_bind, counts2D_eq h, ok_bind]
  have hst := strata_singleR o (z := []) hn h.lt (off := 0)
    (t := { margTables rows (fun r => r x) (fun r => r y) (fun _ => 0) (card x) (card y) 1 with nk := [rows.length] }) ?_
  · rw [show (([] : List Nat).map card).prod = 1 from rfl, show List.range 1 = [0] from rfl, List.foldlM_cons] at hst
    have hst' : gSquareStratumR o { margTables rows (fun r => r x) (fun r => r y) (fun _ => 0) (card x) (card y) 1 with nk := [rows.length] }
        (card x) (card y) 0 (o.zero, 0) 0 = .ok (gSquareR o card rows x y [], degrees card rows x y []) := by
      rw [← hst]
      cases gSquareStratumR o { margTables rows (fun r => r x) (fun r => r y) (fun _ => 0) (card x) (card y) 1 with nk := [rows.length] }
        (card x) (card y) 0 (o.zero, 0) 0 <;> rfl
    simp only at hst' ⊢
    rw [hst', ok_bind]
    simp only [singleResultR]
    by_cases hdf : degrees card rows x y [] = 0
    · rw [if_pos hdf, if_pos hdf]; rfl
    · rw [if_neg hdf, if_neg hdf]; rfl
  · intro k hk
    have hk0 : k = 0 := by simpa using hk
    subst hk0
    have := margTables_stratum (is := rows) (X := fun r => r x) (Y := fun r => r y) (Z := fun _ => 0) (D := 1) (dx := card x) (dy := card y)
      (fun r hr => h.lt r hr x (by simp)) (fun r hr => h.lt r hr y (by simp)) (k := 0) (off := 0) (by simp)
    have hz : ∀ r : Assignment, zOf card [] r = 0 := fun r => rfl
    simp only [hz] at this ⊢
    exact ⟨this.n, this.ni, this.nj, by simp [rd], this.row, this.col, this.total⟩

/-- What the group test writes for one set. -/
def groupVerdictR (card : Nat → Nat) (rows : List Assignment) (x y : Nat) (s : List Nat) : Bool :=
  exceeds (pValueR o (gSquareR o card rows x y s) (degrees card rows x y s)) alpha

theorem group_stepR {sets : List (List Nat)} (hn : ∀ s ∈ sets, (s ++ [x, y]).Nodup)
    (h : ColsFor card cols rows (sets.flatten ++ [x, y])) (g : Nat → Bool) {e : Nat} (he : e < sets.length) :
    (do
      let d ← rd (groupDims card sets) e
      let f ← rd (tab sets.length (groupOff card sets)) e
      let (g2, df) ← (List.range d).foldlM (gSquareStratumR o (margTables (groupItems rows sets.length) (fun p => p.1 x) (fun p => p.1 y)
        (groupZ card sets) (card x) (card y) (groupDims card sets).sum) (card x) (card y) f) (o.zero, 0)
      let results ← (if df = 0 then wr (tab 8 g) e true else .ok (tab 8 g))
      wr results e (exceeds (pValueR o g2 df) alpha)) =
    if e < 8 then .ok (tab 8 (fun i => if i = e then groupVerdictR o alpha card rows x y (sets.getD e []) else g i)) else .error .ub := by
  have hse : sets[e]? = some sets[e] := List.getElem?_eq_getElem he
  have hmem : sets[e] ∈ sets := List.getElem_mem _
  have hsub : ∀ v ∈ sets[e], v ∈ sets.flatten := fun v hv => List.mem_flatten.2 ⟨_, hmem, hv⟩
  rw [rd_ok (a := (sets[e].map card).prod) (by simp [groupDims, hse]), ok_bind, rd_tab he, ok_bind]
  rw [strata_singleR o (hn _ hmem) (rows := rows)]
  · rw [ok_bind]
    simp only
    have hg : groupVerdictR o alpha card rows x y (sets.getD e []) =
        exceeds (pValueR o (gSquareR o card rows x y sets[e]) (degrees card rows x y sets[e])) alpha := by
      simp [groupVerdictR, he]
    rw [hg]
    by_cases h8 : e < 8
    · rw [if_pos h8]
      by_cases hdf : degrees card rows x y sets[e] = 0
      · rw [if_pos hdf, wr_tab h8, ok_bind, wr_tab h8]
        congr 1
        apply tab_congr
        intro i _
        by_cases ei : i = e <;> simp [ei]
      · rw [if_neg hdf, ok_bind, wr_tab h8]
    · rw [if_neg h8]
      have : wr (tab 8 g) e true = .error .ub := by
        unfold wr
        rw [if_neg (by simpa using h8)]
      have h2 : ∀ b, wr (tab 8 g) e b = .error .ub := by
        intro b
        unfold wr
        rw [if_neg (by simpa using h8)]
      by_cases hdf : degrees card rows x y sets[e] = 0
      · rw [if_pos hdf, this]; rfl
      · rw [if_neg hdf, ok_bind, h2]
  · intro r hr v hv
    apply h.lt r hr v
    simp only [List.mem_append] at hv ⊢
    exact hv.imp (hsub v) id
  · intro k hk
    have hX : ∀ p ∈ groupItems rows sets.length, p.1 x < card x := fun p hp => h.lt p.1 (mem_groupItems.1 hp).1 x (by simp)
    have hY : ∀ p ∈ groupItems rows sets.length, p.1 y < card y := fun p hp => h.lt p.1 (mem_groupItems.1 hp).1 y (by simp)
    have hoff : k + groupOff card sets e < (groupDims card sets).sum := by
      have h1 := groupOff_succ (card := card) hse
      have h2 := groupOff_mono (card := card) (sets := sets) (show e + 1 ≤ sets.length from he)
      rw [groupOff_all] at h2
      omega
    have hr : ∀ r ∈ rows, InRange card sets.flatten r := fun r hr v hv => h.lt r hr v (by simp only [List.mem_append]; exact Or.inl hv)
    have key := margTables_stratum hX hY (Z := groupZ card sets) hoff
    have e1 : ∀ i j, (groupItems rows sets.length).countP (fun p => groupZ card sets p = k + groupOff card sets e ∧ (p.1 x = i ∧ p.1 y = j)) =
        rows.countP (fun r => zOf card sets[e] r = k ∧ (r x = i ∧ r y = j)) := by
      intro i j
      have := groupItems_count hse hk hr (fun r => decide (r x = i ∧ r y = j))
      simpa using this
    have e2 : ∀ i, (groupItems rows sets.length).countP (fun p => groupZ card sets p = k + groupOff card sets e ∧ p.1 x = i) =
        rows.countP (fun r => zOf card sets[e] r = k ∧ r x = i) := by
      intro i
      have := groupItems_count hse hk hr (fun r => decide (r x = i))
      simpa using this
    have e3 : ∀ i, (groupItems rows sets.length).countP (fun p => groupZ card sets p = k + groupOff card sets e ∧ p.1 y = i) =
        rows.countP (fun r => zOf card sets[e] r = k ∧ r y = i) := by
      intro i
      have := groupItems_count hse hk hr (fun r => decide (r y = i))
      simpa using this
    have e4 : (groupItems rows sets.length).countP (fun p => groupZ card sets p = k + groupOff card sets e) =
        rows.countP (fun r => zOf card sets[e] r = k) := by
      have := groupItems_count hse hk hr (fun _ => true)
      simpa using this
    rw [e4] at key
    simp only [e1, e2, e3] at key
    exact key

/-- Which set the group test reports. -/
def firstVerdictR (verdict : List Nat → Bool) (sets : List (List Nat)) : Bool × Option Nat :=
  match (List.range sets.length).find? (fun e => verdict (sets.getD e [])) with
  | some e => (true, some e)
  | none => (false, none)

theorem gSquareXYZGroupR_eq {sets : List (List Nat)} {depth : Nat} (hne : sets ≠ []) (hdp : 0 < depth) (hu : Uniform sets depth)
    (hn : ∀ s ∈ sets, (s ++ [x, y]).Nodup) (h : ColsFor card cols rows (sets.flatten ++ [x, y]))
    (hd : DimsFor card dims (sets.flatten ++ [x, y])) :
    gSquareXYZGroupR o alpha dims cols rows.length x y sets.flatten sets.length =
      if sets.length ≤ 8 then .ok (firstVerdictR (groupVerdictR o alpha card rows x y) sets) else .error .ub := by
  unfold gSquareXYZGroupR
  rw [rd_ok (hd x (by simp)), ok_bind, rd_ok (hd y (by simp)), ok_bind,
    mapM_ok (g := card) (fun v hv => rd_ok (hd v (by simp only [List.mem_append]; exact Or.inl hv))), ok_bind,
    counts3DGroup_eq hne hdp hu h, ok_bind]
  simp only
  by_cases h8 : sets.length ≤ 8
  · rw [if_pos h8]
    have key := foldlM_range_eq (n := sets.length)
      (s := fun i => tab 8 (fun e => if e < i then groupVerdictR o alpha card rows x y (sets.getD e []) else false))
      (f := fun (results : List Bool) e => do
        let d ← rd (groupDims card sets) e
        let f ← rd (tab sets.length (groupOff card sets)) e
        let (g2, df) ← (List.range d).foldlM (gSquareStratumR o (margTables (groupItems rows sets.length) (fun p => p.1 x) (fun p => p.1 y)
          (groupZ card sets) (card x) (card y) (groupDims card sets).sum) (card x) (card y) f) (o.zero, 0)
        let results ← (if df = 0 then wr results e true else .ok results)
        wr results e (exceeds (pValueR o g2 df) alpha)) ?_
    · rw [show List.replicate 8 false = tab 8 (fun e => if e < 0 then groupVerdictR o alpha card rows x y (sets.getD e []) else false) by
        rw [replicate_eq_tab]; simp]
      refine (congrArg (· >>= _) key).trans ?_
      rw [ok_bind]
      have hfind : (List.range sets.length).find? (fun e => (tab 8 (fun e => if e < sets.length then
          groupVerdictR o alpha card rows x y (sets.getD e []) else false)).getD e false) =
          (List.range sets.length).find? (fun e => groupVerdictR o alpha card rows x y (sets.getD e [])) := by
        have gen : ∀ l : List Nat, (∀ e ∈ l, e < sets.length) → l.find? (fun e => (tab 8 (fun e => if e < sets.length then
          groupVerdictR o alpha card rows x y (sets.getD e []) else false)).getD e false) =
          l.find? (fun e => groupVerdictR o alpha card rows x y (sets.getD e [])) := by
          intro l
          induction l with
          | nil => intro _; rfl
          | cons a l ih =>
            intro hl
            have ha := hl a (by simp)
            rw [List.find?_cons, List.find?_cons, ih (fun e he => hl e (by simp [he])), getD_tab (by omega), if_pos ha]
        exact gen _ (fun e he => by simpa using he)
      simp only [hfind, firstVerdictR]
      cases (List.range sets.length).find? (fun e => groupVerdictR o alpha card rows x y (sets.getD e [])) <;> rfl
    · intro e he
      refine (group_stepR o alpha hn h _ he).trans ?_
      rw [if_pos (by omega)]
      congr 1
      apply tab_congr
      intro i _
      by_cases h1 : i = e
      · subst h1; simp
      · by_cases h2 : i < e
        · simp [h1, h2, show i < e + 1 by omega]
        · simp [h1, h2, show ¬ i < e + 1 by omega]
  · rw [if_neg h8]
    have key := foldlM_range_error (m := 8) (n := sets.length) (e := Fault.ub)
      (s := fun i => tab 8 (fun e => if e < i then groupVerdictR o alpha card rows x y (sets.getD e []) else false))
      (f := fun (results : List Bool) e => do
        let d ← rd (groupDims card sets) e
        let f ← rd (tab sets.length (groupOff card sets)) e
        let (g2, df) ← (List.range d).foldlM (gSquareStratumR o (margTables (groupItems rows sets.length) (fun p => p.1 x) (fun p => p.1 y)
          (groupZ card sets) (card x) (card y) (groupDims card sets).sum) (card x) (card y) f) (o.zero, 0)
        let results ← (if df = 0 then wr results e true else .ok results)
        wr results e (exceeds (pValueR o g2 df) alpha)) (by omega) ?_ ?_
    · rw [show List.replicate 8 false = tab 8 (fun e => if e < 0 then groupVerdictR o alpha card rows x y (sets.getD e []) else false) by
        rw [replicate_eq_tab]; simp]
      refine (congrArg (· >>= _) key).trans ?_
      rfl
    · intro e he
      refine (group_stepR o alpha hn h _ (by omega)).trans ?_
      rw [if_pos (by omega)]
      congr 1
      apply tab_congr
      intro i _
      by_cases h1 : i = e
      · subst h1; simp
      · by_cases h2 : i < e
        · simp [h1, h2, show i < e + 1 by omega]
        · simp [h1, h2, show ¬ i < e + 1 by omega]
    · refine (group_stepR o alpha hn h _ (by omega)).trans ?_
      rw [if_neg (by omega)]

end

end FastPGM
