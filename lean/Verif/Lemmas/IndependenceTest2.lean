import Verif.Lemmas.IndependenceTest

/-!
Helper lemmas for `Verif.Model.IndependenceTest`: the tests in closed form, and symmetry.
-/

namespace FastPGM

open Spec

variable {K : Type}

theorem sumOut_perm [AddCommMonoid K] {card : Nat → Nat} {vs ws : List Nat} (h : vs.Perm ws) (hn : vs.Nodup) (f : Assignment → K)
    (a : Assignment) : sumOut card vs f a = sumOut card ws f a := by
  induction h generalizing a with
  | nil => rfl
  | cons v _ ih =>
    simp only [sumOut]
    exact Finset.sum_congr rfl (fun x _ => ih (List.nodup_cons.1 hn).2 _)
  | swap v w l =>
    simp only [sumOut]
    rw [Finset.sum_comm]
    apply Finset.sum_congr rfl
    intro x _
    apply Finset.sum_congr rfl
    intro y _
    rw [set_set_comm]
    rintro rfl
    simp at hn
  | trans h1 _ ih1 ih2 => rw [ih1 hn, ih2 (h1.nodup_iff.1 hn)]

theorem countSame_perm {rows : List Assignment} {vs ws : List Nat} (h : vs.Perm ws) (a : Assignment) :
    countSame rows vs a = countSame rows ws a := by
  unfold countSame
  apply List.countP_congr
  intro r _
  rw [List.all_eq_true, List.all_eq_true]
  constructor
  · intro h' v hv; exact h' v (h.mem_iff.2 hv)
  · intro h' v hv; exact h' v (h.mem_iff.1 hv)

theorem gTerm_comm [Field K] (log : K → K) (n r c t : Nat) : gTerm log n r c t = gTerm log n c r t := by
  unfold gTerm
  rw [mul_comm (c : K)]

theorem gSquare_symm [Field K] (log : K → K) {card : Nat → Nat} {rows : List Assignment} {x y : Nat} {z z' : List Nat}
    (hn : (z ++ [x, y]).Nodup) (h : z.Perm z') : gSquare log card rows x y z = gSquare log card rows y x z' := by
  have hp : (z ++ [x, y]).Perm (z' ++ [y, x]) := h.append (List.Perm.swap y x [])
  unfold gSquare
  rw [sumOut_perm hp hn]
  congr 1
  funext a
  rw [countSame_perm hp, countSame_perm (h.append_right [x]), countSame_perm (h.append_right [y]), countSame_perm h, gTerm_comm]

theorem degrees_symm {card : Nat → Nat} {rows : List Assignment} {x y : Nat} {z z' : List Nat}
    (hn : (z ++ [x, y]).Nodup) (h : z.Perm z') : degrees card rows x y z = degrees card rows y x z' := by
  unfold degrees
  rw [sumOut_perm h (List.nodup_append.1 hn).1]
  congr 1
  funext a
  unfold observedValues
  rw [mul_comm]
  congr 3 <;>
  · apply Finset.filter_congr
    intro w _
    rw [countSame_perm (h.append_right _)]

/-- The dimensions of the variables `vs`. -/
def DimsFor (card : Nat → Nat) (dims : List Nat) (vs : List Nat) : Prop := ∀ v ∈ vs, dims[v]? = some (card v)

/-- The result of a single test with statistic `g2` and `df` degrees of freedom. -/
def singleResult [Field K] [LinearOrder K] (pchisq : K → Nat → Option K) (alpha : K) (first : Option Nat) (g2 : K) (df : Nat) : CIResult K :=
  if df = 0 then ⟨some 1, true, first⟩ else ⟨pValue pchisq g2 df, exceeds (pValue pchisq g2 df) alpha, first⟩

section

variable [Field K] [LinearOrder K] (log : K → K) (pchisq : K → Nat → Option K) (alpha : K)
  {card : Nat → Nat} {dims : List Nat} {cols : List (List Nat)} {rows : List Assignment} {x y : Nat}

theorem gSquareXYZ_eq {z : List Nat} (hz : z ≠ []) (hn : (z ++ [x, y]).Nodup) (h : ColsFor card cols rows (z ++ [x, y]))
    (hd : DimsFor card dims (z ++ [x, y])) :
    gSquareXYZ log pchisq alpha dims cols rows.length x y z =
      .ok (singleResult pchisq alpha (some 0) (gSquare log card rows x y z) (degrees card rows x y z)) := by
  unfold gSquareXYZ
  rw [rd_ok (hd x (by simp)), ok_bind, rd_ok (hd y (by simp)), ok_bind,
    mapM_ok (g := card) (fun v hv => rd_ok (hd v (by simp [hv]))), ok_bind, counts3D_eq hz h, ok_bind]
  simp only
  rw [strata_single log hn h.lt (fun k hk => margTables_stratum (fun r hr => h.lt r hr x (by simp)) (fun r hr => h.lt r hr y (by simp)) hk), ok_bind]
  simp only [singleResult]
  by_cases hdf : degrees card rows x y z = 0
  · rw [if_pos hdf, if_pos hdf]; rfl
  · rw [if_neg hdf, if_neg hdf]; rfl

theorem gSquareXY_eq (hn : [x, y].Nodup) (h : ColsFor card cols rows [x, y]) (hd : DimsFor card dims [x, y]) :
    gSquareXY log pchisq alpha dims cols rows.length x y =
      .ok (singleResult pchisq alpha none (gSquare log card rows x y []) (degrees card rows x y [])) := by
  unfold gSquareXY
  rw [rd_ok (hd x (by simp)), ok_bind, rd_ok (hd y (by simp)), ok_bind, counts2D_eq h, ok_bind]
  have hst := strata_single (K := K) log (z := []) hn h.lt (off := 0)
    (t := { margTables rows (fun r => r x) (fun r => r y) (fun _ => 0) (card x) (card y) 1 with nk := [rows.length] }) ?_
  · rw [show (([] : List Nat).map card).prod = 1 from rfl, show List.range 1 = [0] from rfl, List.foldlM_cons] at hst
    have hst' : gSquareStratum log { margTables rows (fun r => r x) (fun r => r y) (fun _ => 0) (card x) (card y) 1 with nk := [rows.length] }
        (card x) (card y) 0 ((0 : K), 0) 0 = .ok (gSquare log card rows x y [], degrees card rows x y []) := by
      rw [← hst]
      cases gSquareStratum log { margTables rows (fun r => r x) (fun r => r y) (fun _ => 0) (card x) (card y) 1 with nk := [rows.length] }
        (card x) (card y) 0 ((0 : K), 0) 0 <;> rfl
    simp only at hst' ⊢
    rw [hst', ok_bind]
    simp only [singleResult]
    by_cases hdf : degrees card rows x y [] = 0
    · rw [if_pos hdf, if_pos hdf]; rfl
    · rw [if_neg hdf, if_neg hdf]; rfl
  · intro k hk
    have hk0 : k = 0 := by simpa using hk
    subst hk0
    have := margTables_stratum (is := rows) (X := fun r => r x) (Y := fun r => r y) (Z := fun _ => 0) (D := 1) (dx := card x) (dy := card y)
      (fun r hr => h.lt r hr x (by simp)) (fun r hr => h.lt r hr y (by simp)) (k := 0) (off := 0) (by simp)
    have hz : ∀ r : Assignment, zOf card [] r = 0 := fun r => rfl
    simp only [hz] at this ⊢
    exact ⟨this.n, this.ni, this.nj, by simp [rd], this.row, this.col, this.total⟩

/-- Loop rule: the loop fails at round `m`. -/
theorem foldlM_range_error {ε β : Type} {f : β → Nat → Except ε β} (s : Nat → β) {m n : Nat} {e : ε} (hm : m < n)
    (step : ∀ i < m, f (s i) i = .ok (s (i + 1))) (he : f (s m) m = .error e) :
    (List.range n).foldlM f (s 0) = .error e := by
  obtain ⟨d, rfl⟩ : ∃ d, n = m + 1 + d := ⟨n - (m + 1), by omega⟩
  rw [List.range_add, List.foldlM_append, List.range_succ, List.foldlM_append, foldlM_range_eq s step]
  show ((List.foldlM f (s m) [m]) >>= _) = _
  rw [List.foldlM_cons, he]
  rfl

/-- What the group test writes for one set. -/
def groupVerdict (card : Nat → Nat) (rows : List Assignment) (x y : Nat) (s : List Nat) : Bool :=
  exceeds (pValue pchisq (gSquare log card rows x y s) (degrees card rows x y s)) alpha

theorem group_step {sets : List (List Nat)} (hn : ∀ s ∈ sets, (s ++ [x, y]).Nodup)
    (h : ColsFor card cols rows (sets.flatten ++ [x, y])) (g : Nat → Bool) {e : Nat} (he : e < sets.length) :
    (do
      let d ← rd (groupDims card sets) e
      let o ← rd (tab sets.length (groupOff card sets)) e
      let (g2, df) ← (List.range d).foldlM (gSquareStratum log (margTables (groupItems rows sets.length) (fun p => p.1 x) (fun p => p.1 y)
        (groupZ card sets) (card x) (card y) (groupDims card sets).sum) (card x) (card y) o) ((0 : K), 0)
      let results ← (if df = 0 then wr (tab 8 g) e true else .ok (tab 8 g))
      wr results e (exceeds (pValue pchisq g2 df) alpha)) =
    if e < 8 then .ok (tab 8 (fun i => if i = e then groupVerdict log pchisq alpha card rows x y (sets.getD e []) else g i)) else .error .ub := by
  have hse : sets[e]? = some sets[e] := List.getElem?_eq_getElem he
  have hmem : sets[e] ∈ sets := List.getElem_mem _
  have hsub : ∀ v ∈ sets[e], v ∈ sets.flatten := fun v hv => List.mem_flatten.2 ⟨_, hmem, hv⟩
  rw [rd_ok (a := (sets[e].map card).prod) (by simp [groupDims, hse]), ok_bind, rd_tab he, ok_bind]
  rw [strata_single log (hn _ hmem) (rows := rows)]
  · rw [ok_bind]
    simp only
    have hg : groupVerdict log pchisq alpha card rows x y (sets.getD e []) =
        exceeds (pValue pchisq (gSquare log card rows x y sets[e]) (degrees card rows x y sets[e])) alpha := by
      simp [groupVerdict, he]
    rw [hg]
    by_cases h8 : e < 8
    · rw [if_pos h8]
      by_cases hdf : degrees card rows x y sets[e] = 0
      · rw [if_pos hdf, wr_tab h8, ok_bind, wr_tab h8]
        congr 1
        apply tab_congr
        intro i _
        by_cases ei : i = e <;> simp [ei]
      · rw [if_neg hdf, ok_bind, wr_tab h8]
    · rw [if_neg h8]
      have : wr (tab 8 g) e true = .error .ub := by
        unfold wr
        rw [if_neg (by simpa using h8)]
      have h2 : ∀ b, wr (tab 8 g) e b = .error .ub := by
        intro b
        unfold wr
        rw [if_neg (by simpa using h8)]
      by_cases hdf : degrees card rows x y sets[e] = 0
      · rw [if_pos hdf, this]; rfl
      · rw [if_neg hdf, ok_bind, h2]
  · intro r hr v hv
    apply h.lt r hr v
    simp only [List.mem_append] at hv ⊢
    exact hv.imp (hsub v) id
  · intro k hk
    have hX : ∀ p ∈ groupItems rows sets.length, p.1 x < card x := fun p hp => h.lt p.1 (mem_groupItems.1 hp).1 x (by simp)
    have hY : ∀ p ∈ groupItems rows sets.length, p.1 y < card y := fun p hp => h.lt p.1 (mem_groupItems.1 hp).1 y (by simp)
    have hoff : k + groupOff card sets e < (groupDims card sets).sum := by
      have h1 := groupOff_succ (card := card) hse
      have h2 := groupOff_mono (card := card) (sets := sets) (show e + 1 ≤ sets.length from he)
      rw [groupOff_all] at h2
      omega
    have hr : ∀ r ∈ rows, InRange card sets.flatten r := fun r hr v hv => h.lt r hr v (by simp only [List.mem_append]; exact Or.inl hv)
    have key := margTables_stratum hX hY (Z := groupZ card sets) hoff
    have e1 : ∀ i j, (groupItems rows sets.length).countP (fun p => groupZ card sets p = k + groupOff card sets e ∧ (p.1 x = i ∧ p.1 y = j)) =
        rows.countP (fun r => zOf card sets[e] r = k ∧ (r x = i ∧ r y = j)) := by
      intro i j
      have := groupItems_count hse hk hr (fun r => decide (r x = i ∧ r y = j))
      simpa using this
    have e2 : ∀ i, (groupItems rows sets.length).countP (fun p => groupZ card sets p = k + groupOff card sets e ∧ p.1 x = i) =
        rows.countP (fun r => zOf card sets[e] r = k ∧ r x = i) := by
      intro i
      have := groupItems_count hse hk hr (fun r => decide (r x = i))
      simpa using this
    have e3 : ∀ i, (groupItems rows sets.length).countP (fun p => groupZ card sets p = k + groupOff card sets e ∧ p.1 y = i) =
        rows.countP (fun r => zOf card sets[e] r = k ∧ r y = i) := by
      intro i
      have := groupItems_count hse hk hr (fun r => decide (r y = i))
      simpa using this
    have e4 : (groupItems rows sets.length).countP (fun p => groupZ card sets p = k + groupOff card sets e) =
        rows.countP (fun r => zOf card sets[e] r = k) := by
      have := groupItems_count hse hk hr (fun _ => true)
      simpa using this
    rw [e4] at key
    simp only [e1, e2, e3] at key
    exact key

/-- Which set the group test reports. -/
def firstVerdict (verdict : List Nat → Bool) (sets : List (List Nat)) : CIResult K :=
  match (List.range sets.length).find? (fun e => verdict (sets.getD e [])) with
  | some e => ⟨some (-1), true, some e⟩
  | none => ⟨some 0, false, none⟩

theorem gSquareXYZGroup_eq {sets : List (List Nat)} {depth : Nat} (hne : sets ≠ []) (hdp : 0 < depth) (hu : Uniform sets depth)
    (hn : ∀ s ∈ sets, (s ++ [x, y]).Nodup) (h : ColsFor card cols rows (sets.flatten ++ [x, y]))
    (hd : DimsFor card dims (sets.flatten ++ [x, y])) :
    gSquareXYZGroup log pchisq alpha dims cols rows.length x y sets.flatten sets.length =
      if sets.length ≤ 8 then .ok (firstVerdict (groupVerdict log pchisq alpha card rows x y) sets) else .error .ub := by
  unfold gSquareXYZGroup
  rw [rd_ok (hd x (by simp)), ok_bind, rd_ok (hd y (by simp)), ok_bind,
    mapM_ok (g := card) (fun v hv => rd_ok (hd v (by simp only [List.mem_append]; exact Or.inl hv))), ok_bind,
    counts3DGroup_eq hne hdp hu h, ok_bind]
  simp only
  by_cases h8 : sets.length ≤ 8
  · rw [if_pos h8]
    have key := foldlM_range_eq (n := sets.length)
      (s := fun i => tab 8 (fun e => if e < i then groupVerdict log pchisq alpha card rows x y (sets.getD e []) else false))
      (f := fun (results : List Bool) e => do
        let d ← rd (groupDims card sets) e
        let o ← rd (tab sets.length (groupOff card sets)) e
        let (g2, df) ← (List.range d).foldlM (gSquareStratum log (margTables (groupItems rows sets.length) (fun p => p.1 x) (fun p => p.1 y)
          (groupZ card sets) (card x) (card y) (groupDims card sets).sum) (card x) (card y) o) ((0 : K), 0)
        let results ← (if df = 0 then wr results e true else .ok results)
        wr results e (exceeds (pValue pchisq g2 df) alpha)) ?_
    · rw [show List.replicate 8 false = tab 8 (fun e => if e < 0 then groupVerdict log pchisq alpha card rows x y (sets.getD e []) else false) by
        rw [replicate_eq_tab]; simp]
      refine (congrArg (· >>= _) key).trans ?_
      rw [ok_bind]
      have hfind : (List.range sets.length).find? (fun e => (tab 8 (fun e => if e < sets.length then
          groupVerdict log pchisq alpha card rows x y (sets.getD e []) else false)).getD e false) =
          (List.range sets.length).find? (fun e => groupVerdict log pchisq alpha card rows x y (sets.getD e [])) := by
        have gen : ∀ l : List Nat, (∀ e ∈ l, e < sets.length) → l.find? (fun e => (tab 8 (fun e => if e < sets.length then
          groupVerdict log pchisq alpha card rows x y (sets.getD e []) else false)).getD e false) =
          l.find? (fun e => groupVerdict log pchisq alpha card rows x y (sets.getD e [])) := by
          intro l
          induction l with
          | nil => intro _; rfl
          | cons a l ih =>
            intro hl
            have ha := hl a (by simp)
            rw [List.find?_cons, List.find?_cons, ih (fun e he => hl e (by simp [he])), getD_tab (by omega), if_pos ha]
        exact gen _ (fun e he => by simpa using he)
      simp only [hfind, firstVerdict]
      cases (List.range sets.length).find? (fun e => groupVerdict log pchisq alpha card rows x y (sets.getD e [])) <;> rfl
    · intro e he
      refine (group_step log pchisq alpha hn h _ he).trans ?_
      rw [if_pos (by omega)]
      congr 1
      apply tab_congr
      intro i _
      by_cases h1 : i = e
      · subst h1; simp
      · by_cases h2 : i < e
        · simp [h1, h2, show i < e + 1 by omega]
        · simp [h1, h2, show ¬ i < e + 1 by omega]
  · rw [if_neg h8]
    have key := foldlM_range_error (m := 8) (n := sets.length) (e := Fault.ub)
      (s := fun i => tab 8 (fun e => if e < i then groupVerdict log pchisq alpha card rows x y (sets.getD e []) else false))
      (f := fun (results : List Bool) e => do
        let d ← rd (groupDims card sets) e
        let o ← rd (tab sets.length (groupOff card sets)) e
        let (g2, df) ← (List.range d).foldlM (gSquareStratum log (margTables (groupItems rows sets.length) (fun p => p.1 x) (fun p => p.1 y)
          (groupZ card sets) (card x) (card y) (groupDims card sets).sum) (card x) (card y) o) ((0 : K), 0)
        let results ← (if df = 0 then wr results e true else .ok results)
        wr results e (exceeds (pValue pchisq g2 df) alpha)) (by omega) ?_ ?_
    · rw [show List.replicate 8 false = tab 8 (fun e => if e < 0 then groupVerdict log pchisq alpha card rows x y (sets.getD e []) else false) by
        rw [replicate_eq_tab]; simp]
      refine (congrArg (· >>= _) key).trans ?_
      rfl
    · intro e he
      refine (group_step log pchisq alpha hn h _ (by omega)).trans ?_
      rw [if_pos (by omega)]
      congr 1
      apply tab_congr
      intro i _
      by_cases h1 : i = e
      · subst h1; simp
      · by_cases h2 : i < e
        · simp [h1, h2, show i < e + 1 by omega]
        · simp [h1, h2, show ¬ i < e + 1 by omega]
    · refine (group_step log pchisq alpha hn h _ (by omega)).trans ?_
      rw [if_neg (by omega)]

end

end FastPGM
