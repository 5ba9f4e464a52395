import Verif.Lemmas.Int32Test
import Verif.Lemmas.IndependenceTest2

/-!
Helper lemmas for `Verif.Model.Int32Test`: degrees of freedom and whole tests.
-/

namespace FastPGM

open Spec

variable {K : Type}

/-- Two loops over a range that agree in all states that satisfy an invariant. -/
theorem foldlM_range_agree {β : Type} {f g : β → Nat → Except Fault β} {I : Nat → β → Prop} {n : Nat} {b : β} (h0 : I 0 b)
    (h : ∀ i < n, ∀ s, I i s → f s i = g s i ∧ ∀ s', g s i = .ok s' → I (i + 1) s') :
    (List.range n).foldlM f b = (List.range n).foldlM g b ∧ ∀ s', (List.range n).foldlM g b = .ok s' → I n s' := by
  induction n with
  | zero => exact ⟨rfl, fun s' e => by cases e; exact h0⟩
  | succ n ih =>
    obtain ⟨h1, h2⟩ := ih (fun i hi => h i (by omega))
    rw [List.range_succ, List.foldlM_append, List.foldlM_append, h1]
    cases hg : (List.range n).foldlM g b with
    | error e => exact ⟨rfl, fun s' e => by cases e⟩
    | ok s =>
      obtain ⟨a1, a2⟩ := h n (by omega) s (h2 s hg)
      rw [ok_bind, ok_bind]
      refine ⟨?_, fun s' e => ?_⟩
      · rw [List.foldlM_cons, List.foldlM_cons, a1]; rfl
      · rw [List.foldlM_cons] at e
        obtain ⟨s1, e1, e⟩ := bind_eq_ok e
        cases e
        exact a2 _ e1

theorem positives32_eq (l : List Nat) {dim D off k : Nat} (hk : off + k < D) (h : D * dim ≤ intMax) :
    positives32 l dim off k = positives l (k * dim + off * dim) dim ∧
      ∀ c, positives l (k * dim + off * dim) dim = .ok c → c ≤ dim := by
  unfold positives32 positives
  refine foldlM_range_agree (I := fun i c => c ≤ i) (Nat.le_refl 0) (fun i hi c hc => ?_)
  have hd : dim ≤ D * dim := Nat.le_mul_of_pos_left _ (by omega)
  rw [margIndex32_ok hk hi h, ok_bind, show k * dim + i + off * dim = k * dim + off * dim + i by omega]
  cases rd l (k * dim + off * dim + i) with
  | error e => exact ⟨rfl, fun s' e => by cases e⟩
  | ok v =>
    rw [ok_bind, ok_bind, add32_ok (by split <;> omega)]
    refine ⟨rfl, fun s' e => ?_⟩
    cases e
    split <;> omega

theorem gSquareStratum32_eq [Field K] (log : K → K) (t : Counts) {dimx dimy D off k : Nat} {st : K × Nat} (hx : 0 < dimx) (hy : 0 < dimy)
    (hk : off + k < D) (h : D * dimx * dimy ≤ intMax) (hst : st.2 ≤ k * dimx * dimy) :
    gSquareStratum32 log t dimx dimy off st k = gSquareStratum log t dimx dimy off st k ∧
      ∀ st', gSquareStratum log t dimx dimy off st k = .ok st' → st'.2 ≤ (k + 1) * dimx * dimy := by
  have e1 : D * dimx ≤ D * dimx * dimy := Nat.le_mul_of_pos_right _ hy
  have e2 : D * dimy ≤ D * dimx * dimy := Nat.mul_le_mul_right _ (Nat.le_mul_of_pos_right _ hx)
  have e3 : D ≤ D * dimx := Nat.le_mul_of_pos_right _ hx
  obtain ⟨p1, p2⟩ := positives32_eq t.ni (dim := dimx) hk (by omega)
  obtain ⟨q1, q2⟩ := positives32_eq t.nj (dim := dimy) hk (by omega)
  have e4 : (k + 1) * dimx * dimy = k * dimx * dimy + dimx * dimy := by ring
  have e5 : (k + 1) * dimx * dimy ≤ D * dimx * dimy := Nat.mul_le_mul_right _ (Nat.mul_le_mul_right _ (by omega))
  unfold gSquareStratum32 gSquareStratum
  rw [p1, q1]
  cases hpx : positives t.ni (k * dimx + off * dimx) dimx with
  | error e => exact ⟨rfl, fun s' e => by cases e⟩
  | ok ax =>
    cases hpy : positives t.nj (k * dimy + off * dimy) dimy with
    | error e => exact ⟨rfl, fun s' e => by cases e⟩
    | ok ay =>
      have hax := p2 _ hpx
      have hay := q2 _ hpy
      simp only [ok_bind]
      generalize hA : (if ax ≥ 1 then ax else 1) - 1 = A
      generalize hB : (if ay ≥ 1 then ay else 1) - 1 = B
      have hA' : A ≤ dimx := by rw [← hA]; split <;> omega
      have hB' : B ≤ dimy := by rw [← hB]; split <;> omega
      have hAB : A * B ≤ dimx * dimy := Nat.mul_le_mul hA' hB'
      rw [mul32_ok (by omega), ok_bind, add32_ok (by omega), ok_bind, add32_ok (by omega), ok_bind]
      cases rd t.nk (k + off) with
      | error e => exact ⟨rfl, fun s' e => by cases e⟩
      | ok total =>
        rw [ok_bind, ok_bind]
        by_cases ht : total = 0
        · rw [if_pos ht, if_pos ht]
          refine ⟨rfl, fun s' e => ?_⟩
          cases e
          simp only
          omega
        · rw [if_neg ht, if_neg ht]
          have hloop : (List.range dimx).foldlM (fun g2 i => (do
              let a ← margIndex32 dimx off k i
              let row ← rd t.ni a
              if row = 0 then return g2
              else
                (List.range dimy).foldlM (fun g2 j => do
                  let a ← margIndex32 dimy off k j
                  let col ← rd t.nj a
                  let a ← cellIndexGroup32 dimx dimy off k i j
                  let observed ← rd t.n a
                  if col = 0 ∨ observed = 0 then return g2
                  else do
                    let expected : K := (col : K) * (row : K) / (total : K)
                    return g2 + 2 * (observed : K) * log ((observed : K) / expected)) g2 : Except Fault K)) st.1 =
            (List.range dimx).foldlM (fun g2 i => (do
              let row ← rd t.ni (k * dimx + i + off * dimx)
              if row = 0 then return g2
              else
                (List.range dimy).foldlM (fun g2 j => do
                  let col ← rd t.nj (k * dimy + j + off * dimy)
                  let observed ← rd t.n (k * dimx * dimy + i * dimy + j + off * dimx * dimy)
                  if col = 0 ∨ observed = 0 then return g2
                  else do
                    let expected : K := (col : K) * (row : K) / (total : K)
                    return g2 + 2 * (observed : K) * log ((observed : K) / expected)) g2 : Except Fault K)) st.1 := by
            refine foldlM_congr (fun g2 i hi => ?_)
            have hi := List.mem_range.1 hi
            rw [margIndex32_ok hk hi (by omega), ok_bind]
            congr 1
            funext row
            by_cases hr : row = 0
            · rw [if_pos hr, if_pos hr]
            · rw [if_neg hr, if_neg hr]
              refine foldlM_congr (fun g2 j hj => ?_)
              have hj := List.mem_range.1 hj
              rw [margIndex32_ok hk hj (by omega), ok_bind]
              congr 1
              funext col
              rw [cellIndexGroup32_ok hk hi hj h, ok_bind]
          rw [hloop]
          refine ⟨rfl, fun s' e => ?_⟩
          obtain ⟨g2, _, e⟩ := bind_eq_ok e
          cases e
          simp only
          omega

theorem strata32_eq [Field K] (log : K → K) (t : Counts) {dimx dimy D off n : Nat} (hx : 0 < dimx) (hy : 0 < dimy)
    (hn : off + n ≤ D) (h : D * dimx * dimy ≤ intMax) :
    (List.range n).foldlM (gSquareStratum32 log t dimx dimy off) ((0 : K), 0) =
      (List.range n).foldlM (gSquareStratum log t dimx dimy off) ((0 : K), 0) :=
  (foldlM_range_agree (I := fun k st => st.2 ≤ k * dimx * dimy) (by simp) (fun k hk st hst =>
    gSquareStratum32_eq log t hx hy (show off + k < D by omega) h hst)).1

variable [Field K] [LinearOrder K] (log : K → K) (pchisq : K → Nat → Option K) (alpha : K) {card : Nat → Nat} {dims : List Nat}
  {cols : List (List Nat)} {rows : List Assignment} {x y : Nat}

theorem gSquareXYZ32_eq {z : List Nat} (hz : z ≠ []) (hp : ∀ v ∈ z ++ [x, y], 0 < card v ∧ card v ≤ intMax)
    (h : ColsFor card cols rows (z ++ [x, y])) (hd : DimsFor card dims (z ++ [x, y])) :
    gSquareXYZ32 log pchisq alpha dims cols rows.length x y z =
      if (z.map card).prod * card x * card y ≤ intMax then gSquareXYZ log pchisq alpha dims cols rows.length x y z else .error .ub := by
  have hx := (hp x (by simp)).1
  have hy := (hp y (by simp)).1
  unfold gSquareXYZ32
  rw [rd_ok (hd x (by simp)), ok_bind, rd_ok (hd y (by simp)), ok_bind,
    mapM_ok (g := card) (fun v hv => rd_ok (hd v (by simp [hv]))), ok_bind, counts3D32_eq hz hp h]
  by_cases hm : (z.map card).prod * card x * card y ≤ intMax
  · rw [if_pos hm, if_pos hm]
    unfold gSquareXYZ
    rw [rd_ok (hd x (by simp)), ok_bind, rd_ok (hd y (by simp)), ok_bind,
      mapM_ok (g := card) (fun v hv => rd_ok (hd v (by simp [hv]))), ok_bind, counts3D_eq hz h, ok_bind, ok_bind]
    simp only
    rw [strata32_eq log _ hx hy (by omega) hm]
  · rw [if_neg hm, if_neg hm, ub_bind]

theorem gSquareXY32_eq (hx : 0 < card x) (hy : 0 < card y) (h : ColsFor card cols rows [x, y]) (hd : DimsFor card dims [x, y]) :
    gSquareXY32 log pchisq alpha dims cols rows.length x y =
      if card x * card y ≤ intMax then gSquareXY log pchisq alpha dims cols rows.length x y else .error .ub := by
  unfold gSquareXY32
  rw [rd_ok (hd x (by simp)), ok_bind, rd_ok (hd y (by simp)), ok_bind, counts2D32_eq h]
  by_cases hm : card x * card y ≤ intMax
  · rw [if_pos hm, if_pos hm]
    unfold gSquareXY
    rw [rd_ok (hd x (by simp)), ok_bind, rd_ok (hd y (by simp)), ok_bind]
    congr 1
    funext t
    rw [(gSquareStratum32_eq log { t with nk := [rows.length] } (D := 1) (off := 0) (k := 0) (st := ((0 : K), 0)) hx hy (by omega)
      (by rw [Nat.one_mul]; exact hm) (by simp)).1]
  · rw [if_neg hm, if_neg hm, ub_bind]

theorem gSquareXYZGroup32_eq {sets : List (List Nat)} {depth : Nat} (hne : sets ≠ []) (hdp : 0 < depth) (hu : Uniform sets depth)
    (hp : ∀ v ∈ sets.flatten ++ [x, y], 0 < card v) (h : ColsFor card cols rows (sets.flatten ++ [x, y]))
    (hd : DimsFor card dims (sets.flatten ++ [x, y])) :
    gSquareXYZGroup32 log pchisq alpha dims cols rows.length x y sets.flatten sets.length =
      if (groupDims card sets).sum * card x * card y ≤ intMax then
        gSquareXYZGroup log pchisq alpha dims cols rows.length x y sets.flatten sets.length
      else .error .ub := by
  have hx := hp x (by simp)
  have hy := hp y (by simp)
  have hdims : ∀ v ∈ sets.flatten, rd dims v = .ok (card v) := fun v hv => rd_ok (hd v (List.mem_append_left _ hv))
  unfold gSquareXYZGroup32
  rw [rd_ok (hd x (by simp)), ok_bind, rd_ok (hd y (by simp)), ok_bind, mapM_ok (g := card) hdims, ok_bind,
    counts3DGroup32_eq hne hdp hu hp h]
  by_cases hm : (groupDims card sets).sum * card x * card y ≤ intMax
  · rw [if_pos hm, if_pos hm]
    unfold gSquareXYZGroup
    rw [rd_ok (hd x (by simp)), ok_bind, rd_ok (hd y (by simp)), ok_bind, mapM_ok (g := card) hdims, ok_bind,
      counts3DGroup_eq hne hdp hu h, ok_bind, ok_bind]
    simp only
    congr 1
    refine foldlM_congr (fun results e he => ?_)
    have he := List.mem_range.1 he
    have hse : sets[e]? = some sets[e] := List.getElem?_eq_getElem he
    rw [rd_ok (a := (sets[e].map card).prod) (by simp [groupDims, hse]), ok_bind, ok_bind, rd_tab he, ok_bind, ok_bind]
    have := groupOff_mono (card := card) (sets := sets) (show e + 1 ≤ sets.length by omega)
    rw [groupOff_all, groupOff_succ hse] at this
    rw [strata32_eq log _ hx hy this hm]
  · rw [if_neg hm, if_neg hm, ub_bind]

end FastPGM
