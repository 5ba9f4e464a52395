import Verif.Lemmas.IndependenceTest2

/-!
Properties C25 (contingency tables), C26 (groups of tests) and C27 (symmetry of the test).
-/

namespace FastPGM

open Spec

variable {K : Type}

/-! ### C25 -/

theorem count_same {rows : List Assignment} {card : Nat → Nat} {z ws : List Nat} {a : Assignment} (hr : ∀ r ∈ rows, InRange card z r)
    (ha : InRange card z a) :
    rows.countP (fun r => zOf card z r = rank (z.map card) (z.map a) ∧ ws.map r = ws.map a) = countSame rows (z ++ ws) a := by
  rw [countSame_eq]
  apply List.countP_congr
  intro r hr'
  rw [decide_eq_true_iff, decide_eq_true_iff, List.map_append, List.map_append]
  constructor
  · rintro ⟨h1, h2⟩
    rw [rank_inj (cfgIn_map (hr r hr')) (cfgIn_map ha) h1, h2]
  · intro h
    have := List.append_inj h (by simp)
    exact ⟨by rw [zOf, this.1], this.2⟩

/-- C25.  For a non-empty list `z` of conditioning variables, the cell for the values an assignment gives to `x`, `y` and `z` is the number
of instances with these values, and the marginals are the numbers of instances that agree on `z` and `x`, on `z` and `y`, and on `z`.  The
configuration of `z` is numbered row by row. -/
theorem C25_counts {card : Nat → Nat} {numVars : Nat} {cols : List (List Nat)} {rows : List Assignment}
    (hc : Columns card numVars cols rows) {x y : Nat} {z : List Nat} (hz : z ≠ []) (hv : ∀ v ∈ z ++ [x, y], v < numVars) :
    ∃ t, counts3D cols rows.length (card x) (card y) x y (z.map card) z = .ok (t, (z.map card).prod) ∧
      t.n.length = (z.map card).prod * card x * card y ∧ t.ni.length = (z.map card).prod * card x ∧
      t.nj.length = (z.map card).prod * card y ∧ t.nk.length = (z.map card).prod ∧
      ∀ a, InRange card (z ++ [x, y]) a →
        t.n[rank (z.map card) (z.map a) * card x * card y + a x * card y + a y]? = some (countSame rows (z ++ [x, y]) a) ∧
        t.ni[rank (z.map card) (z.map a) * card x + a x]? = some (countSame rows (z ++ [x]) a) ∧
        t.nj[rank (z.map card) (z.map a) * card y + a y]? = some (countSame rows (z ++ [y]) a) ∧
        t.nk[rank (z.map card) (z.map a)]? = some (countSame rows z a) := by
  have h := Columns.for hc hv
  refine ⟨_, counts3D_eq hz h, by simp [margTables], by simp [margTables], by simp [margTables], by simp [margTables], ?_⟩
  intro a ha
  have haz : InRange card z a := fun v hv => ha v (by simp [hv])
  have hrz : ∀ r ∈ rows, InRange card z r := fun r hr v hv => h.lt r hr v (by simp [hv])
  have hs := margTables_stratum (is := rows) (X := fun r => r x) (Y := fun r => r y) (Z := zOf card z) (D := (z.map card).prod)
    (dx := card x) (dy := card y) (fun r hr => h.lt r hr x (by simp)) (fun r hr => h.lt r hr y (by simp))
    (k := rank (z.map card) (z.map a)) (off := 0) (zOf_lt haz)
  have h1 := hs.n (a x) (ha x (by simp)) (a y) (ha y (by simp))
  have h2 := hs.ni (a x) (ha x (by simp))
  have h3 := hs.nj (a y) (ha y (by simp))
  have h4 := hs.nk
  simp only [Nat.zero_mul, Nat.add_zero] at h1 h2 h3 h4
  rw [rd_eq_ok] at h1 h2 h3 h4
  refine ⟨h1.trans ?_, h2.trans ?_, h3.trans ?_, h4.trans ?_⟩
  · rw [← count_same hrz haz]; simp
  · rw [← count_same hrz haz]; simp
  · rw [← count_same hrz haz]; simp
  · have := count_same (ws := []) hrz haz
    simp only [List.append_nil] at this
    rw [← this]; simp

/-- C25, no conditioning variable. -/
theorem C25_counts2D {card : Nat → Nat} {numVars : Nat} {cols : List (List Nat)} {rows : List Assignment}
    (hc : Columns card numVars cols rows) {x y : Nat} (hx : x < numVars) (hy : y < numVars) :
    ∃ t, counts2D cols rows.length (card x) (card y) x y = .ok t ∧
      t.n.length = card x * card y ∧ t.ni.length = card x ∧ t.nj.length = card y ∧
      ∀ a, InRange card [x, y] a →
        t.n[a x * card y + a y]? = some (countSame rows [x, y] a) ∧
        t.ni[a x]? = some (countSame rows [x] a) ∧ t.nj[a y]? = some (countSame rows [y] a) := by
  have h := Columns.for hc (vs := [x, y]) (by
    intro v hv
    simp only [List.mem_cons, List.not_mem_nil, or_false] at hv
    rcases hv with rfl | rfl <;> assumption)
  refine ⟨_, counts2D_eq h, by simp [margTables], by simp [margTables], by simp [margTables], ?_⟩
  intro a ha
  have hs := margTables_stratum (is := rows) (X := fun r => r x) (Y := fun r => r y) (Z := fun _ => 0) (D := 1)
    (dx := card x) (dy := card y) (fun r hr => h.lt r hr x (by simp)) (fun r hr => h.lt r hr y (by simp))
    (k := 0) (off := 0) (by simp)
  have h1 := hs.n (a x) (ha x (by simp)) (a y) (ha y (by simp))
  have h2 := hs.ni (a x) (ha x (by simp))
  have h3 := hs.nj (a y) (ha y (by simp))
  simp only [Nat.zero_mul, Nat.add_zero, Nat.zero_add] at h1 h2 h3
  rw [rd_eq_ok] at h1 h2 h3
  refine ⟨h1.trans ?_, h2.trans ?_, h3.trans ?_⟩ <;> rw [countSame_eq] <;> simp

/-- C25, boundary: the table with conditioning variables must not be built for an empty list (its constructor reads `cond_dims[0]`). -/
theorem C25_empty_undefined (cols : List (List Nat)) (m dimx dimy x y : Nat) :
    counts3D cols m dimx dimy x y [] [] = .error .ub := rfl

-- two instances (0,1,1) and (0,1,0) of three binary variables
example : Columns (fun _ => 2) 3 [[0, 0], [1, 1], [1, 0]] [fun v => if v = 0 then 0 else 1, fun v => if v = 1 then 1 else 0] := by
  constructor
  · intro v hv
    obtain rfl | rfl | rfl : v = 0 ∨ v = 1 ∨ v = 2 := by omega
    · exact ⟨_, rfl, by rintro (_ | _ | j) r hr <;> simp at hr <;> subst hr <;> rfl⟩
    · exact ⟨_, rfl, by rintro (_ | _ | j) r hr <;> simp at hr <;> subst hr <;> rfl⟩
    · exact ⟨_, rfl, by rintro (_ | _ | j) r hr <;> simp at hr <;> subst hr <;> rfl⟩
  · intro r hr v hv
    simp only [List.mem_cons, List.not_mem_nil, or_false] at hr
    rcases hr with rfl | rfl <;> (show ite _ _ _ < 2; split <;> omega)

example : counts3D [[0, 0], [1, 1], [1, 0]] 2 2 2 0 1 [2] [2] =
    .ok (⟨[0, 1, 0, 0, 0, 1, 0, 0], [1, 0, 1, 0], [0, 1, 0, 1], [1, 1]⟩, 2) := by decide

/-! ### C26 -/

/-- C26.  Filling the tables of a group of conditioning sets of the same size `depth ≥ 1` in one pass gives, block by block, the tables that
filling each one alone gives. -/
theorem C26_tables {card : Nat → Nat} {numVars : Nat} {cols : List (List Nat)} {rows : List Assignment}
    (hc : Columns card numVars cols rows) {x y : Nat} {sets : List (List Nat)} {depth : Nat} (hne : sets ≠ []) (hdp : 0 < depth)
    (hu : ∀ s ∈ sets, s.length = depth) (hv : ∀ v ∈ sets.flatten ++ [x, y], v < numVars) :
    ∃ tg dimz off, counts3DGroup cols rows.length (card x) (card y) x y (sets.flatten.map card) sets.flatten sets.length = .ok (tg, dimz, off) ∧
      ∀ (m : Nat) s, sets[m]? = some s → ∃ t d o, counts3D cols rows.length (card x) (card y) x y (s.map card) s = .ok (t, d) ∧
        dimz[m]? = some d ∧ off[m]? = some o ∧
        ∀ k < d, (∀ i < card x, ∀ j < card y, ∃ c, t.n[k * card x * card y + i * card y + j]? = some c ∧
            tg.n[k * card x * card y + i * card y + j + o * card x * card y]? = some c) ∧
          (∀ i < card x, ∃ c, t.ni[k * card x + i]? = some c ∧ tg.ni[k * card x + i + o * card x]? = some c) ∧
          (∀ j < card y, ∃ c, t.nj[k * card y + j]? = some c ∧ tg.nj[k * card y + j + o * card y]? = some c) ∧
          ∃ c, t.nk[k]? = some c ∧ tg.nk[k + o]? = some c := by
  have h := Columns.for hc hv
  refine ⟨_, _, _, counts3DGroup_eq hne hdp hu h, ?_⟩
  intro m s hs
  have hms : s ∈ sets := List.mem_of_getElem? hs
  have hm : m < sets.length := (List.getElem?_eq_some_iff.1 hs).1
  have hsne : s ≠ [] := by
    rintro rfl
    have := hu [] hms
    simp at this; omega
  have hsub : ∀ v ∈ s ++ [x, y], v ∈ sets.flatten ++ [x, y] := by
    intro v hv
    simp only [List.mem_append] at hv ⊢
    exact hv.imp (fun hv => List.mem_flatten.2 ⟨s, hms, hv⟩) id
  have hs' := ColsFor.mono h hsub
  refine ⟨_, _, groupOff card sets m, counts3D_eq hsne hs', by simp [groupDims, hs], by rw [tab_get?, if_pos hm], ?_⟩
  intro k hk
  have st1 := margTables_stratum (is := rows) (X := fun r => r x) (Y := fun r => r y) (Z := zOf card s) (D := (s.map card).prod)
    (dx := card x) (dy := card y) (fun r hr => hs'.lt r hr x (by simp)) (fun r hr => hs'.lt r hr y (by simp)) (k := k) (off := 0) hk
  have hoff : k + groupOff card sets m < (groupDims card sets).sum := by
    have h1 := groupOff_succ (card := card) hs
    have h2 := groupOff_mono (card := card) (sets := sets) (show m + 1 ≤ sets.length from hm)
    rw [groupOff_all] at h2
    omega
  have st2 := margTables_stratum (is := groupItems rows sets.length) (X := fun p => p.1 x) (Y := fun p => p.1 y) (Z := groupZ card sets)
    (D := (groupDims card sets).sum) (dx := card x) (dy := card y)
    (fun p hp => h.lt p.1 (mem_groupItems.1 hp).1 x (by simp)) (fun p hp => h.lt p.1 (mem_groupItems.1 hp).1 y (by simp)) hoff
  have hr : ∀ r ∈ rows, InRange card sets.flatten r := fun r hr v hv => h.lt r hr v (by simp only [List.mem_append]; exact Or.inl hv)
  refine ⟨?_, ?_, ?_, ?_⟩
  · intro i hi j hj
    have h1 := st1.n i hi j hj
    have h2 := st2.n i hi j hj
    simp only [Nat.zero_mul, Nat.add_zero] at h1
    refine ⟨_, rd_eq_ok.1 h1, (rd_eq_ok.1 h2).trans ?_⟩
    have := groupItems_count hs hk hr (fun r => decide (r x = i ∧ r y = j))
    simpa using this
  · intro i hi
    have h1 := st1.ni i hi
    have h2 := st2.ni i hi
    simp only [Nat.zero_mul, Nat.add_zero] at h1
    refine ⟨_, rd_eq_ok.1 h1, (rd_eq_ok.1 h2).trans ?_⟩
    have := groupItems_count hs hk hr (fun r => decide (r x = i))
    simpa using this
  · intro j hj
    have h1 := st1.nj j hj
    have h2 := st2.nj j hj
    simp only [Nat.zero_mul, Nat.add_zero] at h1
    refine ⟨_, rd_eq_ok.1 h1, (rd_eq_ok.1 h2).trans ?_⟩
    have := groupItems_count hs hk hr (fun r => decide (r y = j))
    simpa using this
  · have h1 := st1.nk
    have h2 := st2.nk
    simp only [Nat.add_zero] at h1
    refine ⟨_, rd_eq_ok.1 h1, (rd_eq_ok.1 h2).trans ?_⟩
    have := groupItems_count hs hk hr (fun _ => true)
    simpa using this

section tests

variable [Field K] [LinearOrder K] (log : K → K) (pchisq : K → Nat → Option K) (alpha : K)
  {card : Nat → Nat} {numVars : Nat} {dims : List Nat} {cols : List (List Nat)} {rows : List Assignment} {x y : Nat}

theorem exceeds_iff {p : Option K} {alpha : K} : exceeds p alpha = true ↔ ∃ q, p = some q ∧ alpha < q := by
  cases p with
  | none => simp [exceeds]
  | some q => simp [exceeds]

theorem pValue_exceeds {g2 : K} {df : Nat} :
    exceeds (pValue pchisq g2 df) alpha = true ↔ ∃ q, pchisq g2 df = some q ∧ alpha < 1 - q := by
  rw [exceeds_iff]
  unfold pValue
  constructor
  · rintro ⟨q, h1, h2⟩
    obtain ⟨r, hr, rfl⟩ := Option.map_eq_some_iff.1 h1
    exact ⟨r, hr, h2⟩
  · rintro ⟨r, hr, h⟩
    exact ⟨1 - r, by rw [hr]; rfl, h⟩

theorem singleResult_indep {first : Option Nat} {z : List Nat} :
    (singleResult pchisq alpha first (gSquare log card rows x y z) (degrees card rows x y z)).indep = true ↔
      Independent log pchisq alpha card rows x y z := by
  unfold singleResult Independent
  split
  · rename_i h; simp [h]
  · rename_i h
    simp only [h, false_or]
    exact pValue_exceeds pchisq alpha

omit [LinearOrder K] in
theorem firstVerdict_spec {verdict : List Nat → Bool} {sets : List (List Nat)} :
    (∃ e s, sets[e]? = some s ∧ verdict s = true ∧ (∀ e' < e, ∀ s', sets[e']? = some s' → verdict s' = false) ∧
        firstVerdict (K := K) verdict sets = ⟨some (-1), true, some e⟩) ∨
      ((∀ s ∈ sets, verdict s = false) ∧ firstVerdict (K := K) verdict sets = ⟨some 0, false, none⟩) := by
  unfold firstVerdict
  cases hf : (List.range sets.length).find? (fun e => verdict (sets.getD e [])) with
  | none =>
    right
    refine ⟨?_, rfl⟩
    intro s hs
    obtain ⟨e, he, rfl⟩ := List.getElem_of_mem hs
    rw [List.find?_eq_none] at hf
    have := hf e (by simpa using he)
    simpa [he] using this
  | some e =>
    left
    rw [List.find?_eq_some_iff_getElem] at hf
    obtain ⟨h1, i, hi, h2, h3⟩ := hf
    have hi' : i < sets.length := by simpa using hi
    have hie : i = e := by simpa using h2
    subst hie
    refine ⟨i, sets[i], List.getElem?_eq_getElem hi', by simpa [hi'] using h1, ?_, rfl⟩
    intro e' he' s' hs'
    have := h3 e' he'
    simp only [List.getElem_range] at this
    simpa [hs'] using this

/-- C26.  What the group test reports, for up to 8 conditioning sets of the same size: the first set whose comparison `p > alpha` succeeds.
(The single test in addition declares a table without degrees of freedom independent.) -/
theorem C26_group (hc : Columns card numVars cols rows) (hdim : ∀ v < numVars, dims[v]? = some (card v))
    {sets : List (List Nat)} {depth : Nat} (hne : sets ≠ []) (hdp : 0 < depth) (hu : ∀ s ∈ sets, s.length = depth)
    (hv : ∀ v ∈ sets.flatten ++ [x, y], v < numVars) (hn : ∀ s ∈ sets, (s ++ [x, y]).Nodup) (h8 : sets.length ≤ 8) :
    (∃ e s, sets[e]? = some s ∧
        (∃ q, pchisq (gSquare log card rows x y s) (degrees card rows x y s) = some q ∧ alpha < 1 - q) ∧
        (∀ e' < e, ∀ s', sets[e']? = some s' →
          ¬ ∃ q, pchisq (gSquare log card rows x y s') (degrees card rows x y s') = some q ∧ alpha < 1 - q) ∧
        gSquareXYZGroup log pchisq alpha dims cols rows.length x y sets.flatten sets.length = .ok ⟨some (-1), true, some e⟩) ∨
      ((∀ s ∈ sets, ¬ ∃ q, pchisq (gSquare log card rows x y s) (degrees card rows x y s) = some q ∧ alpha < 1 - q) ∧
        gSquareXYZGroup log pchisq alpha dims cols rows.length x y sets.flatten sets.length = .ok ⟨some 0, false, none⟩) := by
  rw [gSquareXYZGroup_eq log pchisq alpha hne hdp hu hn (Columns.for hc hv) (fun v hv' => hdim v (hv v hv')), if_pos h8]
  have hiff : ∀ s, groupVerdict log pchisq alpha card rows x y s = true ↔
      ∃ q, pchisq (gSquare log card rows x y s) (degrees card rows x y s) = some q ∧ alpha < 1 - q := by
    intro s
    unfold groupVerdict
    exact pValue_exceeds pchisq alpha
  have hfalse : ∀ s, groupVerdict log pchisq alpha card rows x y s = false →
      ¬ ∃ q, pchisq (gSquare log card rows x y s) (degrees card rows x y s) = some q ∧ alpha < 1 - q := by
    intro s hs hq
    rw [(hiff s).2 hq] at hs
    cases hs
  rcases firstVerdict_spec (K := K) (verdict := groupVerdict log pchisq alpha card rows x y) (sets := sets) with ⟨e, s, h1, h2, h3, h4⟩ | ⟨h1, h2⟩
  · exact Or.inl ⟨e, s, h1, (hiff s).1 h2, fun e' he' s' hs' => hfalse s' (h3 e' he' s' hs'), by rw [h4]⟩
  · exact Or.inr ⟨fun s hs => hfalse s (h1 s hs), by rw [h2]⟩

/-- C26, as claimed, under the condition that a table without degrees of freedom passes the comparison too (which depends on what
`stats::pchisq` returns for 0 degrees of freedom): the group test reports the first conditioning set that the single test finds
independent.  Missing: the case where `1 - pchisq(g2, 0)` does not exceed `alpha` or is NaN; there the two disagree, see
`C26_degenerate_disagreement`. -/
theorem C26_group_partial (hc : Columns card numVars cols rows) (hdim : ∀ v < numVars, dims[v]? = some (card v))
    {sets : List (List Nat)} {depth : Nat} (hne : sets ≠ []) (hdp : 0 < depth) (hu : ∀ s ∈ sets, s.length = depth)
    (hv : ∀ v ∈ sets.flatten ++ [x, y], v < numVars) (hn : ∀ s ∈ sets, (s ++ [x, y]).Nodup) (h8 : sets.length ≤ 8)
    (hdf : ∀ s ∈ sets, degrees card rows x y s = 0 → ∃ q, pchisq (gSquare log card rows x y s) 0 = some q ∧ alpha < 1 - q) :
    ∃ verdict : List Nat → Bool,
      (∀ s ∈ sets, ∃ res, gSquareXYZ log pchisq alpha dims cols rows.length x y s = .ok res ∧ res.indep = verdict s) ∧
      ((∃ e s, sets[e]? = some s ∧ verdict s = true ∧ (∀ e' < e, ∀ s', sets[e']? = some s' → verdict s' = false) ∧
          gSquareXYZGroup log pchisq alpha dims cols rows.length x y sets.flatten sets.length = .ok ⟨some (-1), true, some e⟩) ∨
        ((∀ s ∈ sets, verdict s = false) ∧
          gSquareXYZGroup log pchisq alpha dims cols rows.length x y sets.flatten sets.length = .ok ⟨some 0, false, none⟩)) := by
  refine ⟨groupVerdict log pchisq alpha card rows x y, ?_, ?_⟩
  · intro s hs
    have hsub : ∀ v ∈ s ++ [x, y], v < numVars := by
      intro v hv'
      apply hv
      simp only [List.mem_append] at hv' ⊢
      exact hv'.imp (fun h => List.mem_flatten.2 ⟨s, hs, h⟩) id
    refine ⟨_, gSquareXYZ_eq log pchisq alpha (by
      rintro rfl
      have := hu [] hs
      simp at this; omega) (hn s hs) (Columns.for hc hsub) (fun v hv' => hdim v (hsub v hv')), ?_⟩
    rw [Bool.eq_iff_iff, singleResult_indep]
    unfold Independent groupVerdict
    rw [pValue_exceeds]
    constructor
    · rintro (h | h)
      · rw [h]; exact hdf s hs h
      · exact h
    · exact Or.inr
  · rw [gSquareXYZGroup_eq log pchisq alpha hne hdp hu hn (Columns.for hc hv) (fun v hv' => hdim v (hv v hv')), if_pos h8]
    rcases firstVerdict_spec (K := K) (verdict := groupVerdict log pchisq alpha card rows x y) (sets := sets) with ⟨e, s, h1, h2, h3, h4⟩ | ⟨h1, h2⟩
    · exact Or.inl ⟨e, s, h1, h2, h3, by rw [h4]⟩
    · exact Or.inr ⟨h1, by rw [h2]⟩

/-- C26, violation: more than 8 conditioning sets in a group overflow the array `results`. -/
theorem C26_group_overflow (hc : Columns card numVars cols rows) (hdim : ∀ v < numVars, dims[v]? = some (card v))
    {sets : List (List Nat)} {depth : Nat} (hdp : 0 < depth) (hu : ∀ s ∈ sets, s.length = depth)
    (hv : ∀ v ∈ sets.flatten ++ [x, y], v < numVars) (hn : ∀ s ∈ sets, (s ++ [x, y]).Nodup) (h8 : 8 < sets.length) :
    gSquareXYZGroup log pchisq alpha dims cols rows.length x y sets.flatten sets.length = .error .ub := by
  have hne : sets ≠ [] := by rintro rfl; simp at h8
  rw [gSquareXYZGroup_eq log pchisq alpha hne hdp hu hn (Columns.for hc hv) (fun v hv' => hdim v (hv v hv')), if_neg (by omega)]

/-! ### C27 -/

/-- The single test computes the G² statistic and its adjusted degrees of freedom, and its verdict is the one specified. -/
theorem C27_statistic (hc : Columns card numVars cols rows) (hdim : ∀ v < numVars, dims[v]? = some (card v))
    {z : List Nat} (hv : ∀ v ∈ z ++ [x, y], v < numVars) (hn : (z ++ [x, y]).Nodup) :
    ∃ res, independenceResult log pchisq alpha dims cols rows.length x y z 1 = .ok res ∧
      (res.indep = true ↔ Independent log pchisq alpha card rows x y z) ∧
      res.p = if degrees card rows x y z = 0 then some 1
        else (pchisq (gSquare log card rows x y z) (degrees card rows x y z)).map (fun q => 1 - q) := by
  have hp : ∀ first, (singleResult pchisq alpha first (gSquare log card rows x y z) (degrees card rows x y z)).p =
      if degrees card rows x y z = 0 then some 1
        else (pchisq (gSquare log card rows x y z) (degrees card rows x y z)).map (fun q => 1 - q) := by
    intro first
    unfold singleResult
    split <;> rfl
  unfold independenceResult
  by_cases hz : z = []
  · subst hz
    rw [if_pos rfl]
    exact ⟨_, gSquareXY_eq log pchisq alpha hn (Columns.for hc hv) (fun v hv' => hdim v (hv v hv')), singleResult_indep log pchisq alpha, hp _⟩
  · rw [if_neg hz, if_neg (by omega)]
    exact ⟨_, gSquareXYZ_eq log pchisq alpha hz hn (Columns.for hc hv) (fun v hv' => hdim v (hv v hv')), singleResult_indep log pchisq alpha, hp _⟩

/-- C27.  Exchanging `x` and `y` and permuting the conditioning variables gives the same result: same p-value (hence same statistic and
degrees of freedom, see `C27_same_statistic`) and same verdict. -/
theorem C27_symmetric (hc : Columns card numVars cols rows) (hdim : ∀ v < numVars, dims[v]? = some (card v))
    {z z' : List Nat} (hperm : z.Perm z') (hv : ∀ v ∈ z ++ [x, y], v < numVars) (hn : (z ++ [x, y]).Nodup) :
    ∃ res, independenceResult log pchisq alpha dims cols rows.length x y z 1 = .ok res ∧
      independenceResult log pchisq alpha dims cols rows.length y x z' 1 = .ok res := by
  have hp : (z ++ [x, y]).Perm (z' ++ [y, x]) := hperm.append (List.Perm.swap y x [])
  have hn' : (z' ++ [y, x]).Nodup := hp.nodup_iff.1 hn
  have hv' : ∀ v ∈ z' ++ [y, x], v < numVars := fun v hm => hv v (hp.mem_iff.2 hm)
  unfold independenceResult
  by_cases hz : z = []
  · subst hz
    have : z' = [] := hperm.symm.eq_nil
    subst this
    rw [if_pos rfl, if_pos rfl]
    refine ⟨_, gSquareXY_eq log pchisq alpha hn (Columns.for hc hv) (fun v hm => hdim v (hv v hm)), ?_⟩
    rw [gSquareXY_eq log pchisq alpha hn' (Columns.for hc hv') (fun v hm => hdim v (hv' v hm)), gSquare_symm log hn hperm, degrees_symm hn hperm]
  · have hz' : z' ≠ [] := by rintro rfl; exact hz hperm.eq_nil
    rw [if_neg hz, if_neg (by omega), if_neg hz', if_neg (by omega)]
    refine ⟨_, gSquareXYZ_eq log pchisq alpha hz hn (Columns.for hc hv) (fun v hm => hdim v (hv v hm)), ?_⟩
    rw [gSquareXYZ_eq log pchisq alpha hz' hn' (Columns.for hc hv') (fun v hm => hdim v (hv' v hm)), gSquare_symm log hn hperm, degrees_symm hn hperm]

omit [LinearOrder K] in
/-- C27, the statistic and the degrees of freedom themselves. -/
theorem C27_same_statistic {z z' : List Nat} (hperm : z.Perm z') (hn : (z ++ [x, y]).Nodup) :
    gSquare log card rows x y z = gSquare log card rows y x z' ∧ degrees card rows x y z = degrees card rows y x z' :=
  ⟨gSquare_symm log hn hperm, degrees_symm hn hperm⟩

end tests

/-- C26, violation: if the chi-square function returns NaN for 0 degrees of freedom, then for two instances (0,0,0,0) and (1,1,1,1) of four
binary variables each of the two single tests (x0 against x1 given x2, given x3) says independent, and the group of the two says
dependent. -/
theorem C26_degenerate_disagreement (log : Rat → Rat) (F : Rat → Nat → Rat) :
    (∀ z ∈ [[2], [3]], gSquareXYZ log (fun g df => if df = 0 then none else some (F g df)) (1 / 20) [2, 2, 2, 2]
      [[0, 1], [0, 1], [0, 1], [0, 1]] 2 0 1 z = .ok ⟨some 1, true, some 0⟩) ∧
    gSquareXYZGroup log (fun g df => if df = 0 then none else some (F g df)) (1 / 20) [2, 2, 2, 2]
      [[0, 1], [0, 1], [0, 1], [0, 1]] 2 0 1 [2, 3] 2 = .ok ⟨some 0, false, none⟩ := by
  refine ⟨?_, rfl⟩
  intro z hz
  simp only [List.mem_cons, List.not_mem_nil, or_false] at hz
  rcases hz with rfl | rfl <;> rfl

-- a table with a degree of freedom: x0 = x1 in all four instances, x2 constant
example : gSquareXYZ (K := Rat) (fun r => r) (fun g _ => some (if g > 4 then 1 else 0)) (1 / 20) [2, 2, 2]
    [[0, 1, 0, 1], [0, 1, 0, 1], [0, 0, 0, 0]] 4 0 1 [2] = .ok ⟨some 0, false, some 0⟩ := by decide +kernel

end FastPGM
