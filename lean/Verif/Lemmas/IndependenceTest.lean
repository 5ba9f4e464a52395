import Verif.Model.IndependenceTest
import Verif.Lemmas.CellTable3
import Mathlib.Algebra.BigOperators.Group.List.Basic

/-!
Helper lemmas for `Verif.Model.IndependenceTest`.
-/

namespace FastPGM

open Spec

variable {K : Type}

theorem positives_eq {l : List Nat} {start dim : Nat} {g : Nat → Nat} (h : ∀ i < dim, rd l (start + i) = .ok (g i)) :
    positives l start dim = .ok ((List.range dim).countP (fun i => 0 < g i)) := by
  unfold positives
  have := foldlM_range_eq (n := dim) (s := fun i => (List.range i).countP (fun i => 0 < g i))
    (f := fun c i => do
      let v ← rd l (start + i)
      return c + if v > 0 then 1 else 0) ?_
  · exact this
  · intro i hi
    rw [h i hi, ok_bind, countP_range_succ]
    show Except.ok _ = Except.ok _
    simp

theorem sum_foldlM [AddCommMonoid K] {n : Nat} {f : K → Nat → Except Fault K} {g : Nat → K} {z : K}
    (hf : ∀ z, ∀ j < n, f z j = .ok (z + g j)) :
    (List.range n).foldlM f z = .ok (z + ∑ j ∈ Finset.range n, g j) := by
  have := foldlM_range_eq (f := f) (s := fun i => z + ∑ j ∈ Finset.range i, g j) (n := n) ?_
  · simpa using this
  · intro i hi
    rw [hf _ i hi, Finset.sum_range_succ, add_assoc]

/-- What a stratum of a table says. -/
structure Stratum (t : Counts) (dx dy off k : Nat) (N : Nat → Nat → Nat) (R C : Nat → Nat) (T : Nat) : Prop where
  n : ∀ i < dx, ∀ j < dy, rd t.n (k * dx * dy + i * dy + j + off * dx * dy) = .ok (N i j)
  ni : ∀ i < dx, rd t.ni (k * dx + i + off * dx) = .ok (R i)
  nj : ∀ j < dy, rd t.nj (k * dy + j + off * dy) = .ok (C j)
  nk : rd t.nk (k + off) = .ok T
  row : ∀ i < dx, ∀ j < dy, R i = 0 → N i j = 0
  col : ∀ i < dx, ∀ j < dy, C j = 0 → N i j = 0
  total : ∀ i < dx, ∀ j < dy, T = 0 → N i j = 0

theorem max_one_sub (n : Nat) : (if n ≥ 1 then n else 1) - 1 = n - 1 := by
  split <;> omega

theorem gSquareStratum_eq [Field K] (log : K → K) {t : Counts} {dx dy off k : Nat} {N : Nat → Nat → Nat} {R C : Nat → Nat} {T : Nat}
    (h : Stratum t dx dy off k N R C T) (st : K × Nat) :
    gSquareStratum log t dx dy off st k =
      .ok (st.1 + ∑ i ∈ Finset.range dx, ∑ j ∈ Finset.range dy, gTerm log (N i j) (R i) (C j) T,
        st.2 + ((List.range dx).countP (fun i => 0 < R i) - 1) * ((List.range dy).countP (fun j => 0 < C j) - 1)) := by
  unfold gSquareStratum
  rw [positives_eq (g := R), ok_bind, positives_eq (g := C), ok_bind]
  · simp only [max_one_sub]
    rw [h.nk, ok_bind]
    by_cases hT : T = 0
    · rw [if_pos hT]
      show Except.ok _ = Except.ok _
      congr 2
      rw [Finset.sum_eq_zero, add_zero]
      intro i hi
      apply Finset.sum_eq_zero
      intro j hj
      rw [gTerm, if_pos (h.total i (by simpa using hi) j (by simpa using hj) hT)]
    · rw [if_neg hT, sum_foldlM (g := fun i => ∑ j ∈ Finset.range dy, gTerm log (N i j) (R i) (C j) T)]
      · rfl
      · intro g2 i hi
        rw [h.ni i hi, ok_bind]
        by_cases hR : R i = 0
        · rw [if_pos hR]
          show Except.ok _ = Except.ok _
          congr 1
          rw [Finset.sum_eq_zero, add_zero]
          intro j hj
          rw [gTerm, if_pos (h.row i hi j (by simpa using hj) hR)]
        · rw [if_neg hR, sum_foldlM]
          intro g2 j hj
          rw [h.nj j hj, ok_bind, h.n i hi j hj, ok_bind]
          by_cases hN : N i j = 0
          · rw [if_pos (Or.inr hN), gTerm, if_pos hN, add_zero]; rfl
          · rw [if_neg (by
              rintro (e | e)
              · exact hN (h.col i hi j hj e)
              · exact hN e), gTerm, if_neg hN]
            rfl
  · intro j hj
    rw [← h.nj j hj]; congr 1; omega
  · intro i hi
    rw [← h.ni i hi]; congr 1; omega

theorem countP_zero_of {α : Type} {l : List α} {p q : α → Bool} (h : l.countP p = 0) (hpq : ∀ r ∈ l, q r = true → p r = true) :
    l.countP q = 0 := by
  rw [List.countP_eq_zero] at h ⊢
  intro r hr hq
  exact h r hr (hpq r hr hq)

theorem pos2_inj {dx k i k' i' : Nat} (hi : i < dx) (hi' : i' < dx) (h : k * dx + i = k' * dx + i') : k = k' ∧ i = i' := by
  have h3 : k = k' := by
    have := congrArg (· / dx) h
    simpa [Nat.mul_comm _ dx, Nat.mul_add_div (show 0 < dx by omega), Nat.div_eq_of_lt hi, Nat.div_eq_of_lt hi'] using this
  subst h3
  exact ⟨rfl, by omega⟩

/-- The strata of a filled table. -/
theorem margTables_stratum {ι : Type} {is : List ι} {X Y Z : ι → Nat} {dx dy D : Nat} (hX : ∀ r ∈ is, X r < dx) (hY : ∀ r ∈ is, Y r < dy)
    {k off : Nat} (hk : k + off < D) :
    Stratum (margTables is X Y Z dx dy D) dx dy off k
      (fun i j => is.countP (fun r => Z r = k + off ∧ (X r = i ∧ Y r = j)))
      (fun i => is.countP (fun r => Z r = k + off ∧ X r = i))
      (fun j => is.countP (fun r => Z r = k + off ∧ Y r = j))
      (is.countP (fun r => Z r = k + off)) := by
  constructor
  · intro i hi j hj
    rw [show k * dx * dy + i * dy + j + off * dx * dy = ((k + off) * dx + i) * dy + j by ring]
    simp only [margTables]
    rw [rd_tab (pos_lt hk hi hj)]
    congr 1
    apply List.countP_congr
    intro r hr
    simp only [decide_eq_true_eq]
    constructor
    · intro e; exact itemPos_inj (hX r hr) (hY r hr) hi hj e
    · rintro ⟨h1, h2, h3⟩; rw [itemPos, h1, h2, h3]
  · intro i hi
    rw [show k * dx + i + off * dx = (k + off) * dx + i by ring]
    simp only [margTables]
    rw [rd_tab (pos_lt2 hk hi)]
    congr 1
    apply List.countP_congr
    intro r hr
    simp only [decide_eq_true_eq]
    constructor
    · intro e; exact pos2_inj (hX r hr) hi e
    · rintro ⟨h1, h2⟩; rw [h1, h2]
  · intro j hj
    rw [show k * dy + j + off * dy = (k + off) * dy + j by ring]
    simp only [margTables]
    rw [rd_tab (pos_lt2 hk hj)]
    congr 1
    apply List.countP_congr
    intro r hr
    simp only [decide_eq_true_eq]
    constructor
    · intro e; exact pos2_inj (hY r hr) hj e
    · rintro ⟨h1, h2⟩; rw [h1, h2]
  · simp only [margTables]
    rw [rd_tab hk]
  · intro i _ j _ h
    refine countP_zero_of h (fun r _ => ?_)
    simp only [decide_eq_true_eq]
    exact fun h => ⟨h.1, h.2.1⟩
  · intro i _ j _ h
    refine countP_zero_of h (fun r _ => ?_)
    simp only [decide_eq_true_eq]
    exact fun h => ⟨h.1, h.2.2⟩
  · intro i _ j _ h
    refine countP_zero_of h (fun r _ => ?_)
    simp only [decide_eq_true_eq]
    exact fun h => h.1

theorem sumOut_append [AddCommMonoid K] {card : Nat → Nat} (vs ws : List Nat) (f : Assignment → K) (a : Assignment) :
    sumOut card (vs ++ ws) f a = sumOut card vs (fun b => sumOut card ws f b) a := by
  induction vs generalizing a with
  | nil => rfl
  | cons v vs ih => simp only [List.cons_append, sumOut, ih]

theorem countSame_eq (rows : List Assignment) (vs : List Nat) (a : Assignment) :
    countSame rows vs a = rows.countP (fun r => vs.map r = vs.map a) := by
  unfold countSame
  apply List.countP_congr
  intro r _
  rw [all_beq_iff, decide_eq_true_iff]

theorem zOf_iff {card : Nat → Nat} {z : List Nat} (hz : z.Nodup) {r : Assignment} (hr : InRange card z r) {k : Nat}
    (hk : k < (z.map card).prod) : zOf card z r = k ↔ z.map r = z.map (asgOf z (digits (z.map card) k)) := by
  have h1 : z.map (asgOf z (digits (z.map card) k)) = digits (z.map card) k := map_asgOf hz (by simp)
  rw [h1]
  unfold zOf
  constructor
  · intro e
    rw [← e, digits_rank (cfgIn_map hr)]
  · intro e
    rw [e, rank_digits hk]

theorem map_set_cons {z : List Nat} {x : Nat} (hx : x ∉ z) (r a : Assignment) (i : Nat) :
    ((z ++ [x]).map r = (z ++ [x]).map (a.set x i)) ↔ (z.map r = z.map a ∧ r x = i) := by
  rw [List.map_append, List.map_append, map_set_of_notMem hx]
  constructor
  · intro h
    have := List.append_inj h (by simp)
    refine ⟨this.1, ?_⟩
    simpa [Assignment.set] using this.2
  · rintro ⟨h1, h2⟩
    rw [h1]
    simp [Assignment.set, h2]

section single

variable {card : Nat → Nat} {rows : List Assignment} {x y : Nat} {z : List Nat}

theorem count_z (hn : (z ++ [x, y]).Nodup) (hr : ∀ r ∈ rows, InRange card (z ++ [x, y]) r) {k : Nat} (hk : k < (z.map card).prod) :
    rows.countP (fun r => zOf card z r = k) = countSame rows z (asgOf z (digits (z.map card) k)) := by
  rw [countSame_eq]
  apply List.countP_congr
  intro r hr'
  rw [decide_eq_true_iff, decide_eq_true_iff]
  exact zOf_iff (List.nodup_append.1 hn).1 (fun v hv => hr r hr' v (by simp [hv])) hk

theorem count_zv {v : Nat} (hv : v ∉ z) (hz : z.Nodup) (hr : ∀ r ∈ rows, InRange card z r) {k i : Nat} (hk : k < (z.map card).prod) :
    rows.countP (fun r => zOf card z r = k ∧ r v = i) = countSame rows (z ++ [v]) ((asgOf z (digits (z.map card) k)).set v i) := by
  rw [countSame_eq]
  apply List.countP_congr
  intro r hr'
  rw [decide_eq_true_iff, decide_eq_true_iff, map_set_cons hv, zOf_iff hz (hr r hr') hk]

theorem count_zxy (hn : (z ++ [x, y]).Nodup) (hr : ∀ r ∈ rows, InRange card (z ++ [x, y]) r) {k i j : Nat} (hk : k < (z.map card).prod) :
    rows.countP (fun r => zOf card z r = k ∧ (r x = i ∧ r y = j)) =
      countSame rows (z ++ [x, y]) (((asgOf z (digits (z.map card) k)).set x i).set y j) := by
  have hn' : ((z ++ [x]) ++ [y]).Nodup := by simpa using hn
  have hy : y ∉ z ++ [x] := fun h => (List.nodup_append.1 hn').2.2 y h y (by simp) rfl
  have hzx : (z ++ [x]).Nodup := (List.nodup_append.1 hn').1
  have hx : x ∉ z := fun h => (List.nodup_append.1 hzx).2.2 x h x (by simp) rfl
  rw [countSame_eq]
  apply List.countP_congr
  intro r hr'
  rw [decide_eq_true_iff, decide_eq_true_iff, show z ++ [x, y] = (z ++ [x]) ++ [y] by simp, map_set_cons hy, map_set_cons hx,
    zOf_iff (List.nodup_append.1 hzx).1 (fun v hv => hr r hr' v (by simp [hv])) hk, and_assoc]

theorem observedValues_eq (v : Nat) (a : Assignment) :
    observedValues card rows v z a = (List.range (card v)).countP (fun w => 0 < countSame rows (z ++ [v]) (a.set v w)) := by
  unfold observedValues
  rw [List.countP_eq_length_filter, Finset.card, Finset.filter_val, Finset.range_val, ← Multiset.coe_range, Multiset.filter_coe, Multiset.coe_card]

theorem countSame_set {vs : List Nat} {v i : Nat} (h : v ∉ vs) (a : Assignment) : countSame rows vs (a.set v i) = countSame rows vs a := by
  rw [countSame_eq, countSame_eq, map_set_of_notMem h]

theorem countSame_depends (vs : List Nat) : DependsOn (countSame rows vs) vs := by
  intro a b h
  rw [countSame_eq, countSame_eq, map_eq_of_agree h]

theorem set_agree {vs : List Nat} {v : Nat} {a b : Assignment} (h : ∀ w ∈ vs, a w = b w) (i : Nat) :
    ∀ w ∈ vs ++ [v], a.set v i w = b.set v i w := by
  intro w hw
  unfold Assignment.set
  split
  · rfl
  · rename_i e
    exact h w (by simpa [e] using hw)

/-- The sum the code computes is the G² statistic. -/
theorem gSquare_sum [Field K] (log : K → K) (hn : (z ++ [x, y]).Nodup) :
    ∑ k ∈ Finset.range (z.map card).prod, ∑ i ∈ Finset.range (card x), ∑ j ∈ Finset.range (card y),
      gTerm log (countSame rows (z ++ [x, y]) (((asgOf z (digits (z.map card) k)).set x i).set y j))
        (countSame rows (z ++ [x]) ((asgOf z (digits (z.map card) k)).set x i))
        (countSame rows (z ++ [y]) ((asgOf z (digits (z.map card) k)).set y j))
        (countSame rows z (asgOf z (digits (z.map card) k))) = gSquare log card rows x y z := by
  have hn' : ((z ++ [x]) ++ [y]).Nodup := by simpa using hn
  have hy : y ∉ z ++ [x] := fun h => (List.nodup_append.1 hn').2.2 y h y (by simp) rfl
  have hzx : (z ++ [x]).Nodup := (List.nodup_append.1 hn').1
  have hx : x ∉ z := fun h => (List.nodup_append.1 hzx).2.2 x h x (by simp) rfl
  have hxy : x ≠ y := fun e => hy (by simp [e])
  have hyz : y ∉ z := fun h => hy (by simp [h])
  unfold gSquare
  rw [sumOut_append, ← sum_entries (List.nodup_append.1 hzx).1]
  · apply Finset.sum_congr rfl
    intro k _
    simp only [sumOut]
    apply Finset.sum_congr rfl
    intro i _
    apply Finset.sum_congr rfl
    intro j _
    rw [countSame_set hy, countSame_set hyz, countSame_set hx, set_set_comm hxy, countSame_set (rows := rows) (vs := z ++ [y]) (v := x) (i := i) (by simp [hx, hxy])]
  · intro a b h
    simp only [sumOut]
    apply Finset.sum_congr rfl
    intro i _
    apply Finset.sum_congr rfl
    intro j _
    have h2 : ∀ w ∈ z ++ [x, y], (a.set x i).set y j w = (b.set x i).set y j w := by
      have := set_agree (v := y) (set_agree (v := x) h i) j
      simpa using this
    rw [countSame_depends (z ++ [x, y]) _ _ h2, countSame_depends (z ++ [x]) _ _ (fun w hw => h2 w (by
        simp only [List.mem_append, List.mem_cons, List.not_mem_nil, or_false] at hw ⊢; tauto)),
      countSame_depends (z ++ [y]) _ _ (fun w hw => h2 w (by
        simp only [List.mem_append, List.mem_cons, List.not_mem_nil, or_false] at hw ⊢; tauto)),
      countSame_depends z _ _ (fun w hw => h2 w (by simp [hw]))]

theorem degrees_sum (hn : (z ++ [x, y]).Nodup) :
    ∑ k ∈ Finset.range (z.map card).prod,
      ((List.range (card x)).countP (fun i => 0 < countSame rows (z ++ [x]) ((asgOf z (digits (z.map card) k)).set x i)) - 1) *
      ((List.range (card y)).countP (fun j => 0 < countSame rows (z ++ [y]) ((asgOf z (digits (z.map card) k)).set y j)) - 1) =
      degrees card rows x y z := by
  unfold degrees
  rw [← sum_entries (List.nodup_append.1 hn).1]
  · apply Finset.sum_congr rfl
    intro k _
    rw [observedValues_eq, observedValues_eq]
  · intro a b h
    have hv : ∀ v, observedValues card rows v z a = observedValues card rows v z b := by
      intro v
      rw [observedValues_eq, observedValues_eq]
      apply List.countP_congr
      intro w _
      rw [countSame_depends (z ++ [v]) _ _ (set_agree (v := v) h w)]
    simp only [hv]

end single

/-- Two sums computed in one loop. -/
theorem pair_foldlM [AddCommMonoid K] {n : Nat} {f : K × Nat → Nat → Except Fault (K × Nat)} {g : Nat → K} {d : Nat → Nat} {st : K × Nat}
    (hf : ∀ st, ∀ k < n, f st k = .ok (st.1 + g k, st.2 + d k)) :
    (List.range n).foldlM f st = .ok (st.1 + ∑ k ∈ Finset.range n, g k, st.2 + ∑ k ∈ Finset.range n, d k) := by
  have := foldlM_range_eq (f := f) (s := fun i => (st.1 + ∑ k ∈ Finset.range i, g k, st.2 + ∑ k ∈ Finset.range i, d k)) (n := n) ?_
  · simpa using this
  · intro i hi
    rw [hf _ i hi, Finset.sum_range_succ, Finset.sum_range_succ, add_assoc, add_assoc]

/-- The loop over the strata of the table of one conditioning set. -/
theorem strata_single [Field K] (log : K → K) {card : Nat → Nat} {rows : List Assignment} {x y : Nat} {z : List Nat}
    (hn : (z ++ [x, y]).Nodup) (hr : ∀ r ∈ rows, InRange card (z ++ [x, y]) r) {t : Counts} {off : Nat}
    (ht : ∀ k < (z.map card).prod, Stratum t (card x) (card y) off k
      (fun i j => rows.countP (fun r => zOf card z r = k ∧ (r x = i ∧ r y = j)))
      (fun i => rows.countP (fun r => zOf card z r = k ∧ r x = i))
      (fun j => rows.countP (fun r => zOf card z r = k ∧ r y = j))
      (rows.countP (fun r => zOf card z r = k))) :
    (List.range (z.map card).prod).foldlM (gSquareStratum log t (card x) (card y) off) ((0 : K), 0) =
      .ok (gSquare log card rows x y z, degrees card rows x y z) := by
  have hn' : ((z ++ [x]) ++ [y]).Nodup := by simpa using hn
  have hy : y ∉ z ++ [x] := fun h => (List.nodup_append.1 hn').2.2 y h y (by simp) rfl
  have hzx : (z ++ [x]).Nodup := (List.nodup_append.1 hn').1
  have hx : x ∉ z := fun h => (List.nodup_append.1 hzx).2.2 x h x (by simp) rfl
  have hyz : y ∉ z := fun h => hy (by simp [h])
  have hz : z.Nodup := (List.nodup_append.1 hzx).1
  have hrz : ∀ r ∈ rows, InRange card z r := fun r hr' v hv => hr r hr' v (by simp [hv])
  rw [pair_foldlM (fun st k hk => gSquareStratum_eq log (ht k hk) st)]
  simp only [zero_add]
  rw [← gSquare_sum log hn, ← degrees_sum hn]
  congr 2
  · apply Finset.sum_congr rfl
    intro k hk
    have hk' : k < (z.map card).prod := by simpa using hk
    apply Finset.sum_congr rfl
    intro i _
    apply Finset.sum_congr rfl
    intro j _
    rw [count_z hn hr hk', count_zv hx hz hrz hk', count_zv hyz hz hrz hk', count_zxy hn hr hk']
  · apply Finset.sum_congr rfl
    intro k hk
    have hk' : k < (z.map card).prod := by simpa using hk
    simp only [count_zv hx hz hrz hk', count_zv hyz hz hrz hk']

end FastPGM
