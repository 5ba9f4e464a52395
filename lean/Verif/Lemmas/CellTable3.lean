import Verif.Lemmas.CellTable2

/-!
Helper lemmas for `Verif.Model.CellTable`: groups of conditioning sets.
-/

namespace FastPGM

open Spec

/-- Every set of the group has `depth` variables. -/
def Uniform (sets : List (List Nat)) (depth : Nat) : Prop := ∀ s ∈ sets, s.length = depth

theorem Uniform.length {sets : List (List Nat)} {depth : Nat} (h : Uniform sets depth) : sets.flatten.length = sets.length * depth := by
  induction sets with
  | nil => simp
  | cons s sets ih =>
    rw [List.flatten_cons, List.length_append, ih (fun t ht => h t (by simp [ht])), h s (by simp), List.length_cons, Nat.succ_mul,
      Nat.add_comm]

theorem Uniform.get {sets : List (List Nat)} {depth : Nat} (h : Uniform sets depth) {j i : Nat} {s : List Nat} (hs : sets[j]? = some s)
    (hi : i < depth) : sets.flatten[j * depth + i]? = s[i]? := by
  induction sets generalizing j with
  | nil => simp at hs
  | cons t sets ih =>
    rw [List.flatten_cons]
    have ht := h t (by simp)
    cases j with
    | zero =>
      simp only [List.getElem?_cons_zero, Option.some.injEq] at hs
      subst hs
      rw [Nat.zero_mul, Nat.zero_add, List.getElem?_append_left (by omega)]
    | succ j =>
      rw [List.getElem?_append_right (by rw [ht, Nat.succ_mul]; omega), ht,
        show (j + 1) * depth + i - depth = j * depth + i by rw [Nat.succ_mul]; omega]
      exact ih (fun t ht => h t (by simp [ht])) (by simpa using hs)

theorem Uniform.map {sets : List (List Nat)} {depth : Nat} (h : Uniform sets depth) (f : Nat → Nat) :
    Uniform (sets.map (List.map f)) depth := by
  intro s hs
  obtain ⟨t, ht, rfl⟩ := List.mem_map.1 hs
  simpa using h t ht

theorem divMod_eq {depth j i : Nat} (hi : i < depth) : (j * depth + i) / depth = j ∧ (j * depth + i) % depth = i := by
  constructor
  · rw [Nat.mul_comm, Nat.mul_add_div (by omega), Nat.div_eq_of_lt hi, Nat.add_zero]
  · rw [Nat.mul_comm, Nat.mul_add_mod, Nat.mod_eq_of_lt hi]

/-- Entry of the group's `cum_levels`. -/
def groupLevel (dimss : List (List Nat)) (p depth : Nat) : Nat := ((dimss.getD (p / depth) []).drop (p % depth + 1)).prod

theorem cumLevelsGroup_one {dimss : List (List Nat)} (h : Uniform dimss 1) :
    cumLevelsGroup dimss.flatten 1 dimss.length = .ok ([], dimss.map List.prod) := by
  unfold cumLevelsGroup
  rw [if_pos rfl]
  congr 2
  induction dimss with
  | nil => rfl
  | cons s sets ih =>
    obtain ⟨d, rfl⟩ := List.length_eq_one_iff.1 (h s (by simp))
    simp [ih (fun t ht => h t (by simp [ht]))]

theorem cumLevelsGroup_eq {dimss : List (List Nat)} {depth : Nat} (hd : 0 < depth) (h1 : depth ≠ 1) (h : Uniform dimss depth) :
    cumLevelsGroup dimss.flatten depth dimss.length =
      .ok (tab (dimss.length * depth) (fun p => groupLevel dimss p depth), dimss.map List.prod) := by
  unfold cumLevelsGroup
  rw [if_neg h1, h.length, replicate_eq_tab]
  have key := foldlM_range_eq (n := dimss.length)
    (s := fun j => (tab (dimss.length * depth) (fun p => if p / depth < j then groupLevel dimss p depth else 0), (dimss.take j).map List.prod))
    (f := fun (st : List Nat × List Nat) j => do
      let cum ← (if (j + 1) * depth = 0 then .error .ub else wr st.1 ((j + 1) * depth - 1) 1)
      let cum ← (List.range (depth - 1)).reverse.foldlM (fun c i => do
        let a ← rd c (j * depth + i + 1)
        let d ← rd dimss.flatten (j * depth + i + 1)
        wr c (j * depth + i) (a * d)) cum
      let a ← rd cum (j * depth)
      let d ← rd dimss.flatten (j * depth)
      return (cum, st.2 ++ [a * d])) ?_
  · refine Eq.trans ?_ (key.trans ?_)
    · simp
    · congr 2
      · apply tab_congr
        intro p hp
        rw [if_pos (by rw [Nat.div_lt_iff_lt_mul hd]; exact hp)]
      · simp
  · intro j hj
    have hsj : dimss[j]? = some dimss[j] := List.getElem?_eq_getElem hj
    have hlj : dimss[j].length = depth := h _ (List.getElem_mem _)
    have hjd : (j + 1) * depth = j * depth + depth := Nat.succ_mul _ _
    have hle : (j + 1) * depth ≤ dimss.length * depth := Nat.mul_le_mul_right _ hj
    have hget : ∀ i < depth, rd dimss.flatten (j * depth + i) = .ok (dimss[j].getD i 0) := by
      intro i hi
      apply rd_ok
      rw [h.get hsj hi]
      simp [hlj, hi]
    have hgl : ∀ i < depth, groupLevel dimss (j * depth + i) depth = (dimss[j].drop (i + 1)).prod := by
      intro i hi
      unfold groupLevel
      rw [(divMod_eq hi).1, (divMod_eq hi).2]
      simp [hj]
    rw [if_neg (by omega), wr_tab (by omega), ok_bind]
    have inner := foldlM_range_rev (n := depth - 1)
      (s := fun i => tab (dimss.length * depth) (fun p => if p / depth < j ∨ (p / depth = j ∧ i ≤ p % depth) then groupLevel dimss p depth else 0))
      (f := fun c i => do
        let a ← rd c (j * depth + i + 1)
        let d ← rd dimss.flatten (j * depth + i + 1)
        wr c (j * depth + i) (a * d)) ?_
    · rw [show tab (dimss.length * depth) (fun j_1 => if j_1 = (j + 1) * depth - 1 then 1
          else if j_1 / depth < j then groupLevel dimss j_1 depth else 0) =
          tab (dimss.length * depth) (fun p => if p / depth < j ∨ (p / depth = j ∧ depth - 1 ≤ p % depth) then groupLevel dimss p depth else 0)
          from ?_]
      · rw [inner, ok_bind, rd_tab (by omega), ok_bind]
        have := hget 0 hd
        rw [Nat.add_zero] at this
        rw [this, ok_bind]
        show Except.ok _ = Except.ok _
        congr 2
        · apply tab_congr
          intro p _
          have : (p / depth < j ∨ p / depth = j ∧ 0 ≤ p % depth) ↔ p / depth < j + 1 := by omega
          simp only [this]
        · have e0 := (divMod_eq (j := j) hd)
          rw [Nat.add_zero] at e0
          have g0 := hgl 0 hd
          rw [Nat.add_zero] at g0
          rw [if_pos (by omega), g0, List.take_add_one, hsj, List.map_append]
          simp only [Option.toList_some, List.map_cons, List.map_nil]
          congr 2
          obtain ⟨d, ds, hds⟩ := List.exists_cons_of_length_pos (show 0 < dimss[j].length by omega)
          rw [hds]
          simp [Nat.mul_comm]
      · apply tab_congr
        intro p hp
        by_cases e : p = (j + 1) * depth - 1
        · have e' : p = j * depth + (depth - 1) := by omega
          have hdm := divMod_eq (j := j) (show depth - 1 < depth by omega)
          rw [if_pos e, e', hdm.1, hdm.2, if_pos (by omega), hgl _ (by omega)]
          rw [List.drop_of_length_le (by omega)]
          rfl
        · rw [if_neg e]
          have : (p / depth < j ∨ p / depth = j ∧ depth - 1 ≤ p % depth) ↔ p / depth < j := by
            constructor
            · rintro (h | ⟨h2, h3⟩)
              · exact h
              · exfalso
                apply e
                have h4 := Nat.div_add_mod p depth
                have h5 := Nat.mod_lt p hd
                rw [h2, Nat.mul_comm] at h4
                omega
            · exact Or.inl
          simp only [this]
    · intro i hi
      have hdm := divMod_eq (j := j) (show i + 1 < depth by omega)
      have hdm0 := divMod_eq (j := j) (show i < depth by omega)
      have hg1 := hget (i + 1) (by omega)
      rw [← Nat.add_assoc] at hg1 hdm
      rw [rd_tab (by omega), ok_bind, hg1, ok_bind, wr_tab (by omega)]
      congr 1
      apply tab_congr
      intro p hp
      by_cases e : p = j * depth + i
      · rw [if_pos e, e, hdm0.1, hdm0.2, if_pos (by omega), if_pos (by omega), hgl i (by omega)]
        have := hgl (i + 1) (by omega)
        rw [← Nat.add_assoc] at this
        rw [this, drop_prod_succ dimss[j] (show i + 1 < dimss[j].length by omega)]
        simp [List.getElem?_eq_getElem (show i + 1 < dimss[j].length by omega)]
      · rw [if_neg e]
        have : (p / depth < j ∨ p / depth = j ∧ i + 1 ≤ p % depth) ↔ (p / depth < j ∨ p / depth = j ∧ i ≤ p % depth) := by
          constructor
          · rintro (h | ⟨h2, h3⟩)
            · exact Or.inl h
            · exact Or.inr ⟨h2, by omega⟩
          · rintro (h | ⟨h2, h3⟩)
            · exact Or.inl h
            · refine Or.inr ⟨h2, ?_⟩
              have h4 := Nat.div_add_mod p depth
              rw [h2, Nat.mul_comm] at h4
              omega
        simp only [this]

theorem take_sum_succ (l : List Nat) {i : Nat} (h : i < l.length) : (l.take (i + 1)).sum = (l.take i).sum + l[i] := by
  rw [List.take_add_one, List.getElem?_eq_getElem h, List.sum_append]
  simp

theorem cumDims_eq {dimz : List Nat} (h : 0 < dimz.length) :
    cumDims dimz dimz.length = .ok (tab dimz.length (fun m => (dimz.take m).sum), dimz.sum) := by
  unfold cumDims
  rw [replicate_eq_tab, wr_tab h, ok_bind]
  have key := foldlM_range_eq (n := dimz.length - 1)
    (s := fun i => tab dimz.length (fun m => if m ≤ i then (dimz.take m).sum else 0))
    (f := fun c i => do
      let a ← rd c i
      let d ← rd dimz i
      wr c (i + 1) (a + d)) ?_
  · rw [show tab dimz.length (fun j => if j = 0 then 0 else 0) = tab dimz.length (fun m => if m ≤ 0 then (dimz.take m).sum else 0) from ?_]
    · refine (congrArg (· >>= _) key).trans ?_
      rw [ok_bind, rd_tab (by omega), ok_bind, rd_getElem (show dimz.length - 1 < dimz.length by omega), ok_bind]
      show Except.ok _ = Except.ok _
      congr 2
      · apply tab_congr
        intro i hi
        rw [if_pos (by omega)]
      · rw [if_pos (by omega), ← take_sum_succ dimz (by omega), List.take_of_length_le (by omega)]
    · apply tab_congr
      intro j _
      by_cases e : j = 0
      · subst e; simp
      · simp [e]
  · intro i hi
    rw [rd_tab (by omega), ok_bind, rd_getElem (show i < dimz.length by omega), ok_bind, wr_tab (by omega)]
    congr 1
    apply tab_congr
    intro j _
    by_cases e : j = i + 1
    · subst e
      rw [if_pos rfl, if_pos (by omega), if_pos (by omega), take_sum_succ dimz (by omega)]
    · rw [if_neg e]
      by_cases e2 : j ≤ i
      · rw [if_pos e2, if_pos (by omega)]
      · rw [if_neg e2, if_neg (by omega)]

/-- The `cum_levels` of a group. -/
def groupCum (dimss : List (List Nat)) (depth : Nat) : List Nat :=
  if depth = 1 then [] else tab (dimss.length * depth) (fun p => groupLevel dimss p depth)

theorem cumLevelsGroup_groupCum {dimss : List (List Nat)} {depth : Nat} (hd : 0 < depth) (h : Uniform dimss depth) :
    cumLevelsGroup dimss.flatten depth dimss.length = .ok (groupCum dimss depth, dimss.map List.prod) := by
  unfold groupCum
  by_cases h1 : depth = 1
  · subst h1; exact cumLevelsGroup_one h
  · rw [if_neg h1]; exact cumLevelsGroup_eq hd h1 h

theorem zIndexGroup_eq {cols : List (List Nat)} {card : Nat → Nat} {sets : List (List Nat)} {depth k i : Nat} {r : Assignment}
    {s : List Nat} (hu : Uniform sets depth) (hs : sets[i]? = some s) (h : ∀ v ∈ s, cell cols v k = .ok (r v)) :
    zIndexGroup cols sets.flatten (groupCum (sets.map (List.map card)) depth) depth i k = .ok (zOf card s r) := by
  have hsl : s.length = depth := hu s (List.mem_of_getElem? hs)
  have hil : i < sets.length := (List.getElem?_eq_some_iff.1 hs).1
  unfold zIndexGroup groupCum zOf
  by_cases h1 : depth = 1
  · subst h1
    rw [if_pos rfl]
    obtain ⟨v, rfl⟩ := List.length_eq_one_iff.1 hsl
    have := hu.get hs (i := 0) (by omega)
    rw [rd_ok (a := v) (by simpa using this), ok_bind, h v (by simp)]
    simp [rank]
  · rw [if_neg h1, if_neg h1, sum_loop (g := fun j => (r (s.getD j 0)) * (((s.map card).drop (j + 1)).prod))]
    · rw [rank_eq_sum, hsl]; simp
    · intro z j hj
      have hjs : j < s.length := by omega
      have hle : (i + 1) * depth ≤ sets.length * depth := Nat.mul_le_mul_right _ hil
      rw [Nat.succ_mul] at hle
      rw [rd_ok (a := s[j]) (by rw [hu.get hs hj]; simp [hjs]), ok_bind, h _ (List.getElem_mem _), ok_bind, rd_tab (by rw [List.length_map]; omega), ok_bind]
      show Except.ok _ = Except.ok _
      unfold groupLevel
      rw [(divMod_eq hj).1, (divMod_eq hj).2]
      have hsi : sets[i] = s := by
        rw [List.getElem?_eq_getElem hil] at hs
        exact Option.some.inj hs
      simp [List.getElem?_eq_getElem hjs, hil, hsi]

/-- `dimz` of a group. -/
def groupDims (card : Nat → Nat) (sets : List (List Nat)) : List Nat := sets.map (fun s => (s.map card).prod)

/-- Offset of the `m`-th table of a group, in configurations. -/
def groupOff (card : Nat → Nat) (sets : List (List Nat)) (m : Nat) : Nat := ((groupDims card sets).take m).sum

/-- The items counted in a group's table: (row, number of the conditioning set). -/
def groupItems (rows : List Assignment) (size : Nat) : List (Assignment × Nat) :=
  rows.flatMap (fun r => (List.range size).map (fun i => (r, i)))

/-- Configuration number of an item in the group's table. -/
def groupZ (card : Nat → Nat) (sets : List (List Nat)) (p : Assignment × Nat) : Nat :=
  zOf card (sets.getD p.2 []) p.1 + groupOff card sets p.2

theorem groupOff_succ {card : Nat → Nat} {sets : List (List Nat)} {m : Nat} {s : List Nat} (hs : sets[m]? = some s) :
    groupOff card sets (m + 1) = groupOff card sets m + (s.map card).prod := by
  have hm : m < (groupDims card sets).length := by
    simp only [groupDims, List.length_map]
    exact (List.getElem?_eq_some_iff.1 hs).1
  unfold groupOff
  rw [take_sum_succ _ hm]
  congr 1
  have : (groupDims card sets)[m]? = some (s.map card).prod := by simp [groupDims, hs]
  rw [List.getElem?_eq_getElem hm] at this
  exact Option.some.inj this

theorem groupOff_mono {card : Nat → Nat} {sets : List (List Nat)} {m m' : Nat} (h : m ≤ m') :
    groupOff card sets m ≤ groupOff card sets m' := by
  induction h with
  | refl => exact Nat.le_refl _
  | step h ih =>
    refine Nat.le_trans ih ?_
    unfold groupOff
    rw [List.take_add_one, List.sum_append]
    omega

theorem groupOff_all (card : Nat → Nat) (sets : List (List Nat)) : groupOff card sets sets.length = (groupDims card sets).sum := by
  unfold groupOff
  rw [List.take_of_length_le (by simp [groupDims])]

theorem groupZ_lt {card : Nat → Nat} {sets : List (List Nat)} {r : Assignment} {i : Nat} {s : List Nat} (hs : sets[i]? = some s)
    (hr : InRange card s r) : groupZ card sets (r, i) < groupOff card sets (i + 1) := by
  unfold groupZ
  rw [groupOff_succ hs]
  have := zOf_lt hr
  simp only [List.getD_eq_getElem?_getD, hs, Option.getD_some]
  omega

theorem mem_groupItems {rows : List Assignment} {size : Nat} {p : Assignment × Nat} :
    p ∈ groupItems rows size ↔ p.1 ∈ rows ∧ p.2 < size := by
  unfold groupItems
  simp only [List.mem_flatMap, List.mem_map, List.mem_range]
  constructor
  · rintro ⟨r, hr, i, hi, rfl⟩; exact ⟨hr, hi⟩
  · rintro ⟨h1, h2⟩; exact ⟨p.1, h1, p.2, h2, rfl⟩

theorem counts3DGroup_eq {card : Nat → Nat} {cols : List (List Nat)} {rows : List Assignment} {x y : Nat} {sets : List (List Nat)}
    {depth : Nat} (hne : sets ≠ []) (hd : 0 < depth) (hu : Uniform sets depth) (h : ColsFor card cols rows (sets.flatten ++ [x, y])) :
    counts3DGroup cols rows.length (card x) (card y) x y (sets.flatten.map card) sets.flatten sets.length =
      .ok (margTables (groupItems rows sets.length) (fun p => p.1 x) (fun p => p.1 y) (groupZ card sets) (card x) (card y)
          (groupDims card sets).sum, groupDims card sets, tab sets.length (groupOff card sets)) := by
  have hs0 := List.length_pos_iff.2 hne
  have hX : ∀ p ∈ groupItems rows sets.length, p.1 x < card x := fun p hp => h.lt p.1 (mem_groupItems.1 hp).1 x (by simp)
  have hY : ∀ p ∈ groupItems rows sets.length, p.1 y < card y := fun p hp => h.lt p.1 (mem_groupItems.1 hp).1 y (by simp)
  have hZ : ∀ p ∈ groupItems rows sets.length, groupZ card sets p < (groupDims card sets).sum := by
    rintro ⟨r, i⟩ hp
    obtain ⟨h1, h2⟩ := mem_groupItems.1 hp
    have h3 : sets[i]? = some sets[i] := List.getElem?_eq_getElem h2
    refine Nat.lt_of_lt_of_le (groupZ_lt h3 ?_) ?_
    · intro v hv
      exact h.lt r h1 v (by
        simp only [List.mem_append, List.mem_flatten]
        exact Or.inl ⟨sets[i], List.getElem_mem _, hv⟩)
    · rw [← groupOff_all]; exact groupOff_mono (show i + 1 ≤ sets.length from h2)
  have hdl : (groupDims card sets).length = sets.length := by simp [groupDims]
  unfold counts3DGroup
  rw [if_neg (by omega)]
  simp only
  rw [show (sets.flatten.map card).length / sets.length = depth by
    rw [List.length_map, hu.length, Nat.mul_div_cancel_left _ hs0]]
  have hcl := cumLevelsGroup_groupCum hd (hu.map card)
  rw [List.length_map] at hcl
  rw [show sets.flatten.map card = (sets.map (List.map card)).flatten from List.map_flatten, hcl, ok_bind]
  simp only
  rw [show (sets.map (List.map card)).map List.prod = groupDims card sets by simp [groupDims, Function.comp_def]]
  have hcd := cumDims_eq (dimz := groupDims card sets) (by omega)
  rw [hdl] at hcd
  rw [hcd, ok_bind]
  simp only
  have hc : countLevelGroup cols rows.length (card x) (card y) x y sets.flatten (groupCum (sets.map (List.map card)) depth) depth sets.length
      (tab sets.length (fun m => ((groupDims card sets).take m).sum)) (Counts.zero (card x) (card y) (groupDims card sets).sum).n =
      .ok (tab ((groupDims card sets).sum * card x * card y) (fun c => (groupItems rows sets.length).countP
        (fun p => itemPos (fun p : Assignment × Nat => p.1 x) (fun p => p.1 y) (groupZ card sets) (card x) (card y) p = c))) := by
    unfold countLevelGroup
    rw [foldlM_rows (g := fun n r => (List.range sets.length).foldlM (fun n i =>
      incr n (itemPos (fun p : Assignment × Nat => p.1 x) (fun p => p.1 y) (groupZ card sets) (card x) (card y) (r, i))) n)]
    · refine (foldlM_pairs (f := fun n (p : Assignment × Nat) =>
        incr n (itemPos (fun p : Assignment × Nat => p.1 x) (fun p => p.1 y) (groupZ card sets) (card x) (card y) p))).trans ?_
      simp only [Counts.zero]
      rw [replicate_eq_tab, incr_items (items := rows.flatMap (fun r => (List.range sets.length).map (fun i => (r, i))))
        (t := itemPos (fun p : Assignment × Nat => p.1 x) (fun p => p.1 y) (groupZ card sets) (card x) (card y))
        (fun p hp => pos_lt (hZ p hp) (hX p hp) (hY p hp)) (fun _ _ _ => rfl)]
      simp only [Nat.zero_add, groupItems]
    · intro n k r hr
      rw [h.get x (by simp) k r hr, ok_bind, h.get y (by simp) k r hr, ok_bind]
      apply foldlM_congr
      intro n i hi
      have hi' : i < sets.length := by simpa using hi
      have hsi : sets[i]? = some sets[i] := List.getElem?_eq_getElem hi'
      rw [zIndexGroup_eq hu hsi, ok_bind, rd_tab hi', ok_bind]
      · congr 1
        simp only [itemPos, groupZ, groupOff, List.getD_eq_getElem?_getD, hsi, Option.getD_some]
        ring
      · intro v hv
        apply h.get v _ k r hr
        simp only [List.mem_append, List.mem_flatten]
        exact Or.inl ⟨sets[i], List.getElem_mem _, hv⟩
  rw [hc, ok_bind]
  have hm0 := margState_zero (is := groupItems rows sets.length) (X := fun p => p.1 x) (Y := fun p => p.1 y) (Z := groupZ card sets)
    (dx := card x) (dy := card y) (D := (groupDims card sets).sum)
  simp only at hm0
  rw [← hm0]
  have hfill : fillMarginalsGroup (card x) (card y) sets.length (groupDims card sets) (tab sets.length (fun m => ((groupDims card sets).take m).sum))
      (margState (groupItems rows sets.length) (fun p => p.1 x) (fun p => p.1 y) (groupZ card sets) (card x) (card y)
        (groupDims card sets).sum 0) = .ok (margTables (groupItems rows sets.length) (fun p => p.1 x) (fun p => p.1 y) (groupZ card sets)
          (card x) (card y) (groupDims card sets).sum) := by
    rw [← margState_end hX hY hZ]
    unfold fillMarginalsGroup
    have outer := foldlM_range_eq (n := sets.length)
      (s := fun m => margState (groupItems rows sets.length) (fun p => p.1 x) (fun p => p.1 y) (groupZ card sets) (card x) (card y)
        (groupDims card sets).sum (groupOff card sets m * card x * card y))
      (f := fun t m => do
        let d ← rd (groupDims card sets) m
        let o ← rd (tab sets.length (fun m => ((groupDims card sets).take m).sum)) m
        (List.range d).foldlM (fun t k =>
          (List.range (card x)).foldlM (fun t i =>
            (List.range (card y)).foldlM (fun t j => do
              let c ← rd t.n (k * card x * card y + i * card y + j + o * card x * card y)
              let ni ← addAt t.ni (k * card x + i + o * card x) c
              let nj ← addAt t.nj (k * card y + j + o * card y) c
              let nk ← addAt t.nk (k + o) c
              return { t with ni := ni, nj := nj, nk := nk }) t) t) t) ?_
    · rw [groupOff_all] at outer
      refine Eq.trans ?_ outer
      simp [groupOff]
    · intro m hm
      have hsm : sets[m]? = some sets[m] := List.getElem?_eq_getElem hm
      rw [rd_ok (a := (sets[m].map card).prod) (by simp [groupDims, hsm]), ok_bind, rd_tab hm, ok_bind]
      rw [groupOff_succ hsm]
      have mid := foldlM_range_eq (n := (sets[m].map card).prod)
        (s := fun k => margState (groupItems rows sets.length) (fun p => p.1 x) (fun p => p.1 y) (groupZ card sets) (card x) (card y)
          (groupDims card sets).sum ((groupOff card sets m + k) * card x * card y))
        (f := fun t k =>
          (List.range (card x)).foldlM (fun t i =>
            (List.range (card y)).foldlM (fun t j => do
              let c ← rd t.n (k * card x * card y + i * card y + j + ((groupDims card sets).take m).sum * card x * card y)
              let ni ← addAt t.ni (k * card x + i + ((groupDims card sets).take m).sum * card x) c
              let nj ← addAt t.nj (k * card y + j + ((groupDims card sets).take m).sum * card y) c
              let nk ← addAt t.nk (k + ((groupDims card sets).take m).sum) c
              return { t with ni := ni, nj := nj, nk := nk }) t) t) ?_
      · exact mid
      · intro k hk
        rw [← Nat.add_assoc]
        apply marg_inner hX hY
        · have := groupOff_succ (card := card) hsm
          have h2 := groupOff_mono (card := card) (sets := sets) (show m + 1 ≤ sets.length from hm)
          rw [groupOff_all] at h2
          omega
        · intro t i _ j _
          have e : ((groupDims card sets).take m).sum = groupOff card sets m := rfl
          rw [e]
          generalize groupOff card sets m = o
          rw [show k * card x * card y + i * card y + j + o * card x * card y = ((o + k) * card x + i) * card y + j by ring,
            show k * card x + i + o * card x = (o + k) * card x + i by ring,
            show k * card y + j + o * card y = (o + k) * card y + j by ring, Nat.add_comm k o]
  rw [hfill, ok_bind]
  rfl

/-- The `m`-th block of a group's table counts what the table of the `m`-th set alone counts. -/
theorem groupItems_count {card : Nat → Nat} {sets : List (List Nat)} {rows : List Assignment} {m k : Nat} {s : List Nat}
    (hs : sets[m]? = some s) (hk : k < (s.map card).prod) (hr : ∀ r ∈ rows, InRange card sets.flatten r) (Q : Assignment → Bool) :
    (groupItems rows sets.length).countP (fun p => groupZ card sets p = k + groupOff card sets m ∧ Q p.1 = true) =
      rows.countP (fun r => zOf card s r = k ∧ Q r = true) := by
  have hm : m < sets.length := (List.getElem?_eq_some_iff.1 hs).1
  have key : ∀ r ∈ rows, ∀ i < sets.length, (groupZ card sets (r, i) = k + groupOff card sets m ↔ i = m ∧ zOf card s r = k) := by
    intro r hr' i hi
    have hsi : sets[i]? = some sets[i] := List.getElem?_eq_getElem hi
    have hin : InRange card sets[i] r := fun v hv => hr r hr' v (List.mem_flatten.2 ⟨_, List.getElem_mem _, hv⟩)
    have hlt := groupZ_lt hsi hin
    have hge : groupOff card sets i ≤ groupZ card sets (r, i) := Nat.le_add_left _ _
    constructor
    · intro e
      have him : i = m := by
        rcases Nat.lt_trichotomy i m with h | h | h
        · have := groupOff_mono (card := card) (sets := sets) (show i + 1 ≤ m from h)
          omega
        · exact h
        · have h1 := groupOff_mono (card := card) (sets := sets) (show m + 1 ≤ i from h)
          rw [groupOff_succ hs] at h1
          omega
      subst him
      refine ⟨rfl, ?_⟩
      unfold groupZ at e
      simp only [List.getD_eq_getElem?_getD, hs, Option.getD_some] at e
      omega
    · rintro ⟨rfl, e⟩
      unfold groupZ
      simp only [List.getD_eq_getElem?_getD, hs, Option.getD_some, e]
  have one : ∀ (n : Nat) (b : Bool), (List.range n).countP (fun i => decide (i = m) && b) = if m < n ∧ b = true then 1 else 0 := by
    intro n b
    induction n with
    | zero => simp
    | succ n ih =>
      rw [List.range_succ, List.countP_append, ih, List.countP_singleton]
      cases b
      · simp
      · by_cases e : n = m
        · subst e; simp
        · by_cases e2 : m < n
          · simp [e, e2]; omega
          · have : ¬ m < n + 1 := by omega
            simp [e, e2, this]
  have gen : ∀ rows : List Assignment, (∀ r ∈ rows, ∀ i < sets.length, (groupZ card sets (r, i) = k + groupOff card sets m ↔ i = m ∧ zOf card s r = k)) →
      (groupItems rows sets.length).countP (fun p => groupZ card sets p = k + groupOff card sets m ∧ Q p.1 = true) =
      rows.countP (fun r => zOf card s r = k ∧ Q r = true) := by
    intro rows
    induction rows with
    | nil => intro _; rfl
    | cons r rows ih =>
      intro hkey
      unfold groupItems at ih ⊢
      rw [List.flatMap_cons, List.countP_append, ih (fun r' hr' => hkey r' (by simp [hr'])), List.countP_cons, List.countP_map, Nat.add_comm]
      congr 1
      rw [show (List.range sets.length).countP ((fun p : Assignment × Nat => decide (groupZ card sets p = k + groupOff card sets m ∧ Q p.1 = true)) ∘
          fun i => (r, i)) = (List.range sets.length).countP (fun i => decide (i = m) && decide (zOf card s r = k ∧ Q r = true)) from ?_]
      · rw [one]
        simp [hm]
      · apply List.countP_congr
        intro i hi
        have := hkey r (by simp) i (by simpa using hi)
        simp only [Function.comp, this, decide_eq_true_eq, Bool.and_eq_true]
        exact and_assoc
  exact gen rows key

end FastPGM
