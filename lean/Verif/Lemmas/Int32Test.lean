import Verif.Lemmas.Int32
import Verif.Lemmas.CellTable3
import Verif.Model.Int32Test

/-!
Helper lemmas for `Verif.Model.Int32Test`.
-/

namespace FastPGM

open Spec

theorem cumLevelsGroup32_ok {dimss : List (List Nat)} {depth : Nat} (hd : 0 < depth) (h1 : depth ≠ 1) (h : Uniform dimss depth)
    (hp : ∀ s ∈ dimss, ∀ d ∈ s, 0 < d) (hm : ∀ s ∈ dimss, s.prod ≤ intMax) :
    cumLevelsGroup32 dimss.flatten depth dimss.length =
      .ok (tab (dimss.length * depth) (fun p => groupLevel dimss p depth), dimss.map List.prod) := by
  unfold cumLevelsGroup32
  rw [if_neg h1, h.length, replicate_eq_tab]
  have key := foldlM_range_eq (n := dimss.length)
    (s := fun j => (tab (dimss.length * depth) (fun p => if p / depth < j then groupLevel dimss p depth else 0), (dimss.take j).map List.prod))
    (f := fun (st : List Nat × List Nat) j => do
      let cum ← (if (j + 1) * depth = 0 then .error .ub else wr st.1 ((j + 1) * depth - 1) 1)
      let cum ← (List.range (depth - 1)).reverse.foldlM (fun c i => do
        let a ← rd c (j * depth + i + 1)
        let d ← rd dimss.flatten (j * depth + i + 1)
        let e ← mul32 a d
        wr c (j * depth + i) e) cum
      let a ← rd cum (j * depth)
      let d ← rd dimss.flatten (j * depth)
      let e ← mul32 a d
      return (cum, st.2 ++ [e])) ?_
  · refine Eq.trans ?_ (key.trans ?_)
    · simp
    · congr 2
      · apply tab_congr
        intro p hp
        rw [if_pos (by rw [Nat.div_lt_iff_lt_mul hd]; exact hp)]
      · simp
  · intro j hj
    have hsj : dimss[j]? = some dimss[j] := List.getElem?_eq_getElem hj
    have hlj : dimss[j].length = depth := h _ (List.getElem_mem _)
    have hjd : (j + 1) * depth = j * depth + depth := Nat.succ_mul _ _
    have hle : (j + 1) * depth ≤ dimss.length * depth := Nat.mul_le_mul_right _ hj
    have hget : ∀ i < depth, rd dimss.flatten (j * depth + i) = .ok (dimss[j].getD i 0) := by
      intro i hi
      apply rd_ok
      rw [h.get hsj hi]
      simp [hlj, hi]
    have hgl : ∀ i < depth, groupLevel dimss (j * depth + i) depth = (dimss[j].drop (i + 1)).prod := by
      intro i hi
      unfold groupLevel
      rw [(divMod_eq hi).1, (divMod_eq hi).2]
      simp [hj]
    have hdrop : ∀ i, (dimss[j].drop i).prod ≤ intMax := fun i => by
      refine Nat.le_trans ?_ (hm _ (List.getElem_mem hj))
      have := prod_sublist (card := id) (List.drop_sublist i dimss[j]) (hp _ (List.getElem_mem hj))
      simpa using this
    rw [if_neg (by omega), wr_tab (by omega), ok_bind]
    have inner := foldlM_range_rev (n := depth - 1)
      (s := fun i => tab (dimss.length * depth) (fun p => if p / depth < j ∨ (p / depth = j ∧ i ≤ p % depth) then groupLevel dimss p depth else 0))
      (f := fun c i => do
        let a ← rd c (j * depth + i + 1)
        let d ← rd dimss.flatten (j * depth + i + 1)
        let e ← mul32 a d
        wr c (j * depth + i) e) ?_
    · rw [show tab (dimss.length * depth) (fun j_1 => if j_1 = (j + 1) * depth - 1 then 1
          else if j_1 / depth < j then groupLevel dimss j_1 depth else 0) =
          tab (dimss.length * depth) (fun p => if p / depth < j ∨ (p / depth = j ∧ depth - 1 ≤ p % depth) then groupLevel dimss p depth else 0)
          from ?_]
      · rw [inner, ok_bind, rd_tab (by omega), ok_bind]
        have := hget 0 hd
        rw [Nat.add_zero] at this
        have e0 := (divMod_eq (j := j) hd)
        rw [Nat.add_zero] at e0
        have g0 := hgl 0 hd
        rw [Nat.add_zero] at g0
        have hprod : (dimss[j].drop (0 + 1)).prod * dimss[j].getD 0 0 = dimss[j].prod := by
          obtain ⟨d, ds, hds⟩ := List.exists_cons_of_length_pos (show 0 < dimss[j].length by omega)
          rw [hds]
          simp [Nat.mul_comm]
        rw [this, ok_bind, if_pos (by omega), g0, mul32_ok (by rw [hprod]; exact hm _ (List.getElem_mem hj)), ok_bind]
        show Except.ok _ = Except.ok _
        congr 2
        · apply tab_congr
          intro p _
          have : (p / depth < j ∨ p / depth = j ∧ 0 ≤ p % depth) ↔ p / depth < j + 1 := by omega
          simp only [this]
        · rw [List.take_add_one, hsj, List.map_append, hprod]
          simp only [Option.toList_some, List.map_cons, List.map_nil]
      · apply tab_congr
        intro p hp
        by_cases e : p = (j + 1) * depth - 1
        · have e' : p = j * depth + (depth - 1) := by omega
          have hdm := divMod_eq (j := j) (show depth - 1 < depth by omega)
          rw [if_pos e, e', hdm.1, hdm.2, if_pos (by omega), hgl _ (by omega)]
          rw [List.drop_of_length_le (by omega)]
          rfl
        · rw [if_neg e]
          have : (p / depth < j ∨ p / depth = j ∧ depth - 1 ≤ p % depth) ↔ p / depth < j := by
            constructor
            · rintro (h | ⟨h2, h3⟩)
              · exact h
              · exfalso
                apply e
                have h4 := Nat.div_add_mod p depth
                have h5 := Nat.mod_lt p hd
                rw [h2, Nat.mul_comm] at h4
                omega
            · exact Or.inl
          simp only [this]
    · intro i hi
      have hdm := divMod_eq (j := j) (show i + 1 < depth by omega)
      have hdm0 := divMod_eq (j := j) (show i < depth by omega)
      have hg1 := hget (i + 1) (by omega)
      rw [← Nat.add_assoc] at hg1 hdm
      have hgl1 := hgl (i + 1) (by omega)
      rw [← Nat.add_assoc] at hgl1
      have hstep : (dimss[j].drop (i + 1 + 1)).prod * dimss[j].getD (i + 1) 0 = (dimss[j].drop (i + 1)).prod := by
        rw [drop_prod_succ dimss[j] (show i + 1 < dimss[j].length by omega)]
        simp [List.getElem?_eq_getElem (show i + 1 < dimss[j].length by omega)]
      rw [rd_tab (by omega), ok_bind, hg1, ok_bind, if_pos (by omega), hgl1, mul32_ok (by rw [hstep]; exact hdrop _), ok_bind, wr_tab (by omega)]
      congr 1
      apply tab_congr
      intro p hp
      by_cases e : p = j * depth + i
      · rw [if_pos e, e, hdm0.1, hdm0.2, if_pos (by omega), hgl i (by omega), hstep]
      · rw [if_neg e]
        have : (p / depth < j ∨ p / depth = j ∧ i + 1 ≤ p % depth) ↔ (p / depth < j ∨ p / depth = j ∧ i ≤ p % depth) := by
          constructor
          · rintro (h | ⟨h2, h3⟩)
            · exact Or.inl h
            · exact Or.inr ⟨h2, by omega⟩
          · rintro (h | ⟨h2, h3⟩)
            · exact Or.inl h
            · refine Or.inr ⟨h2, ?_⟩
              have h4 := Nat.div_add_mod p depth
              rw [h2, Nat.mul_comm] at h4
              omega
        simp only [this]

theorem cumDims32_ok {dimz : List Nat} (h : 0 < dimz.length) (hm : dimz.sum ≤ intMax) :
    cumDims32 dimz dimz.length = .ok (tab dimz.length (fun m => (dimz.take m).sum), dimz.sum) := by
  have hle : ∀ m, (dimz.take m).sum ≤ intMax := fun m => by
    have := List.take_append_drop m dimz
    have h2 : (dimz.take m).sum + (dimz.drop m).sum = dimz.sum := by rw [← List.sum_append, this]
    omega
  unfold cumDims32
  rw [replicate_eq_tab, wr_tab h, ok_bind]
  have key := foldlM_range_eq (n := dimz.length - 1)
    (s := fun i => tab dimz.length (fun m => if m ≤ i then (dimz.take m).sum else 0))
    (f := fun c i => do
      let a ← rd c i
      let d ← rd dimz i
      let e ← add32 a d
      wr c (i + 1) e) ?_
  · rw [show tab dimz.length (fun j => if j = 0 then 0 else 0) = tab dimz.length (fun m => if m ≤ 0 then (dimz.take m).sum else 0) from ?_]
    · refine (congrArg (· >>= _) key).trans ?_
      have e1 : (dimz.take (dimz.length - 1)).sum + dimz[dimz.length - 1] = dimz.sum := by
        rw [← take_sum_succ dimz (by omega), List.take_of_length_le (by omega)]
      rw [ok_bind, rd_tab (by omega), ok_bind, rd_getElem (show dimz.length - 1 < dimz.length by omega), ok_bind, if_pos (by omega), add32_ok (by rw [e1]; exact hm), e1,
        ok_bind]
      show Except.ok _ = Except.ok _
      congr 2
      · apply tab_congr
        intro i hi
        rw [if_pos (by omega)]
    · apply tab_congr
      intro j _
      by_cases e : j = 0
      · subst e; simp
      · simp [e]
  · intro i hi
    rw [rd_tab (by omega), ok_bind, rd_getElem (show i < dimz.length by omega), ok_bind, if_pos (by omega),
      add32_ok (by rw [← take_sum_succ dimz (by omega)]; exact hle _), ok_bind, wr_tab (by omega)]
    congr 1
    apply tab_congr
    intro j _
    by_cases e : j = i + 1
    · subst e
      rw [if_pos rfl, if_pos (by omega), take_sum_succ dimz (by omega)]
    · rw [if_neg e]
      by_cases e2 : j ≤ i
      · rw [if_pos e2, if_pos (by omega)]
      · rw [if_neg e2, if_neg (by omega)]


theorem cumLevelsGroup32_orUb (condDims : List Nat) (depth size : Nat) : OrUb (cumLevelsGroup32 condDims depth size) (cumLevelsGroup condDims depth size) := by
  unfold cumLevelsGroup32 cumLevelsGroup
  split
  · exact OrUb.refl _
  · refine OrUb.foldlM (fun st j => (OrUb.refl _).bind fun c => ?_)
    refine OrUb.bind (OrUb.foldlM fun c i => (OrUb.refl _).bind fun a => (OrUb.refl _).bind fun d => orUb_mul (OrUb.refl _)) fun c => ?_
    exact (OrUb.refl _).bind fun a => (OrUb.refl _).bind fun d => orUb_mul (OrUb.refl _)

theorem orUb_add {β : Type} {a b : Nat} {f : Nat → Except Fault β} {c : Except Fault β} (h : OrUb (f (a + b)) c) :
    OrUb (add32 a b >>= f) c := by
  unfold add32
  split
  · exact h
  · exact Or.inl rfl

theorem cumDims32_orUb (dimz : List Nat) (size : Nat) : OrUb (cumDims32 dimz size) (cumDims dimz size) := by
  unfold cumDims32 cumDims
  refine (OrUb.refl _).bind fun c => ?_
  refine OrUb.bind (OrUb.foldlM fun c i => (OrUb.refl _).bind fun a => (OrUb.refl _).bind fun d => orUb_add (OrUb.refl _)) fun c => ?_
  exact (OrUb.refl _).bind fun a => (OrUb.refl _).bind fun d => orUb_add (OrUb.refl _)

theorem cumLevelsGroup32_groupCum {dimss : List (List Nat)} {depth : Nat} (hd : 0 < depth) (h : Uniform dimss depth)
    (hp : ∀ s ∈ dimss, ∀ d ∈ s, 0 < d) (hm : ∀ s ∈ dimss, s.prod ≤ intMax) :
    cumLevelsGroup32 dimss.flatten depth dimss.length = .ok (groupCum dimss depth, dimss.map List.prod) := by
  unfold groupCum
  by_cases h1 : depth = 1
  · subst h1
    rw [if_pos rfl, ← cumLevelsGroup_one h]
    rfl
  · rw [if_neg h1]; exact cumLevelsGroup32_ok hd h1 h hp hm

theorem zIndexGroup32_eq {cols : List (List Nat)} {card : Nat → Nat} {sets : List (List Nat)} {depth k i : Nat} {r : Assignment}
    {s : List Nat} (hu : Uniform sets depth) (hs : sets[i]? = some s) (h : ∀ v ∈ s, cell cols v k = .ok (r v))
    (hm : zOf card s r ≤ intMax) :
    zIndexGroup32 cols sets.flatten (groupCum (sets.map (List.map card)) depth) depth i k = .ok (zOf card s r) := by
  have hsl : s.length = depth := hu s (List.mem_of_getElem? hs)
  have hil : i < sets.length := (List.getElem?_eq_some_iff.1 hs).1
  unfold zOf at hm
  unfold zIndexGroup32 groupCum zOf
  by_cases h1 : depth = 1
  · subst h1
    rw [if_pos rfl]
    obtain ⟨v, rfl⟩ := List.length_eq_one_iff.1 hsl
    have := hu.get hs (i := 0) (by omega)
    rw [rd_ok (a := v) (by simpa using this), ok_bind, h v (by simp)]
    simp [rank]
  · have hsum : rank (s.map card) (s.map r) = 0 + ((List.range depth).map (fun j => (r (s.getD j 0)) * (((s.map card).drop (j + 1)).prod))).sum := by
      rw [rank_eq_sum, hsl]; simp
    rw [if_neg h1, if_neg h1, hsum, sum_loop32 (g := fun j => (r (s.getD j 0)) * (((s.map card).drop (j + 1)).prod)) (by rw [← hsum]; exact hm)]
    intro z j hj hb
    have hjs : j < s.length := by omega
    have hle : (i + 1) * depth ≤ sets.length * depth := Nat.mul_le_mul_right _ hil
    rw [Nat.succ_mul] at hle
    have hsi : sets[i] = s := by
      rw [List.getElem?_eq_getElem hil] at hs
      exact Option.some.inj hs
    have hlev : groupLevel (sets.map (List.map card)) (i * depth + j) depth = (((s.map card).drop (j + 1)).prod) := by
      unfold groupLevel
      rw [(divMod_eq hj).1, (divMod_eq hj).2]
      simp [hil, hsi]
    have hg : s.getD j 0 = s[j] := by simp [List.getElem?_eq_getElem hjs]
    rw [hg] at hb ⊢
    rw [rd_ok (a := s[j]) (by rw [hu.get hs hj]; simp [hjs]), ok_bind, h _ (List.getElem_mem _), ok_bind,
      rd_tab (by rw [List.length_map]; omega), ok_bind, hlev, mul32_ok (by omega), ok_bind, add32_ok hb]

theorem offXY32_ok {dimx dimy D o : Nat} (hy : 0 < dimy) (ho : o ≤ D) (h : D * dimx * dimy ≤ intMax) :
    offXY32 dimx dimy o = .ok (o * dimx * dimy) := by
  have h1 : o * dimx ≤ o * dimx * dimy := Nat.le_mul_of_pos_right _ hy
  have h2 : o * dimx * dimy ≤ D * dimx * dimy := Nat.mul_le_mul_right _ (Nat.mul_le_mul_right _ ho)
  unfold offXY32
  rw [mul32_ok (by omega), ok_bind, mul32_ok (by omega)]

theorem cellIndexGroup32_ok {dimx dimy D o z x y : Nat} (hz : o + z < D) (hx : x < dimx) (hy : y < dimy)
    (h : D * dimx * dimy ≤ intMax) :
    cellIndexGroup32 dimx dimy o z x y = .ok (z * dimx * dimy + x * dimy + y + o * dimx * dimy) := by
  have h1 := pos_lt hz hx hy
  rw [show ((o + z) * dimx + x) * dimy + y = z * dimx * dimy + x * dimy + y + o * dimx * dimy by ring] at h1
  unfold cellIndexGroup32
  rw [cellIndex32_ok (show z < D by omega) hx hy h, ok_bind, offXY32_ok (D := D) (by omega) (by omega) h, ok_bind, add32_ok (by omega)]

theorem margIndex32_ok {dim D o k i : Nat} (hk : o + k < D) (hi : i < dim) (h : D * dim ≤ intMax) :
    margIndex32 dim o k i = .ok (k * dim + i + o * dim) := by
  have h1 := pos_lt2 hk hi
  rw [Nat.add_mul] at h1
  unfold margIndex32
  rw [mul32_ok (by omega), ok_bind, add32_ok (by omega), ok_bind, mul32_ok (by omega), ok_bind, add32_ok (by omega)]

theorem mem_le_sum {l : List Nat} {a : Nat} (h : a ∈ l) : a ≤ l.sum := by
  induction l with
  | nil => cases h
  | cons b l ih =>
    rw [List.sum_cons]
    rcases List.mem_cons.1 h with rfl | h
    · omega
    · have := ih h; omega

theorem counts3DGroup32_eq {card : Nat → Nat} {cols : List (List Nat)} {rows : List Assignment} {x y : Nat} {sets : List (List Nat)}
    {depth : Nat} (hne : sets ≠ []) (hd : 0 < depth) (hu : Uniform sets depth) (hp : ∀ v ∈ sets.flatten ++ [x, y], 0 < card v)
    (h : ColsFor card cols rows (sets.flatten ++ [x, y])) :
    counts3DGroup32 cols rows.length (card x) (card y) x y (sets.flatten.map card) sets.flatten sets.length =
      if (groupDims card sets).sum * card x * card y ≤ intMax then
        counts3DGroup cols rows.length (card x) (card y) x y (sets.flatten.map card) sets.flatten sets.length
      else .error .ub := by
  have hs0 := List.length_pos_iff.2 hne
  have hx := hp x (by simp)
  have hy := hp y (by simp)
  have e1 : (groupDims card sets).sum * card x ≤ (groupDims card sets).sum * card x * card y := Nat.le_mul_of_pos_right _ hy
  have e2 : (groupDims card sets).sum * card y ≤ (groupDims card sets).sum * card x * card y :=
    Nat.mul_le_mul_right _ (Nat.le_mul_of_pos_right _ hx)
  have e3 : (groupDims card sets).sum ≤ (groupDims card sets).sum * card x := Nat.le_mul_of_pos_right _ hx
  have hdl : (groupDims card sets).length = sets.length := by simp [groupDims]
  have hdep : (sets.flatten.map card).length / sets.length = depth := by
    rw [List.length_map, hu.length, Nat.mul_div_cancel_left _ hs0]
  have hcl := cumLevelsGroup_groupCum hd (hu.map card)
  rw [List.length_map] at hcl
  have hcd := cumDims_eq (dimz := groupDims card sets) (by omega)
  rw [hdl] at hcd
  have hgd : (sets.map (List.map card)).map List.prod = groupDims card sets := by simp [groupDims, Function.comp_def]
  rw [hgd] at hcl
  unfold counts3DGroup32
  rw [if_neg (by omega)]
  simp only
  rw [hdep]
  by_cases hm : (groupDims card sets).sum * card x * card y ≤ intMax
  · rw [if_pos hm]
    unfold counts3DGroup
    rw [if_neg (by omega)]
    simp only
    rw [hdep]
    rw [show sets.flatten.map card = (sets.map (List.map card)).flatten from List.map_flatten, hcl, ok_bind]
    have hcl32 := cumLevelsGroup32_groupCum hd (hu.map card) (fun s hs d hd' => by
        obtain ⟨t, ht, rfl⟩ := List.mem_map.1 hs
        obtain ⟨v, hv, rfl⟩ := List.mem_map.1 hd'
        exact hp v (List.mem_append_left _ (List.mem_flatten.2 ⟨t, ht, hv⟩))) (fun s hs => by
        have : s.prod ∈ groupDims card sets := by rw [← hgd]; exact List.mem_map_of_mem hs
        have := mem_le_sum this
        omega)
    rw [List.length_map, hgd] at hcl32
    have hcd32 := cumDims32_ok (dimz := groupDims card sets) (by omega) (by omega)
    rw [hdl] at hcd32
    rw [hcl32, ok_bind]
    simp only
    rw [hcd, hcd32, ok_bind, ok_bind]
    simp only
    rw [mul32_ok (by omega), ok_bind, mul32_ok hm, ok_bind, mul32_ok (by omega), ok_bind]
    have hoff : ∀ i < sets.length, ((groupDims card sets).take i).sum ≤ (groupDims card sets).sum := fun i hi => by
      have := groupOff_mono (card := card) (sets := sets) (show i ≤ sets.length by omega)
      rw [groupOff_all] at this
      exact this
    have hoff1 : ∀ i (hi : i < sets.length), ((groupDims card sets).take i).sum + (sets[i].map card).prod ≤ (groupDims card sets).sum := fun i hi => by
      have := groupOff_mono (card := card) (sets := sets) (show i + 1 ≤ sets.length by omega)
      rw [groupOff_all, groupOff_succ (List.getElem?_eq_getElem hi)] at this
      exact this
    congr 1
    · unfold countLevelGroup32
      rw [mapM_ok (g := fun i => ((groupDims card sets).take i).sum * card x * card y) (fun i hi => by
        have hi := List.mem_range.1 hi
        rw [rd_tab hi, ok_bind, offXY32_ok hy (hoff i hi) hm]), ok_bind]
      unfold countLevelGroup
      refine foldlM_congr (fun n k hk => ?_)
      have hk := List.mem_range.1 hk
      have hr : rows[k]? = some rows[k] := List.getElem?_eq_getElem hk
      have hmem : rows[k] ∈ rows := List.getElem_mem hk
      rw [h.get x (by simp) k _ hr, ok_bind, h.get y (by simp) k _ hr, ok_bind, ok_bind, ok_bind]
      refine foldlM_congr (fun n i hi => ?_)
      have hi := List.mem_range.1 hi
      have hsi : sets[i]? = some sets[i] := List.getElem?_eq_getElem hi
      have hin : ∀ v ∈ sets[i], v ∈ sets.flatten ++ [x, y] := fun v hv =>
        List.mem_append_left _ (List.mem_flatten.2 ⟨sets[i], List.getElem_mem _, hv⟩)
      have hzl : zOf card sets[i] rows[k] < (sets[i].map card).prod := zOf_lt (fun v hv => h.lt _ hmem v (hin v hv))
      have := hoff1 i hi
      rw [zIndexGroup_eq hu hsi (fun v hv => h.get v (hin v hv) k _ hr), ok_bind,
        zIndexGroup32_eq (card := card) (r := rows[k]) hu hsi (fun v hv => h.get v (hin v hv) k _ hr) (by omega), ok_bind, rd_tab hi, ok_bind, ok_bind,
        cellIndexGroup32_ok (D := (groupDims card sets).sum) (by omega) (h.lt _ hmem x (by simp)) (h.lt _ hmem y (by simp)) hm, ok_bind]
    · funext n
      congr 1
      unfold fillMarginalsGroup32
      rw [mapM_ok (g := fun i => (((groupDims card sets).take i).sum * card x * card y, ((groupDims card sets).take i).sum * card x,
          ((groupDims card sets).take i).sum * card y)) (fun i hi => by
        have hi := List.mem_range.1 hi
        have := hoff i hi
        have h1 : ((groupDims card sets).take i).sum * card x ≤ (groupDims card sets).sum * card x := Nat.mul_le_mul_right _ this
        have h2 : ((groupDims card sets).take i).sum * card y ≤ (groupDims card sets).sum * card y := Nat.mul_le_mul_right _ this
        rw [rd_tab hi, ok_bind, offXY32_ok hy this hm, ok_bind, mul32_ok (by omega), ok_bind, mul32_ok (by omega), ok_bind]
        rfl), ok_bind]
      unfold fillMarginalsGroup
      refine foldlM_congr (fun t m hm' => ?_)
      have hm' := List.mem_range.1 hm'
      have hsm : sets[m]? = some sets[m] := List.getElem?_eq_getElem hm'
      rw [rd_ok (a := (sets[m].map card).prod) (by simp [groupDims, hsm]), ok_bind, ok_bind, rd_tab hm', ok_bind, ok_bind]
      refine foldlM_congr (fun t k hk => foldlM_congr (fun t i hi => foldlM_congr (fun t j hj => ?_)))
      have hk := List.mem_range.1 hk
      have hi := List.mem_range.1 hi
      have hj := List.mem_range.1 hj
      have := hoff1 m hm'
      have hlt : ((groupDims card sets).take m).sum + k < (groupDims card sets).sum := by omega
      rw [cellIndexGroup32_ok hlt hi hj hm, margIndex32_ok hlt hi (by omega), margIndex32_ok hlt hj (by omega),
        add32_ok (show k + ((groupDims card sets).take m).sum ≤ intMax by omega)]
      simp only [ok_bind]
  · rw [if_neg hm]
    have o1 := cumLevelsGroup32_orUb (sets.flatten.map card) depth sets.length
    rw [show sets.flatten.map card = (sets.map (List.map card)).flatten from List.map_flatten] at o1 ⊢
    rcases o1 with o1 | o1
    · rw [o1]; rfl
    · rw [o1, hcl, ok_bind]
      simp only
      rcases cumDims32_orUb (groupDims card sets) sets.length with o2 | o2
      · rw [o2]; rfl
      · rw [o2, hcd, ok_bind]
        simp only
        by_cases h2 : (groupDims card sets).sum * card x ≤ intMax
        · rw [mul32_ok h2, ok_bind, mul32_ub hm, ub_bind]
        · rw [mul32_ub h2, ub_bind]

theorem counts2D32_eq {card : Nat → Nat} {cols : List (List Nat)} {rows : List Assignment} {x y : Nat}
    (h : ColsFor card cols rows [x, y]) :
    counts2D32 cols rows.length (card x) (card y) x y =
      if card x * card y ≤ intMax then counts2D cols rows.length (card x) (card y) x y else .error .ub := by
  unfold counts2D32
  by_cases hm : card x * card y ≤ intMax
  · rw [if_pos hm, mul32_ok hm, ok_bind]
    unfold counts2D
    congr 1
    · refine foldlM_congr (fun n k hk => ?_)
      have hk := List.mem_range.1 hk
      have hr : rows[k]? = some rows[k] := List.getElem?_eq_getElem hk
      have hmem : rows[k] ∈ rows := List.getElem_mem hk
      have := pos_lt2 (h.lt _ hmem x (by simp)) (h.lt _ hmem y (by simp))
      rw [h.get x (by simp) k _ hr, ok_bind, h.get y (by simp) k _ hr, ok_bind, ok_bind, ok_bind, mul32_ok (by omega), ok_bind,
        add32_ok (by omega), ok_bind]
    · funext n
      refine foldlM_congr (fun t i hi => foldlM_congr (fun t j hj => ?_))
      have := pos_lt2 (List.mem_range.1 hi) (List.mem_range.1 hj)
      rw [mul32_ok (by omega), ok_bind, add32_ok (by omega), ok_bind]
  · rw [if_neg hm, mul32_ub hm, ub_bind]

end FastPGM
