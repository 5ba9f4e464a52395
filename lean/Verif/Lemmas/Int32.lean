import Verif.Model.Int32
import Verif.Lemmas.Table3
import Verif.Lemmas.CellTable2
import Verif.Lemmas.NetDims

/-!
The index arithmetic in `int` agrees with the unbounded one while the sizes are representable.
-/

namespace FastPGM

open Spec

variable {K : Type}

theorem mul32_ok {a b : Nat} (h : a * b ≤ intMax) : mul32 a b = .ok (a * b) := if_pos h
theorem mul32_ub {a b : Nat} (h : ¬ a * b ≤ intMax) : mul32 a b = .error .ub := if_neg h
theorem add32_ok {a b : Nat} (h : a + b ≤ intMax) : add32 a b = .ok (a + b) := if_pos h
theorem add32_ub {a b : Nat} (h : ¬ a + b ≤ intMax) : add32 a b = .error .ub := if_neg h

theorem ub_bind {α β : Type} (f : α → Except Fault β) : ((.error .ub : Except Fault α) >>= f) = .error .ub := rfl

theorem prod_pos' {ds : List Nat} (h : ∀ d ∈ ds, 0 < d) : 0 < ds.prod := by
  induction ds with
  | nil => simp
  | cons d ds ih =>
    rw [List.prod_cons]
    exact Nat.mul_pos (h d (by simp)) (ih (fun e he => h e (by simp [he])))

theorem cumLevels32_eq {d : Nat} {ds : List Nat} (h : ∀ e ∈ ds, 0 < e) :
    cumLevels32 (d :: ds) = if ds.prod ≤ intMax then .ok (cumLevels (d :: ds)) else .error .ub := by
  induction ds generalizing d with
  | nil => rfl
  | cons e ds ih =>
    have he := h e (by simp)
    rw [cumLevels32, ih (fun x hx => h x (by simp [hx]))]
    by_cases h1 : ds.prod ≤ intMax
    · rw [if_pos h1, ok_bind, cumLevels_cons, cumLevels_cons, List.prod_cons, cumLevels_cons]
      simp only
      by_cases h2 : ds.prod * e ≤ intMax
      · rw [mul32_ok h2, ok_bind, if_pos (by rw [Nat.mul_comm]; exact h2), Nat.mul_comm]; rfl
      · rw [mul32_ub h2, ub_bind, if_neg (by rw [Nat.mul_comm]; exact h2)]
    · rw [if_neg h1, ub_bind, if_neg]
      rw [List.prod_cons]
      intro h2
      exact h1 (Nat.le_trans (Nat.le_mul_of_pos_left _ he) h2)

theorem constructCumLevels32_eq {ds : List Nat} (h : ∀ e ∈ ds, 0 < e) (hm : ds.prod ≤ intMax) :
    constructCumLevels32 ds = constructCumLevels ds := by
  unfold constructCumLevels32 constructCumLevels
  cases ds with
  | nil => rfl
  | cons d ds =>
    rw [if_neg (by simp), if_neg (by simp), cumLevels32_eq (fun x hx => h x (by simp [hx])), if_pos]
    rw [List.prod_cons] at hm
    exact Nat.le_trans (Nat.le_mul_of_pos_left _ (h d (by simp))) hm

theorem construct_first32 {ds : List Nat} (h : ∀ e ∈ ds, 0 < e) (hne : ds ≠ []) {β : Type} (k : List Nat → Nat → Except Fault β) :
    (do
      let cum ← constructCumLevels32 ds
      let size ← firstProduct32 cum ds
      k cum size) = if ds.prod ≤ intMax then k (cumLevels ds) ds.prod else .error .ub := by
  cases ds with
  | nil => exact absurd rfl hne
  | cons d ds =>
    have hd := h d (by simp)
    unfold constructCumLevels32
    rw [if_neg (by simp), cumLevels32_eq (fun x hx => h x (by simp [hx]))]
    rw [List.prod_cons]
    by_cases h1 : ds.prod ≤ intMax
    · rw [if_pos h1, ok_bind, cumLevels_cons, firstProduct32, rd_ok (a := ds.prod) (by simp), ok_bind, rd_ok (a := d) (by simp), ok_bind]
      by_cases h2 : ds.prod * d ≤ intMax
      · rw [mul32_ok h2, ok_bind, if_pos (by rw [Nat.mul_comm]; exact h2), Nat.mul_comm]
      · rw [mul32_ub h2, ub_bind, if_neg (by rw [Nat.mul_comm]; exact h2)]
    · rw [if_neg h1, ub_bind, if_neg]
      intro h2
      exact h1 (Nat.le_trans (Nat.le_mul_of_pos_left _ hd) h2)

theorem shape32_eq {ds : List Nat} (h : ∀ e ∈ ds, 0 < e) :
    shape32 ds = if ds.prod ≤ intMax then .ok (cumLevels ds, ds.prod) else .error .ub := by
  unfold shape32
  by_cases e : ds = []
  · subst e; rfl
  · rw [if_neg e]
    exact construct_first32 h e _

theorem indexFrom32_eq {config cum : List Nat} {i : Nat} (h : i + getIndex config cum ≤ intMax) :
    indexFrom32 i config cum = .ok (i + getIndex config cum) := by
  induction config generalizing cum i with
  | nil => simp [indexFrom32, getIndex]
  | cons c config ih =>
    cases cum with
    | nil => simp [indexFrom32, getIndex]
    | cons l cum =>
      have e : getIndex (c :: config) (l :: cum) = c * l + getIndex config cum := by simp [getIndex]
      rw [e] at h ⊢
      rw [indexFrom32, mul32_ok (by omega), ok_bind, add32_ok (by omega), ok_bind, ih (by omega), Nat.add_assoc]

theorem getIndex32_eq {config cum : List Nat} (h : getIndex config cum ≤ intMax) :
    getIndex32 config cum = .ok (getIndex config cum) := by
  unfold getIndex32
  rw [indexFrom32_eq (by omega), Nat.zero_add]

theorem mapM_zipIdx_rd {full loc : List Nat} {b b' : Nat} (k : Nat) (hl : ∀ l ∈ loc, b + l ≤ intMax)
    (hj : b' + (k + loc.length) ≤ intMax + 1) :
    (loc.zipIdx k).mapM (fun (l, j) => do
      let _ ← add32 b l
      let _ ← add32 b' j
      rd full l) = loc.mapM (rd full) := by
  induction loc generalizing k with
  | nil => rfl
  | cons l loc ih =>
    rw [List.zipIdx_cons, List.mapM_cons, List.mapM_cons, ih (k + 1) (fun x hx => hl x (by simp [hx])) (by
      simp at hj; omega)]
    simp only
    rw [add32_ok (hl l (by simp)), ok_bind, add32_ok (by simp at hj; omega), ok_bind]

/-- The offset `i * nv + l` of a legal position is below `n * nv`. -/
theorem offset_le {i n nv l : Nat} (hi : i < n) (hl : l < nv) (h : n * nv ≤ intMax) : i * nv + l < intMax := by
  have : i * nv + nv ≤ n * nv := by
    rw [← Nat.succ_mul]; exact Nat.mul_le_mul_right _ hi
  omega

theorem base_le {i n nv : Nat} (hi : i < n) (h : n * nv ≤ intMax) : i * nv ≤ intMax :=
  Nat.le_trans (Nat.mul_le_mul_right _ (Nat.le_of_lt hi)) h

theorem transferIndex32_eq {nv nv' n i x : Nat} {cumFrom loc cumTo : List Nat} (hi : i < n) (h1 : n * nv ≤ intMax)
    (h2 : n * nv' ≤ intMax) (hl : ∀ l ∈ loc, l < nv) (hlen : loc.length = nv')
    (hx : transferIndex cumFrom loc cumTo i = .ok x) (hxm : x ≤ intMax) :
    transferIndex32 nv nv' cumFrom loc cumTo i = transferIndex cumFrom loc cumTo i := by
  have hb : i * nv' + loc.length ≤ n * nv' := by
    rw [hlen, ← Nat.succ_mul]; exact Nat.mul_le_mul_right _ hi
  unfold transferIndex at hx ⊢
  unfold transferIndex32
  rw [mul32_ok (base_le hi h1), ok_bind, mul32_ok (base_le hi h2), ok_bind]
  cases hg : getConfig cumFrom i with
  | error e => rfl
  | ok full =>
    rw [hg, ok_bind] at hx
    rw [ok_bind, ok_bind, mapM_zipIdx_rd 0 (fun l hl' => Nat.le_of_lt (offset_le hi (hl l hl') h1)) (by omega)]
    cases hm : loc.mapM (rd full) with
    | error e => rfl
    | ok part =>
      rw [hm, ok_bind] at hx
      rw [ok_bind, ok_bind]
      injection hx with hx
      rw [getIndex32_eq (by omega)]
      rfl

theorem mapM_congr {ε α β : Type} {f g : α → Except ε β} {l : List α} (h : ∀ x ∈ l, f x = g x) : l.mapM f = l.mapM g := by
  induction l with
  | nil => rfl
  | cons x l ih => rw [List.mapM_cons, List.mapM_cons, h x (by simp), ih (fun y hy => h y (by simp [hy]))]

theorem prod_sublist {card : Nat → Nat} {l l' : List Nat} (h : l.Sublist l') (hp : ∀ v ∈ l', 0 < card v) :
    (l.map card).prod ≤ (l'.map card).prod := by
  induction h with
  | slnil => simp
  | cons a _ ih =>
    rw [List.map_cons, List.prod_cons]
    exact Nat.le_trans (ih (fun v hv => hp v (by simp [hv]))) (Nat.le_mul_of_pos_left _ (hp a (by simp)))
  | cons_cons a _ ih =>
    rw [List.map_cons, List.prod_cons, List.map_cons, List.prod_cons]
    exact Nat.mul_le_mul_left _ (ih (fun v hv => hp v (by simp [hv])))

theorem prod_subset {card : Nat → Nat} {l l' : List Nat} (hn : l.Nodup) (hs : ∀ v ∈ l, v ∈ l') (hp : ∀ v ∈ l', 0 < card v) :
    (l.map card).prod ≤ (l'.map card).prod := by
  obtain ⟨m, hm, hs'⟩ := List.subperm_of_subset hn hs
  rw [← (hm.map card).prod_eq]
  exact prod_sublist hs' hp

theorem size_le_of_space {n nv : Nat} (h : n * nv ≤ intMax) (h0 : nv = 0 → n = 1) : n ≤ intMax := by
  rcases Nat.eq_zero_or_pos nv with e | e
  · rw [h0 e]; decide
  · exact Nat.le_trans (Nat.le_mul_of_pos_right _ e) h

theorem tableMarginalization32_eq [Zero K] [Add K] {card : Nat → Nat} {T : Table K} (hT : WellFormed card T) {vs : List Nat}
    (hn : vs.Nodup) (hs : ∀ v ∈ vs, v ∈ T.vars) :
    tableMarginalization32 T vs (vs.map card) =
      if T.size * T.vars.length ≤ intMax then tableMarginalization T vs (vs.map card) else .error .ub := by
  have hp : ∀ v ∈ vs, 0 < card v := fun v hv => hT.pos v (hs v hv)
  have hle : (vs.map card).prod ≤ T.size := by
    rw [hT.size, hT.dims]; exact prod_subset hn hs hT.pos
  have hlen : vs.length ≤ T.vars.length := (List.subperm_of_subset hn hs).length_le
  unfold tableMarginalization32 tableMarginalization
  rw [shape32_eq (map_pos hp)]
  by_cases h : T.size * T.vars.length ≤ intMax
  · have hsz : T.size ≤ intMax := size_le_of_space h (fun e => by
      have : T.vars = [] := List.length_eq_zero_iff.1 e
      rw [hT.size, hT.dims, this]; rfl)
    rw [if_pos h, if_pos (Nat.le_trans hle hsz), ok_bind]
    have h2 : T.size * vs.length ≤ intMax := Nat.le_trans (Nat.mul_le_mul_left _ hlen) h
    simp only
    rw [mul32_ok h, ok_bind, mul32_ok h2, ok_bind, shapeOf_eq, ok_bind]
    rw [mapM_congr (g := transferIndex T.cum (vs.map (getVariableIndex T.vars)) (cumLevels (vs.map card)))]
    intro i hi
    have hi := List.mem_range.1 hi
    have ht := transferIndex_eq (dims := T.dims) (vs := vs) (dims' := vs.map card) (vars := T.vars)
      (by rw [hT.dims]; exact map_pos hT.pos) (by rw [hT.dims]; simp) hs i
    rw [← hT.cumEq] at ht
    refine transferIndex32_eq hi h h2 ?_ (by simp) ht ?_
    · intro l hl
      obtain ⟨v, hv, rfl⟩ := List.mem_map.1 hl
      exact List.idxOf_lt_length_of_mem (hs v hv)
    · refine Nat.le_trans (Nat.le_of_lt (rank_lt (cfgIn_map ?_))) (Nat.le_trans hle hsz)
      intro v hv
      rw [hT.dims]
      exact asgOf_lt (by rw [← hT.dims, ← hT.size]; exact hi) v (hs v hv)
  · rw [if_neg h, mul32_ub h]
    by_cases h1 : (vs.map card).prod ≤ intMax
    · rw [if_pos h1]; rfl
    · rw [if_neg h1]; rfl

theorem tableExtension32_eq {card : Nat → Nat} {T : Table K} (hT : WellFormed card T) {vs : List Nat} (hne : vs ≠ [])
    (hs : ∀ v ∈ T.vars, v ∈ vs) (hp : ∀ v ∈ vs, 0 < card v) :
    tableExtension32 T vs (vs.map card) =
      if (vs.map card).prod * vs.length ≤ intMax then tableExtension T vs (vs.map card) else .error .ub := by
  have hle : T.size ≤ (vs.map card).prod := by
    rw [hT.size, hT.dims]; exact prod_subset hT.nodup hs hp
  have hlen : T.vars.length ≤ vs.length := (List.subperm_of_subset hT.nodup hs).length_le
  have hv0 := List.length_pos_iff.2 hne
  have hd0 : vs.map card ≠ [] := by simpa using hne
  unfold tableExtension32 tableExtension
  rw [construct_first32 (map_pos hp) hd0, construct_first _ hd0]
  by_cases h : (vs.map card).prod * vs.length ≤ intMax
  · have hsz : (vs.map card).prod ≤ intMax := size_le_of_space h (fun e => by omega)
    have h2 : (vs.map card).prod * T.vars.length ≤ intMax := Nat.le_trans (Nat.mul_le_mul_left _ hlen) h
    rw [if_pos h, if_pos hsz]
    simp only
    rw [mul32_ok h, ok_bind, mul32_ok h2, ok_bind]
    rw [mapM_congr (g := transferIndex (cumLevels (vs.map card)) (T.vars.map (getVariableIndex vs)) T.cum)]
    intro i hi
    have hi := List.mem_range.1 hi
    have ht := transferIndex_eq (dims := vs.map card) (vs := T.vars) (dims' := T.dims) (vars := vs) (map_pos hp) (by simp) hs i
    rw [← hT.cumEq] at ht
    refine transferIndex32_eq hi h h2 ?_ (by simp) ht ?_
    · intro l hl
      obtain ⟨v, hv, rfl⟩ := List.mem_map.1 hl
      exact List.idxOf_lt_length_of_mem (hs v hv)
    · refine Nat.le_trans (Nat.le_of_lt ?_) (Nat.le_trans hle hsz)
      rw [hT.size, hT.dims]
      exact rank_lt (cfgIn_map (fun v hv => asgOf_lt hi v (hs v hv)))
  · rw [if_neg h, mul32_ub h]
    by_cases h1 : (vs.map card).prod ≤ intMax
    · rw [if_pos h1]; rfl
    · rw [if_neg h1]

theorem tableReduction32_eq [Zero K] {card : Nat → Nat} {T : Table K} (hT : WellFormed card T) {v : Nat} (hv : v ∈ T.vars) (x : Nat) :
    tableReduction32 T v x = if T.size * T.vars.length ≤ intMax then tableReduction T v x else .error .ub := by
  have hloc : getVariableIndex T.vars v < T.vars.length := List.idxOf_lt_length_of_mem hv
  unfold tableReduction32 tableReduction
  simp only
  by_cases h : T.size * T.vars.length ≤ intMax
  · have hsz : T.size ≤ intMax := size_le_of_space h (fun e => by omega)
    rw [if_pos h, mul32_ok h, ok_bind]
    rw [mapM_congr (g := tableReductionMain T.cum (getVariableIndex T.vars v))]
    · congr 1
      funext vi
      congr 1
      funext dim
      congr 1
      congr 1
      funext p
      congr 1
      rw [constructCumLevels32_eq]
      · intro e he
        rw [hT.dims] at he
        exact map_pos hT.pos e (List.mem_of_mem_eraseIdx he)
      · refine Nat.le_trans ?_ hsz
        rw [hT.size, hT.dims, List.eraseIdx_map]
        exact prod_sublist (List.eraseIdx_sublist _ _) hT.pos
    · intro i hi
      have hi := List.mem_range.1 hi
      unfold tableReductionMain32 tableReductionMain
      rw [mul32_ok (base_le hi h), ok_bind]
      congr 1
      funext full
      rw [add32_ok (Nat.le_of_lt (offset_le hi hloc h)), ok_bind]
  · rw [if_neg h, mul32_ub h, ub_bind]

theorem levelSums32_from (sizes : List Nat) (c : List Nat) (s : Nat) :
    sizes.foldlM (fun (st : List Nat × Nat) size => do
      let s ← add32 st.2 size
      return (st.1 ++ [st.2], s)) (c, s) =
      if sizes = [] ∨ s + sizes.sum ≤ intMax then
        .ok (c ++ tab sizes.length (fun k => s + (sizes.take k).sum), s + sizes.sum) else .error .ub := by
  induction sizes generalizing c s with
  | nil => simp [tab]
  | cons n sizes ih =>
    rw [List.foldlM_cons]
    simp only
    by_cases h : s + n ≤ intMax
    · rw [add32_ok h, ok_bind, pure_eq_ok, ok_bind, ih]
      by_cases h2 : s + n + sizes.sum ≤ intMax
      · rw [if_pos (Or.inr h2), if_pos (Or.inr (by simp; omega))]
        congr 2
        · rw [List.append_assoc]
          congr 1
          simp [tab, List.range_succ_eq_map, Function.comp_def, Nat.add_assoc]
        · simp; omega
      · rw [if_neg, if_neg]
        · simp; omega
        · rintro (e | e)
          · subst e; simp at h2; omega
          · exact h2 e
    · rw [add32_ub h, ub_bind, ub_bind, if_neg]
      simp; omega

theorem levelSums32_eq (sizes : List Nat) :
    levelSums32 sizes = if sizes.sum ≤ intMax then .ok (tab sizes.length (fun k => (sizes.take k).sum), sizes.sum) else .error .ub := by
  unfold levelSums32
  rw [levelSums32_from]
  by_cases h : sizes.sum ≤ intMax
  · rw [if_pos h, if_pos (Or.inr (by omega))]; simp
  · rw [if_neg h, if_neg]
    rintro (e | e)
    · subst e; simp at h
    · omega

theorem mapM_or_ub {α β : Type} {f g : α → Except Fault β} {P : α → Prop} [DecidablePred P] {l : List α}
    (h : ∀ a ∈ l, f a = if P a then g a else .error .ub) (hg : ∀ a ∈ l, ∃ b, g a = .ok b) :
    l.mapM f = if ∀ a ∈ l, P a then l.mapM g else .error .ub := by
  induction l with
  | nil => simp
  | cons a l ih =>
    rw [List.mapM_cons, List.mapM_cons, h a (by simp)]
    by_cases h1 : P a
    · rw [if_pos h1, ih (fun b hb => h b (by simp [hb])) (fun b hb => hg b (by simp [hb]))]
      by_cases h2 : ∀ b ∈ l, P b
      · rw [if_pos h2, if_pos (by simpa using ⟨h1, h2⟩)]
      · obtain ⟨b, hb⟩ := hg a (by simp)
        rw [if_neg h2, if_neg (fun e => h2 (fun b hb => e b (by simp [hb]))), hb]; rfl
    · rw [if_neg h1, if_neg (fun e => h1 (e a (by simp)))]; rfl

theorem reduceNodes32_eq [Zero K] {card : Nat → Nat} {tables : List (Table K)} {v : Nat} (hT : ∀ T ∈ tables, WellFormed card T)
    (hv : ∀ T ∈ tables, v ∈ T.vars) (x : Nat) :
    reduceNodes32 tables v x =
      if (tables.map (·.size)).sum ≤ intMax ∧ ∀ T ∈ tables, T.size * T.vars.length ≤ intMax then
        tables.mapM (fun T => tableReduction T v x) else .error .ub := by
  unfold reduceNodes32
  rw [levelSums32_eq, mapM_or_ub (P := fun T : Table K => T.size * T.vars.length ≤ intMax) (g := fun T => tableReduction T v x)
    (fun T h => tableReduction32_eq (hT T h) (hv T h) x)]
  · by_cases h1 : (tables.map (·.size)).sum ≤ intMax
    · rw [if_pos h1, ok_bind]
      by_cases h2 : ∀ T ∈ tables, T.size * T.vars.length ≤ intMax
      · rw [if_pos h2, if_pos ⟨h1, h2⟩]
      · rw [if_neg h2, if_neg (fun e => h2 e.2)]
    · rw [if_neg h1, ub_bind, if_neg (fun e => h1 e.1)]
  · intro T h
    have h' := tableReduction_fromFn (hT T h).nodup (hT T h).pos (hv T h) (x := x) (value_dependsOn T)
    rw [← (hT T h).eq_fromFn] at h'
    exact ⟨_, h'⟩

/-! ### Contingency tables -/

theorem cumLevels3D32_ok {ds : List Nat} (h : ds ≠ []) (hp : ∀ d ∈ ds, 0 < d) (hm : ds.prod ≤ intMax) :
    cumLevels3D32 ds = .ok ((cumLevels ds).dropLast, ds.prod) := by
  have hl := List.length_pos_iff.2 h
  have hdrop : ∀ j, (ds.drop j).prod ≤ intMax := fun j => by
    refine Nat.le_trans ?_ hm
    have := prod_sublist (card := id) (List.drop_sublist j ds) hp
    simpa using this
  unfold cumLevels3D32
  by_cases h1 : ds.length > 1
  · rw [if_pos h1]
    simp only
    rw [rd_getElem (show ds.length - 1 < ds.length by omega), ok_bind, replicate_eq_tab, wr_tab (by omega), ok_bind]
    have key := foldlM_range_rev
      (f := fun c i => do
        let a ← rd c (i + 1)
        let d ← rd ds (i + 1)
        let e ← mul32 a d
        wr c i e)
      (s := fun i => tab (ds.length - 1) (fun j => if i ≤ j then (ds.drop (j + 1)).prod else 0)) (n := ds.length - 2) ?_
    · rw [show (tab (ds.length - 1) (fun j => if j = ds.length - 2 then ds[ds.length - 1] else 0)) =
          tab (ds.length - 1) (fun j => if ds.length - 2 ≤ j then (ds.drop (j + 1)).prod else 0) from ?_]
      · refine (congrArg (· >>= _) key).trans ?_
        have e0 : (ds.drop (0 + 1)).prod * ds[0] = ds.prod := by rw [← drop_prod_succ ds (by omega)]; simp
        rw [ok_bind, rd_tab (by omega), ok_bind, rd_getElem (show 0 < ds.length by omega), ok_bind]
        simp only [Nat.le_refl, if_true]
        rw [mul32_ok (by rw [e0]; exact hm), ok_bind]
        congr 2
        symm
        apply tab_ext
        · simp [cumLevels_length]
        · intro i hi
          rw [List.getElem?_dropLast, cumLevels_length, if_pos hi, cumLevels_get? _ _ (by omega)]
          simp
      · apply tab_congr
        intro j hj
        by_cases e : j = ds.length - 2
        · rw [if_pos e, if_pos (by omega)]
          rw [show j + 1 = ds.length - 1 by omega, List.drop_eq_getElem_cons (by omega), List.drop_of_length_le (by omega)]
          simp
        · rw [if_neg e, if_neg (by omega)]
    · intro i hi
      rw [rd_tab (by omega), ok_bind, rd_getElem (show i + 1 < ds.length by omega), ok_bind, if_pos (by omega), 
        mul32_ok (by rw [← drop_prod_succ ds (by omega)]; exact hdrop _), ok_bind, wr_tab (by omega)]
      congr 1
      apply tab_congr
      intro j hj
      by_cases e : j = i
      · subst e
        rw [if_pos rfl, if_pos (by omega), ← drop_prod_succ ds (by omega)]
      · rw [if_neg e]
        by_cases e2 : i ≤ j
        · rw [if_pos e2, if_pos (by omega)]
        · rw [if_neg e2, if_neg (by omega)]
  · rw [if_neg h1]
    obtain ⟨d, rfl⟩ := List.length_eq_one_iff.1 (show ds.length = 1 by omega)
    simp [rd, cumLevels]

/-- A run with checked arithmetic is undefined or the run with unbounded numbers. -/
def OrUb {α : Type} (a b : Except Fault α) : Prop := a = .error .ub ∨ a = b

theorem OrUb.bind {α β : Type} {a b : Except Fault α} {f g : α → Except Fault β} (h : OrUb a b) (hf : ∀ x, OrUb (f x) (g x)) :
    OrUb (a >>= f) (b >>= g) := by
  rcases h with h | h
  · exact Or.inl (by rw [h]; rfl)
  · subst h
    cases a with
    | error e => exact Or.inr rfl
    | ok x => exact hf x

theorem OrUb.refl {α : Type} (a : Except Fault α) : OrUb a a := Or.inr rfl

theorem OrUb.foldlM {α β : Type} {f g : β → α → Except Fault β} {l : List α} {b : β} (h : ∀ b x, OrUb (f b x) (g b x)) :
    OrUb (l.foldlM f b) (l.foldlM g b) := by
  induction l generalizing b with
  | nil => exact OrUb.refl _
  | cons x l ih =>
    rw [List.foldlM_cons, List.foldlM_cons]
    exact (h b x).bind (fun y => ih)

theorem orUb_mul {β : Type} {a b : Nat} {f : Nat → Except Fault β} {c : Except Fault β} (h : OrUb (f (a * b)) c) :
    OrUb (mul32 a b >>= f) c := by
  unfold mul32
  split
  · exact h
  · exact Or.inl rfl

theorem cumLevels3D32_ub {ds : List Nat} (h : ds ≠ []) (hi : ∀ d ∈ ds, d ≤ intMax) (hm : ¬ ds.prod ≤ intMax) :
    cumLevels3D32 ds = .error .ub := by
  have hl := List.length_pos_iff.2 h
  by_cases h1 : ds.length > 1
  · have h3 := cumLevels3D_eq h
    unfold cumLevels3D at h3
    unfold cumLevels3D32
    rw [if_pos h1] at h3 ⊢
    simp only at h3 ⊢
    rw [rd_getElem (show ds.length - 1 < ds.length by omega), ok_bind, replicate_eq_tab, wr_tab (by omega), ok_bind] at h3 ⊢
    obtain ⟨cum, h4, h3⟩ := bind_eq_ok h3
    obtain ⟨a, h5, h3⟩ := bind_eq_ok h3
    obtain ⟨d, h6, h3⟩ := bind_eq_ok h3
    injection h3 with h3
    injection h3 with _ h3
    have key := OrUb.foldlM (l := (List.range (ds.length - 2)).reverse)
      (b := tab (ds.length - 1) (fun j => if j = ds.length - 2 then ds[ds.length - 1] else 0))
      (f := fun c i => do
        let a ← rd c (i + 1)
        let d ← rd ds (i + 1)
        let e ← mul32 a d
        wr c i e)
      (g := fun c i => do
        let a ← rd c (i + 1)
        let d ← rd ds (i + 1)
        wr c i (a * d))
      (fun c i => (OrUb.refl _).bind (fun a => (OrUb.refl _).bind (fun d => orUb_mul (OrUb.refl _))))
    rcases key with key | key
    · exact congrArg (· >>= _) key
    · refine (congrArg (· >>= _) (key.trans h4)).trans ?_
      rw [ok_bind, h5, ok_bind, h6, ok_bind, mul32_ub (by rw [h3]; exact hm), ub_bind]
  · obtain ⟨d, rfl⟩ := List.length_eq_one_iff.1 (show ds.length = 1 by omega)
    exact absurd (hi d (by simp)) (by simpa using hm)

theorem sum_loop32 {n : Nat} {f : Nat → Nat → Except Fault Nat} {g : Nat → Nat} {z : Nat}
    (hm : z + ((List.range n).map g).sum ≤ intMax)
    (hf : ∀ z, ∀ j < n, z + g j ≤ intMax → f z j = .ok (z + g j)) :
    (List.range n).foldlM f z = .ok (z + ((List.range n).map g).sum) := by
  have e : ∀ i, ((List.range (i + 1)).map g).sum = ((List.range i).map g).sum + g i := by
    intro i
    rw [List.range_succ, List.map_append, List.sum_append]; simp
  have hs : ∀ d i, i + d = n → ((List.range i).map g).sum ≤ ((List.range n).map g).sum := by
    intro d
    induction d with
    | zero => intro i hi; rw [show i = n by omega]
    | succ d ih =>
      intro i hi
      have := ih (i + 1) (by omega)
      rw [e] at this
      omega
  have := foldlM_range_eq (f := f) (s := fun i => z + ((List.range i).map g).sum) (n := n) (fun i hi => by
    have := hs (n - (i + 1)) (i + 1) (by omega)
    rw [e] at this
    rw [hf _ i hi (by omega), e, Nat.add_assoc])
  simpa using this

theorem zIndex32_eq {cols : List (List Nat)} {card : Nat → Nat} {cond : List Nat} {k : Nat} {r : Assignment} (hne : cond ≠ [])
    (h : ∀ v ∈ cond, cell cols v k = .ok (r v)) (hm : rank (cond.map card) (cond.map r) ≤ intMax) :
    zIndex32 cols cond (cumLevels (cond.map card)).dropLast k = .ok (rank (cond.map card) (cond.map r)) := by
  have hl := List.length_pos_iff.2 hne
  unfold zIndex32
  by_cases h1 : cond.length = 1
  · rw [if_pos h1]
    obtain ⟨v, rfl⟩ := List.length_eq_one_iff.1 h1
    rw [show rd [v] 0 = .ok v from rfl, ok_bind, h v (by simp)]
    simp [rank]
  · rw [if_neg h1, rd_getElem (show cond.length - 1 < cond.length by omega), ok_bind, h _ (List.getElem_mem _), ok_bind]
    have key : r cond[cond.length - 1] + ((List.range (cond.length - 1)).map
        (fun j => (r (cond.getD j 0)) * (((cond.map card).drop (j + 1)).prod))).sum = rank (cond.map card) (cond.map r) := by
      rw [rank_eq_sum]
      conv_rhs => rw [show cond.length = (cond.length - 1) + 1 by omega, List.range_succ]
      rw [List.map_append, List.sum_append, Nat.add_comm]
      congr 1
      rw [List.map_singleton, List.sum_singleton, List.drop_of_length_le (by simp; omega)]
      simp [List.getD_eq_getElem?_getD, List.getElem?_eq_getElem (show cond.length - 1 < cond.length by omega)]
    rw [sum_loop32 (g := fun j => (r (cond.getD j 0)) * (((cond.map card).drop (j + 1)).prod)) (by rw [key]; exact hm), key]
    intro z j hj hb
    rw [rd_getElem (show j < cond.length by omega), ok_bind, h _ (List.getElem_mem _), ok_bind]
    rw [rd_ok (a := ((cond.map card).drop (j + 1)).prod)]
    · have e : cond.getD j 0 = cond[j] := by
        simp [List.getD_eq_getElem?_getD, List.getElem?_eq_getElem (show j < cond.length by omega)]
      rw [e] at hb ⊢
      rw [ok_bind, mul32_ok (by omega), ok_bind, add32_ok hb]
    · rw [List.getElem?_dropLast, cumLevels_length, List.length_map, if_pos (by omega), cumLevels_get? _ _ (by simp; omega)]

theorem cellIndex32_ok {dimx dimy dimz z x y : Nat} (hz : z < dimz) (hx : x < dimx) (hy : y < dimy)
    (h : dimz * dimx * dimy ≤ intMax) : cellIndex32 dimx dimy z x y = .ok (z * dimx * dimy + x * dimy + y) := by
  have h1 := pos_lt hz hx hy
  have h2 : z * dimx ≤ z * dimx * dimy := Nat.le_mul_of_pos_right _ (by omega)
  rw [Nat.add_mul] at h1
  unfold cellIndex32
  rw [mul32_ok (by omega), ok_bind, mul32_ok (by omega), ok_bind, mul32_ok (by omega), ok_bind, add32_ok (by omega), ok_bind,
    add32_ok (by omega)]

theorem fillMarginals32_eq {dimx dimy dimz : Nat} (t : Counts) (h : dimz * dimx * dimy ≤ intMax) :
    fillMarginals32 dimx dimy dimz t = fillMarginals dimx dimy dimz t := by
  unfold fillMarginals32 fillMarginals
  refine foldlM_congr (fun t k hk => foldlM_congr (fun t i hi => foldlM_congr (fun t j hj => ?_)))
  have hk := List.mem_range.1 hk
  have hi := List.mem_range.1 hi
  have hj := List.mem_range.1 hj
  have e1 : dimz * dimx ≤ dimz * dimx * dimy := Nat.le_mul_of_pos_right _ (by omega)
  have e2 : dimz * dimy ≤ dimz * dimx * dimy := Nat.mul_le_mul_right _ (Nat.le_mul_of_pos_right _ (by omega))
  have e3 := pos_lt2 hk hi
  have e4 := pos_lt2 hk hj
  rw [cellIndex32_ok hk hi hj h, ok_bind, mul32_ok (by omega), mul32_ok (by omega)]
  simp only [ok_bind]
  rw [add32_ok (by omega), add32_ok (by omega)]
  simp only [ok_bind]

theorem counts3D32_eq {card : Nat → Nat} {cols : List (List Nat)} {rows : List Assignment} {x y : Nat} {z : List Nat} (hz : z ≠ [])
    (hp : ∀ v ∈ z ++ [x, y], 0 < card v ∧ card v ≤ intMax)
    (h : ColsFor card cols rows (z ++ [x, y])) :
    counts3D32 cols rows.length (card x) (card y) x y (z.map card) z =
      if (z.map card).prod * card x * card y ≤ intMax then counts3D cols rows.length (card x) (card y) x y (z.map card) z
      else .error .ub := by
  have hx := (hp x (by simp)).1
  have hy := (hp y (by simp)).1
  have e1 : (z.map card).prod * card x ≤ (z.map card).prod * card x * card y := Nat.le_mul_of_pos_right _ hy
  have e2 : (z.map card).prod * card y ≤ (z.map card).prod * card x * card y :=
    Nat.mul_le_mul_right _ (Nat.le_mul_of_pos_right _ hx)
  have e3 : (z.map card).prod ≤ (z.map card).prod * card x := Nat.le_mul_of_pos_right _ hx
  have hzp : ∀ d ∈ z.map card, 0 < d := map_pos (fun v hv => (hp v (by simp [hv])).1)
  unfold counts3D32
  by_cases h1 : (z.map card).prod ≤ intMax
  · rw [cumLevels3D32_ok (by simpa using hz) hzp h1, ok_bind]
    simp only
    by_cases hm : (z.map card).prod * card x * card y ≤ intMax
    · rw [if_pos hm, mul32_ok (by omega), ok_bind, mul32_ok hm, ok_bind, mul32_ok (by omega), ok_bind]
      unfold counts3D
      rw [cumLevels3D_eq (by simpa using hz), ok_bind]
      simp only
      rw [show countLevel32 cols rows.length (card x) (card y) x y z (cumLevels (z.map card)).dropLast = 
        countLevel cols rows.length (card x) (card y) x y z (cumLevels (z.map card)).dropLast from ?_]
      · simp only [fillMarginals32_eq _ hm]
      · funext n
        unfold countLevel32 countLevel
        refine foldlM_congr (fun n k hk => ?_)
        have hk := List.mem_range.1 hk
        have hr : rows[k]? = some rows[k] := List.getElem?_eq_getElem hk
        have hmem : rows[k] ∈ rows := List.getElem_mem hk
        have hzl : zOf card z rows[k] < (z.map card).prod := zOf_lt (fun v hv => h.lt _ hmem v (by simp [hv]))
        have hzi := zIndex_eq (card := card) (r := rows[k]) hz (fun v hv => h.get v (by simp [hv]) k _ hr)
        rw [h.get x (by simp) k _ hr, ok_bind, h.get y (by simp) k _ hr, ok_bind, ok_bind, ok_bind, hzi, ok_bind,
          zIndex32_eq (r := rows[k]) hz (fun v hv => h.get v (by simp [hv]) k _ hr) (by unfold zOf at hzl; omega), ok_bind,
          cellIndex32_ok (z := rank (z.map card) (z.map rows[k])) hzl (h.lt _ hmem x (by simp)) (h.lt _ hmem y (by simp)) hm, ok_bind]
    · rw [if_neg hm]
      by_cases h2 : (z.map card).prod * card x ≤ intMax
      · rw [mul32_ok h2, ok_bind, mul32_ub hm, ub_bind]
      · rw [mul32_ub h2, ub_bind]
  · rw [cumLevels3D32_ub (by simpa using hz) _ h1, ub_bind, if_neg (by omega)]
    intro d hd
    obtain ⟨v, hv, rfl⟩ := List.mem_map.1 hd
    exact (hp v (by simp [hv])).2

end FastPGM
