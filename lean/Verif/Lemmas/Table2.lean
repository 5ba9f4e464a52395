import Verif.Lemmas.Table
import Mathlib.Data.List.Perm.Basic

/-!
Reduction, storage reorganisation, normalisation and the remaining operations on well-formed tables.
-/

namespace FastPGM

open Spec

variable {K : Type}

theorem range_mul (d m : Nat) :
    List.range (d * m) = (List.range d).flatMap (fun y => (List.range m).map (fun j => y * m + j)) := by
  induction d with
  | zero => simp
  | succ d ih =>
    rw [Nat.succ_mul, List.range_add, ih, List.range_succ, List.flatMap_append]
    simp

theorem digits_cons_add {d : Nat} {ds : List Nat} {y j : Nat} (hj : j < ds.prod) :
    digits (d :: ds) (y * ds.prod + j) = y :: digits ds j := by
  have hp : 0 < ds.prod := by omega
  rw [digits]
  rw [show (y * ds.prod + j) / ds.prod = y by
    rw [mul_comm, Nat.mul_add_div hp, Nat.div_eq_of_lt hj, Nat.add_zero],
    show (y * ds.prod + j) % ds.prod = j by
    rw [mul_comm, Nat.mul_add_mod, Nat.mod_eq_of_lt hj]]

theorem filter_flatMap_range {d m : Nat} {p : Nat → Bool} :
    (List.range (d * m)).filter p =
      (List.range d).flatMap (fun y => ((List.range m).filter (fun j => p (y * m + j))).map (fun j => y * m + j)) := by
  rw [range_mul, List.filter_flatMap]
  congr 1
  funext y
  rw [List.filter_map]
  rfl

theorem flatMap_congr' {α β : Type} {l : List α} {f g : α → List β} (h : ∀ x ∈ l, f x = g x) :
    l.flatMap f = l.flatMap g := by
  rw [List.flatMap_def, List.flatMap_def, List.map_congr_left h]

/-- The entries consistent with `e = x`, in order, are the entries of the table without `e`, in order. -/
theorem filter_digit {card : Nat → Nat} {vars : List Nat} (hn : vars.Nodup) {e x : Nat} (he : e ∈ vars)
    (hx : x < card e) :
    (List.range (vars.map card).prod).filter (fun i => asgOf vars (digits (vars.map card) i) e = x) =
      (List.range ((vars.erase e).map card).prod).map (fun j =>
        rank (vars.map card) (vars.map ((asgOf (vars.erase e) (digits ((vars.erase e).map card) j)).set e x))) := by
  induction vars with
  | nil => simp at he
  | cons v vs ih =>
    obtain ⟨hv, hvs⟩ := List.nodup_cons.1 hn
    simp only [List.map_cons, List.prod_cons]
    rw [filter_flatMap_range]
    by_cases hve : v = e
    · subst hve
      rw [List.erase_cons_head]
      have h1 : ∀ y ∈ List.range (card v),
          ((List.range (vs.map card).prod).filter (fun j =>
            decide (asgOf (v :: vs) (digits (card v :: vs.map card) (y * (vs.map card).prod + j)) v = x))).map
            (fun j => y * (vs.map card).prod + j) =
          if y = x then (List.range (vs.map card).prod).map (fun j => x * (vs.map card).prod + j) else [] := by
        intro y _
        have h2 : (List.range (vs.map card).prod).filter (fun j =>
            decide (asgOf (v :: vs) (digits (card v :: vs.map card) (y * (vs.map card).prod + j)) v = x)) =
            (List.range (vs.map card).prod).filter (fun _ => decide (y = x)) := by
          apply List.filter_congr
          intro j hj
          rw [digits_cons_add (by simpa using hj), asgOf_cons]
          simp [Assignment.set]
        rw [h2]
        by_cases hyx : y = x
        · simp [hyx]
        · simp [hyx]
      rw [flatMap_congr' h1]
      have h3 : ∀ (n : Nat), x < n → ∀ (L : List Nat),
          (List.range n).flatMap (fun y => if y = x then L else []) = L := by
        intro n
        induction n with
        | zero => intro h; omega
        | succ n ihn =>
          intro h L
          rw [List.range_succ, List.flatMap_append]
          by_cases hxn : x = n
          · subst hxn
            have : (List.range x).flatMap (fun y => if y = x then L else []) = [] := by
              rw [List.flatMap_eq_nil_iff]
              intro y hy
              have : y < x := by simpa using hy
              rw [if_neg (by omega)]
            rw [this]; simp
          · rw [ihn (by omega)]
            simp [show ¬ n = x by omega]
      rw [h3 _ hx]
      apply List.map_congr_left
      intro j hj
      have hj' : j < (vs.map card).prod := by simpa using hj
      rw [rank, map_set_of_notMem hv, map_asgOf hvs (by simp), rank_digits hj']
      simp [Assignment.set]
    · rw [List.erase_cons_tail (by simpa using hve)]
      have he' : e ∈ vs := by
        rcases List.mem_cons.1 he with h | h
        · exact absurd h.symm hve
        · exact h
      have ihs := ih hvs he'
      have hv' : v ∉ vs.erase e := fun h => hv (List.mem_of_mem_erase h)
      simp only [List.map_cons, List.prod_cons]
      rw [range_mul, List.map_flatMap]
      apply flatMap_congr'
      intro y _
      have h2 : (List.range (vs.map card).prod).filter (fun j =>
          decide (asgOf (v :: vs) (digits (card v :: vs.map card) (y * (vs.map card).prod + j)) e = x)) =
          (List.range (vs.map card).prod).filter (fun j => decide (asgOf vs (digits (vs.map card) j) e = x)) := by
        apply List.filter_congr
        intro j hj
        rw [digits_cons_add (by simpa using hj), asgOf_cons]
        simp [Assignment.set, show ¬ e = v from fun h => hve h.symm]
      rw [h2, ihs, List.map_map, List.map_map]
      apply List.map_congr_left
      intro j hj
      have hj' : j < ((vs.erase e).map card).prod := by simpa using hj
      simp only [Function.comp]
      rw [digits_cons_add hj', asgOf_cons, rank]
      congr 1
      · congr 1
        simp [Assignment.set, hve]
      · rw [set_set_comm hve, map_set_of_notMem hv]

theorem getD_idxOf_eraseIdx {card : Nat → Nat} {vars : List Nat} {e : Nat} :
    (vars.map card).eraseIdx (vars.idxOf e) = (vars.erase e).map card := by
  induction vars with
  | nil => simp
  | cons v vs ih =>
    by_cases h : v = e
    · subst h; simp
    · rw [List.idxOf_cons_ne vs h, List.erase_cons_tail (by simpa using h)]
      simp [ih]

theorem eraseIdx_idxOf {vars : List Nat} {e : Nat} : vars.eraseIdx (vars.idxOf e) = vars.erase e := by
  have := getD_idxOf_eraseIdx (card := id) (vars := vars) (e := e)
  rwa [List.map_id, List.map_id] at this

theorem prod_erase {card : Nat → Nat} {vars : List Nat} {e : Nat} (he : e ∈ vars) :
    (vars.map card).prod = card e * ((vars.erase e).map card).prod := by
  have := (List.perm_cons_erase he).map card
  rw [this.prod_eq]; simp

/-- The copying loop of the reduction keeps the selected entries, in order. -/
theorem reductionCopy_eq {n m : Nat} {v : Nat → Nat} {x : Nat} {q : Nat → K} {acc : List K} (hl : acc.length = m)
    (hc : ((List.range n).filter (fun i => v i = x)).length ≤ m) :
    reductionCopy (tab n v) x (tab n q) n acc =
      .ok (((List.range n).filter (fun i => v i = x)).map q ++
          acc.drop ((List.range n).filter (fun i => v i = x)).length,
        ((List.range n).filter (fun i => v i = x)).length) := by
  unfold reductionCopy
  have := foldlM_range_eq (ε := Fault)
    (f := fun (pj : List K × Nat) i => do
      let v ← rd (tab n v) i
      if v = x then
        let q ← rd (tab n q) i
        let p ← wr pj.1 pj.2 q
        return (p, pj.2 + 1)
      else return pj)
    (s := fun k => (((List.range k).filter (fun i => v i = x)).map q ++
          acc.drop ((List.range k).filter (fun i => v i = x)).length,
        ((List.range k).filter (fun i => v i = x)).length)) (n := n) ?_
  · rw [← this]
    simp
  · intro i hi
    rw [rd_tab hi]
    simp only [ok_bind]
    by_cases h : v i = x
    · rw [if_pos h, rd_tab hi]
      simp only [ok_bind, pure_eq_ok]
      have hlen : ((List.range i).filter (fun i => decide (v i = x))).length + 1 ≤ m := by
        refine le_trans ?_ hc
        have hs : (List.range (i + 1)).Sublist (List.range n) := List.range_sublist.2 (by omega)
        have := (hs.filter (fun i => decide (v i = x))).length_le
        rw [List.range_succ, List.filter_append] at this
        simpa [h] using this
      rw [wr_ok]
      · simp only [ok_bind]
        congr 1
        have e1 : (List.range (i + 1)).filter (fun i => decide (v i = x)) =
            (List.range i).filter (fun i => decide (v i = x)) ++ [i] := by
          rw [List.range_succ, List.filter_append]
          simp [h]
        rw [e1]
        ext1
        · simp only [List.map_append, List.length_append, List.length_singleton, List.map_cons, List.map_nil]
          rw [List.set_append_right _ _ (by simp)]
          simp only [List.length_map, Nat.sub_self, List.append_assoc, List.append_cancel_left_eq]
          rw [List.drop_eq_getElem_cons (l := acc)
            (i := ((List.range i).filter (fun i => decide (v i = x))).length) (by omega), List.set_cons_zero]
          rfl
        · simp
      · simp only [List.length_append, List.length_map, List.length_drop]
        omega
    · rw [if_neg h]
      simp only [pure_eq_ok]
      have e1 : (List.range (i + 1)).filter (fun i => decide (v i = x)) =
          (List.range i).filter (fun i => decide (v i = x)) := by
        rw [List.range_succ, List.filter_append]
        simp [h]
      rw [e1]

theorem reductionMain_loop {card : Nat → Nat} {vars : List Nat} (hp : ∀ v ∈ vars, 0 < card v) {e : Nat}
    (he : e ∈ vars) (n : Nat) :
    (List.range n).mapM (tableReductionMain (cumLevels (vars.map card)) (getVariableIndex vars e)) =
      .ok (tab n (fun i => asgOf vars (digits (vars.map card) i) e)) := by
  apply mapM_ok
  intro i _
  unfold tableReductionMain
  rw [getConfig_cumLevels (map_pos hp), ok_bind]
  have hlt : getVariableIndex vars e < (digits (vars.map card) i).length := by
    simpa [getVariableIndex] using List.idxOf_lt_length_of_mem he
  rw [rd_getElem hlt]
  unfold asgOf
  rw [List.getD_eq_getElem?_getD]
  show _ = Except.ok ((digits (vars.map card) i)[getVariableIndex vars e]?.getD 0)
  rw [List.getElem?_eq_getElem hlt]
  rfl

theorem tableReduction_fromFn [Zero K] {card : Nat → Nat} {vars : List Nat} (hn : vars.Nodup)
    (hp : ∀ v ∈ vars, 0 < card v) {e x : Nat} (he : e ∈ vars) {F : Assignment → K} (hF : DependsOn F vars) :
    tableReduction (fromFn card vars F) e x =
      .ok (fromFn card (vars.erase e) (fun a => if x < card e then F (a.set e x) else 0)) := by
  unfold tableReduction
  simp only [fromFn]
  rw [reductionMain_loop hp he, ok_bind]
  have hlt : getVariableIndex vars e < (vars.map card).length := by
    simpa [getVariableIndex] using List.idxOf_lt_length_of_mem he
  have hrd : rd (vars.map card) (getVariableIndex vars e) = .ok (card e) := by
    rw [rd_getElem hlt]
    simp [getVariableIndex]
  rw [hrd, ok_bind, if_neg (hp e he).ne']
  have hsz : (vars.map card).prod / card e = ((vars.erase e).map card).prod := by
    rw [prod_erase he, Nat.mul_div_cancel_left _ (hp e he)]
  rw [hsz]
  have hcopy : reductionCopy (tab (vars.map card).prod (fun i => asgOf vars (digits (vars.map card) i) e)) x
      (tab (vars.map card).prod (fun k => F (asgOf vars (digits (vars.map card) k)))) (vars.map card).prod
      (List.replicate ((vars.erase e).map card).prod 0) =
      .ok (tab ((vars.erase e).map card).prod (fun j =>
        if x < card e then F ((asgOf (vars.erase e) (digits ((vars.erase e).map card) j)).set e x) else 0),
        ((List.range (vars.map card).prod).filter
          (fun i => asgOf vars (digits (vars.map card) i) e = x)).length) := by
    by_cases hx : x < card e
    · have hf := filter_digit (card := card) hn he hx
      have hlen : ((List.range (vars.map card).prod).filter
          (fun i => decide (asgOf vars (digits (vars.map card) i) e = x))).length =
          ((vars.erase e).map card).prod := by
        rw [hf]; simp
      rw [reductionCopy_eq (m := ((vars.erase e).map card).prod) (by simp) (by rw [hlen]), hlen]
      congr 2
      rw [hf, List.map_map]
      simp only [List.drop_replicate, Nat.sub_self, List.replicate_zero, List.append_nil, hx, if_true]
      unfold tab
      apply List.map_congr_left
      intro j hj
      have hj' : j < ((vars.erase e).map card).prod := by simpa using hj
      simp only [Function.comp]
      apply hF
      apply asgOf_digits_rank hn
      intro v hv
      unfold Assignment.set
      split
      · rename_i h; rw [h]; exact hx
      · rename_i h
        exact asgOf_lt hj' v ((List.mem_erase_of_ne h).2 hv)
    · have hf : (List.range (vars.map card).prod).filter
          (fun i => decide (asgOf vars (digits (vars.map card) i) e = x)) = [] := by
        rw [List.filter_eq_nil_iff]
        intro i hi
        have hi' : i < (vars.map card).prod := by simpa using hi
        have := asgOf_lt hi' e he
        simp only [decide_eq_true_eq]
        omega
      rw [reductionCopy_eq (m := ((vars.erase e).map card).prod) (by simp) (by rw [hf]; simp), hf]
      simp only [hx, if_false, List.map_nil, List.nil_append, List.length_nil, List.drop_zero]
      rw [replicate_eq_tab]
  rw [hcopy]
  simp only [ok_bind]
  rw [show (vars.map card).eraseIdx (getVariableIndex vars e) = (vars.erase e).map card from getD_idxOf_eraseIdx,
    show vars.eraseIdx (getVariableIndex vars e) = vars.erase e from eraseIdx_idxOf]
  have hlen := List.length_erase_of_mem he
  change (if vars.length - 1 > 0 then _ else _) = _
  split
  · rename_i h1
    unfold constructCumLevels
    rw [if_neg]
    · rfl
    · intro h
      have := congrArg List.length h
      simp only [List.length_map, List.length_nil] at this
      omega
  · rename_i h1
    have h0 : vars.erase e = [] := List.length_eq_zero_iff.1 (by omega)
    rw [h0]
    rfl

/-! ### Moving a sub-list of the variables to the end -/

theorem reorgScan_eq {vars common : List Nat} (hn : vars.Nodup) (hs : common.Sublist vars) (i : Nat) :
    reorgScan i vars common =
      .ok ((vars.filter (fun v => v ∉ common)).map (fun v => i + vars.idxOf v),
        common.map (fun v => i + vars.idxOf v)) := by
  induction vars generalizing common i with
  | nil =>
    have : common = [] := List.sublist_nil.1 hs
    subst this
    rfl
  | cons v vs ih =>
    obtain ⟨hv, hvs⟩ := List.nodup_cons.1 hn
    have shift : ∀ (l : List Nat), (∀ w ∈ l, w ∈ vs) →
        l.map (fun w => i + 1 + vs.idxOf w) = l.map (fun w => i + (v :: vs).idxOf w) := by
      intro l hl
      apply List.map_congr_left
      intro w hw
      have : v ≠ w := fun e => hv (e ▸ hl w hw)
      rw [List.idxOf_cons_ne vs this]
      omega
    cases common with
    | nil =>
      rw [reorgScan, ih hvs (List.nil_sublist _)]
      simp only [ok_bind, pure_eq_ok]
      congr 1
      ext1
      · simp only [List.not_mem_nil, not_false_eq_true, decide_true, List.filter_true]
        rw [shift vs (fun _ h => h)]
        simp
      · rfl
    | cons c cs =>
      rw [reorgScan]
      by_cases hvc : v = c
      · subst hvc
        have hcs : cs.Sublist vs := by
          simpa using hs
        rw [if_pos rfl, ih hvs hcs]
        simp only [ok_bind, pure_eq_ok]
        congr 1
        ext1
        · simp only
          rw [List.filter_cons_of_neg (by simp)]
          rw [shift _ (fun w hw => (List.mem_filter.1 hw).1)]
          congr 1
          apply List.filter_congr
          intro w hw
          have : w ≠ v := fun e => hv (e ▸ hw)
          simp [this]
        · simp only [List.map_cons]
          rw [shift _ (fun w hw => hcs.subset hw)]
          simp
      · have hs' : (c :: cs).Sublist vs := by
          cases hs with
          | cons _ h => exact h
          | cons_cons _ h => exact absurd rfl hvc
        rw [if_neg hvc, ih hvs hs']
        simp only [ok_bind, pure_eq_ok]
        have hvcs : v ∉ c :: cs := fun h => hv (hs'.subset h)
        congr 1
        ext1
        · simp only
          rw [List.filter_cons_of_pos (by simpa using hvcs), List.map_cons,
            shift _ (fun w hw => (List.mem_filter.1 hw).1)]
          simp
        · simp only
          rw [shift _ (fun w hw => hs'.subset hw)]

theorem filter_append_perm {vars common : List Nat} (hn : vars.Nodup) (hs : common.Sublist vars) :
    vars.Perm (vars.filter (fun v => v ∉ common) ++ common) := by
  have hnc : common.Nodup := hn.sublist hs
  rw [List.perm_ext_iff_of_nodup hn]
  · intro v
    by_cases h : v ∈ common
    · simp [h, hs.subset h]
    · simp [h]
  · rw [List.nodup_append]
    refine ⟨hn.filter _, hnc, ?_⟩
    intro a ha b hb e
    subst e
    simp at ha
    exact ha.2 hb

theorem tableMoveToEnd_fromFn [Zero K] {card : Nat → Nat} {vars common : List Nat} (hn : vars.Nodup) (hne : vars ≠ [])
    (hp : ∀ v ∈ vars, 0 < card v) (hs : common.Sublist vars) {F : Assignment → K} (hF : DependsOn F vars) :
    tableMoveToEnd (fromFn card vars F) common =
      .ok (fromFn card (vars.filter (fun v => v ∉ common) ++ common) F) := by
  have hperm := filter_append_perm hn hs
  unfold tableMoveToEnd tableReorganizationPre
  have hscan : reorgScan 0 (fromFn card vars F).vars common = _ := reorgScan_eq hn hs 0
  rw [hscan]
  simp only [ok_bind, pure_eq_ok, fromFn, Nat.zero_add]
  generalize hvs : vars.filter (fun v => v ∉ common) = fl at *
  have hfl : ∀ v ∈ fl, v ∈ vars := fun v hv => hperm.mem_iff.2 (by simp [hv])
  have hcm : ∀ v ∈ common, v ∈ vars := fun v hv => hs.subset hv
  have h1 : (fl.map (fun v => vars.idxOf v)).mapM (rd vars) = .ok fl := by
    rw [mapM_ok (g := fun i => vars.getD i 0)]
    · rw [List.map_map]
      congr 1
      conv_rhs => rw [← List.map_id fl]
      apply List.map_congr_left
      intro v hv
      have := List.idxOf_lt_length_of_mem (hfl v hv)
      simp [this]
    · intro i hi
      obtain ⟨v, hv, rfl⟩ := List.mem_map.1 hi
      have := List.idxOf_lt_length_of_mem (hfl v hv)
      rw [rd_getElem this]
      simp [this]
  have h2 : ((fl.map (fun v => vars.idxOf v)) ++ common.map (fun v => vars.idxOf v)).mapM (rd (vars.map card)) =
      .ok ((fl ++ common).map card) := by
    rw [← List.map_append]
    have hmem : ∀ v ∈ fl ++ common, v ∈ vars := fun v hv => hperm.mem_iff.2 hv
    rw [mapM_ok (g := fun i => (vars.map card).getD i 0)]
    · rw [List.map_map]
      congr 1
      apply List.map_congr_left
      intro v hv
      have := List.idxOf_lt_length_of_mem (hmem v hv)
      simp [this]
    · intro i hi
      obtain ⟨v, hv, rfl⟩ := List.mem_map.1 hi
      have := List.idxOf_lt_length_of_mem (hmem v hv)
      rw [rd_getElem (by simpa using this)]
      simp [this]
  rw [h1, ok_bind, h2, ok_bind]
  unfold constructCumLevels
  rw [if_neg (by
    intro h
    have h3 := hperm.length_eq
    rw [List.map_eq_nil_iff] at h
    rw [h] at h3
    exact hne (List.length_eq_zero_iff.1 (by simpa using h3)))]
  simp only [ok_bind]
  rw [show (fl.map (fun v => vars.idxOf v)) ++ common.map (fun v => vars.idxOf v) =
    (fl ++ common).map (getVariableIndex vars) by rw [List.map_append]; rfl]
  rw [transferLoop hp (fun v hv => hperm.mem_iff.2 hv), ok_bind, replicate_eq_tab]
  rw [prod_perm (card := card) hperm] at *
  have := scatter_perm (card := card) hn hperm hF (fun _ => (0 : K))
  rw [prod_perm (card := card) hperm] at this
  rw [this]
  rfl

/-! ### Normalisation -/

theorem sumEntries_eq [AddCommMonoid K] (n : Nat) (p : Nat → K) :
    sumEntries n (tab n p) = .ok (∑ i ∈ Finset.range n, p i) := by
  unfold sumEntries
  have := foldlM_range_eq (ε := Fault)
    (f := fun (s : K) i => do
      let a ← rd (tab n p) i
      return s + a)
    (s := fun k => ∑ i ∈ Finset.range k, p i) (n := n) ?_
  · rw [← this]; simp
  · intro i hi
    rw [rd_tab hi]
    simp [Finset.sum_range_succ]

theorem normalize_fromFn [Field K] [DecidableEq K] {card : Nat → Nat} {vars : List Nat} (hn : vars.Nodup)
    {F : Assignment → K} (hF : DependsOn F vars) (a0 : Assignment) (h0 : sumOut card vars F a0 ≠ 0) :
    normalize (fromFn card vars F) = .ok (fromFn card vars (fun a => F a / sumOut card vars F a0)) := by
  unfold normalize
  simp only [fromFn]
  rw [sumEntries_eq, ok_bind, sum_entries hn hF a0]
  rw [foldlM_pointwise (g := fun j => F (asgOf vars (digits (vars.map card) j)) / sumOut card vars F a0)]
  · rfl
  · intro i hi r hr
    rw [if_neg h0, rd_tab hi, ok_bind, wr_tab hi, hr]

theorem normalize_zero [Field K] [DecidableEq K] {card : Nat → Nat} {vars : List Nat} (hn : vars.Nodup)
    (hp : ∀ v ∈ vars, 0 < card v) {F : Assignment → K} (hF : DependsOn F vars) (a0 : Assignment)
    (h0 : sumOut card vars F a0 = 0) : normalize (fromFn card vars F) = .error .nan := by
  unfold normalize
  simp only [fromFn]
  rw [sumEntries_eq, ok_bind, sum_entries hn hF a0, h0]
  have hpos : 0 < (vars.map card).prod := prod_pos_of (map_pos hp)
  obtain ⟨n, hn'⟩ : ∃ n, (vars.map card).prod = n + 1 := ⟨_, (Nat.succ_pred_eq_of_pos hpos).symm⟩
  rw [hn', List.range_succ_eq_map, List.foldlM_cons]
  simp

end FastPGM
