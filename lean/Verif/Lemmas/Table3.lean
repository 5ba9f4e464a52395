import Verif.Lemmas.Table2
import Verif.Lemmas.StdSet

/-!
Remaining table operations: the one-variable versions, column normalisation, two-sided multiplication.
-/

namespace FastPGM

open Spec

variable {K : Type}

theorem sumOut_dep [AddCommMonoid K] {card : Nat → Nat} {vars ds ws : List Nat} {F : Assignment → K}
    (hF : DependsOn F vars) (h : ∀ v ∈ vars, v ∈ ds ∨ v ∈ ws) : DependsOn (sumOut card ds F) ws := by
  intro a b hab
  apply sumOut_dependsOn hF
  intro v hv
  simp only [List.mem_filter, decide_eq_true_eq] at hv
  exact hab v ((h v hv.1).resolve_left hv.2)

theorem zip_filter {card : Nat → Nat} {vars : List Nat} {e : Nat} (hn : vars.Nodup) :
    (List.zip vars (vars.map card)).filter (fun vd => vd.1 ≠ e) = (vars.erase e).map (fun v => (v, card v)) := by
  rw [hn.erase_eq_filter]
  rw [List.zip_map_right, List.zip_eq_zipWith, List.map_zipWith]
  rw [show List.zipWith (fun a b => Prod.map id card (a, b)) vars vars = vars.map (fun v => (v, card v)) by
    rw [List.zipWith_self]; rfl]
  rw [List.filter_map]
  congr 1
  apply List.filter_congr
  intro v _
  by_cases h : v = e <;> simp [Function.comp, h]

theorem withoutVariable_eq {card : Nat → Nat} {vars : List Nat} {e : Nat} (hn : vars.Nodup) (he : e ∈ vars)
    (F : Assignment → K) :
    withoutVariable (fromFn card vars F) e = .ok (vars.erase e, (vars.erase e).map card) := by
  unfold withoutVariable
  change (if vars.length = 0 then _ else if vars.length = 1 then _ else if e ∈ vars then
    Except.ok (vars.erase e, List.map Prod.snd (List.filter (fun vd => vd.1 ≠ e) (vars.zip (vars.map card)))) else _) = _
  have hlen := List.length_erase_of_mem he
  have hpos := List.length_pos_of_mem he
  rw [if_neg (by omega)]
  by_cases h1 : vars.length = 1
  · have h0 : vars.erase e = [] := List.length_eq_zero_iff.1 (by omega)
    rw [if_pos h1, h0]; rfl
  · rw [if_neg h1, if_pos he, zip_filter hn, List.map_map]
    rfl

theorem withoutVariableOne_eq {card : Nat → Nat} {vars : List Nat} {e : Nat} (hn : vars.Nodup) (he : e ∈ vars)
    (F : Assignment → K) :
    withoutVariableOne (fromFn card vars F) e = .ok (vars.erase e, (vars.erase e).map card) := by
  unfold withoutVariableOne
  change (if vars.length = 0 then _ else if vars.length = 1 then _ else
    if (List.filter (fun vd => decide (vd.1 ≠ e)) (vars.zip (vars.map card))).length + 1 = vars.length then
    Except.ok (List.map Prod.fst (List.filter (fun vd => vd.1 ≠ e) (vars.zip (vars.map card))),
      List.map Prod.snd (List.filter (fun vd => vd.1 ≠ e) (vars.zip (vars.map card)))) else _) = _
  have hlen := List.length_erase_of_mem he
  have hpos := List.length_pos_of_mem he
  rw [if_neg (by omega)]
  by_cases h1 : vars.length = 1
  · have h0 : vars.erase e = [] := List.length_eq_zero_iff.1 (by omega)
    rw [if_pos h1, h0]; rfl
  · rw [if_neg h1, zip_filter hn, if_pos (by simp; omega), List.map_map, List.map_map]
    have : (Prod.fst ∘ fun v => (v, card v)) = id := rfl
    rw [this, List.map_id]
    rfl

theorem filter_notMem_erase {vars : List Nat} {e : Nat} (hn : vars.Nodup) (he : e ∈ vars) :
    vars.filter (fun v => v ∉ vars.erase e) = [e] := by
  induction vars with
  | nil => simp at he
  | cons v vs ih =>
    obtain ⟨hv, hvs⟩ := List.nodup_cons.1 hn
    by_cases h : v = e
    · subst h
      rw [List.erase_cons_head, List.filter_cons_of_pos (by simpa using hv)]
      congr 1
      rw [List.filter_eq_nil_iff]
      intro w hw
      simpa using hw
    · have he' : e ∈ vs := by
        rcases List.mem_cons.1 he with h' | h'
        · exact absurd h'.symm h
        · exact h'
      rw [List.erase_cons_tail (by simpa using h), List.filter_cons_of_neg (by simp), ← ih hvs he']
      apply List.filter_congr
      intro w hw
      have : w ≠ v := fun e => hv (e ▸ hw)
      simp [this]

theorem tableMarginalizationExt_fromFn [AddCommMonoid K] {card : Nat → Nat} {vars : List Nat} (hn : vars.Nodup)
    (hp : ∀ v ∈ vars, 0 < card v) {e : Nat} (he : e ∈ vars) {F : Assignment → K} (hF : DependsOn F vars) :
    tableMarginalizationExt (fromFn card vars F) e = .ok (fromFn card (vars.erase e) (sumOut card [e] F)) := by
  have := tableMarginalization_fromFn hn hp (fun v hv => List.mem_of_mem_erase hv) (hn.erase e) hF
  rw [filter_notMem_erase hn he] at this
  rw [← this]
  unfold tableMarginalizationExt tableMarginalization
  rw [withoutVariable_eq hn he, ok_bind]

theorem tableMarginalizationOneVariable_fromFn [AddCommMonoid K] {card : Nat → Nat} {vars : List Nat} (hn : vars.Nodup)
    (hp : ∀ v ∈ vars, 0 < card v) {e : Nat} (he : e ∈ vars) {F : Assignment → K} (hF : DependsOn F vars) :
    tableMarginalizationOneVariable (fromFn card vars F) e = .ok (fromFn card (vars.erase e) (sumOut card [e] F)) := by
  have := tableMarginalization_fromFn hn hp (fun v hv => List.mem_of_mem_erase hv) (hn.erase e) hF
  rw [filter_notMem_erase hn he] at this
  rw [← this]
  unfold tableMarginalizationOneVariable tableMarginalization
  rw [withoutVariableOne_eq hn he, ok_bind]

theorem tableMarginalizationSimplified_fromFn [AddCommMonoid K] {card : Nat → Nat} {v : Nat} {vs : List Nat}
    (hn : (v :: vs).Nodup) (hp : ∀ w ∈ v :: vs, 0 < card w) {F : Assignment → K} (hF : DependsOn F (v :: vs)) :
    tableMarginalizationSimplified (fromFn card (v :: vs) F) = .ok (fromFn card [v] (sumOut card vs F)) := by
  unfold tableMarginalizationSimplified
  obtain ⟨hv, hvs⟩ := List.nodup_cons.1 hn
  by_cases h1 : (fromFn card (v :: vs) F).vars.length = 1
  · rw [if_pos h1]
    have : vs = [] := by simpa [fromFn] using h1
    subst this
    rfl
  · rw [if_neg h1]
    simp only [fromFn, List.map_cons, List.prod_cons]
    have hd := hp v (by simp)
    have hm : 0 < (vs.map card).prod := prod_pos_of (map_pos (fun w hw => hp w (by simp [hw])))
    rw [rd_ok (a := card v) (by simp), ok_bind, rd_ok (a := v) (by simp), ok_bind]
    rw [if_neg hd.ne', Nat.mul_div_cancel_left _ hd]
    have hq := scatterAdd_eq (n := card v * (vs.map card).prod) (m := card v)
      (t := fun i => i / (vs.map card).prod)
      (q := fun k => F (asgOf (v :: vs) (digits (card v :: vs.map card) k)))
      (fun k hk => Nat.div_lt_of_lt_mul (by rwa [mul_comm] at hk)) (fun _ => (0 : K))
    unfold scatterAdd at hq
    rw [replicate_eq_tab]
    rw [(foldlM_congr (fun p i hi => by
        rw [if_neg hm.ne', rd_tab (g := fun i => i / (vs.map card).prod) (by simpa using hi), ok_bind])).trans hq]
    show Except.ok _ = Except.ok _
    simp only [List.map_nil, List.prod_nil, mul_one]
    congr 2
    apply tab_congr
    intro j hj
    rw [zero_add, sum_range_mul]
    rw [Finset.sum_eq_single j]
    · rw [show digits [card v] j = [j] by simp [digits], asgOf_cons]
      rw [sumOut_set hv]
      rw [← sum_entries hvs (F := fun b => F (b.set v j))]
      · apply Finset.sum_congr rfl
        intro k hk
        have hk' : k < (vs.map card).prod := by simpa using hk
        rw [digits_cons_add hk', asgOf_cons, if_pos]
        rw [mul_comm, Nat.mul_add_div hm, Nat.div_eq_of_lt hk', Nat.add_zero]
      · intro b c hbc
        apply hF
        intro w hw
        unfold Assignment.set
        split
        · rfl
        · rename_i e
          exact hbc w (by simpa [e] using hw)
    · intro x _ hx
      apply Finset.sum_eq_zero
      intro k hk
      have hk' : k < (vs.map card).prod := by simpa using hk
      rw [if_neg]
      rw [mul_comm, Nat.mul_add_div hm, Nat.div_eq_of_lt hk', Nat.add_zero]
      exact hx
    · intro h
      exact absurd (Finset.mem_range.2 hj) h

/-! ### NormalizeCPT -/

/-- Column normalisation as an operation on entries. -/
theorem normalizeCPT_loop [Field K] [LinearOrder K] {d p : Nat} (o : Nat → K) :
    (List.range p).foldlM (fun (r : List K) i => do
      let den ← (List.range d).foldlM (fun s j => do
        let a ← rd r (i + j * p)
        return s + a) 0
      if 0 < den then
        (List.range d).foldlM (fun r j => do
          let a ← rd r (i + j * p)
          wr r (i + j * p) (a / den)) r
      else return r) (tab (d * p) o) =
    (Except.ok (tab (d * p) (fun k =>
      if 0 < ∑ j ∈ Finset.range d, o (k % p + j * p) then o k / ∑ j ∈ Finset.range d, o (k % p + j * p) else o k)) :
      Except Fault (List K)) := by
  have hbound : ∀ i < p, ∀ j < d, i + j * p < d * p := by
    intro i hi j hj
    calc i + j * p < p + j * p := by omega
      _ = (j + 1) * p := by ring
      _ ≤ d * p := Nat.mul_le_mul_right _ hj
  set col : Nat → K := fun c => ∑ j ∈ Finset.range d, o (c + j * p) with hcol
  have := foldlM_range_eq (ε := Fault)
    (f := fun (r : List K) i => do
      let den ← (List.range d).foldlM (fun s j => do
        let a ← rd r (i + j * p)
        return s + a) 0
      if 0 < den then
        (List.range d).foldlM (fun r j => do
          let a ← rd r (i + j * p)
          wr r (i + j * p) (a / den)) r
      else return r)
    (s := fun i => tab (d * p) (fun k => if k % p < i then
      (if 0 < col (k % p) then o k / col (k % p) else o k) else o k)) (n := p) ?_
  · rw [show tab (d * p) o = tab (d * p) (fun k => if k % p < 0 then
      (if 0 < col (k % p) then o k / col (k % p) else o k) else o k) by simp]
    rw [this]
    congr 1
    apply tab_congr
    intro k hk
    have hp : 0 < p := by
      rcases Nat.eq_zero_or_pos p with h | h
      · subst h; simp at hk
      · exact h
    rw [if_pos (Nat.mod_lt k hp)]
  · intro i hi
    have hmod : ∀ j, (i + j * p) % p = i := by
      intro j
      rw [Nat.add_mul_mod_self_right, Nat.mod_eq_of_lt hi]
    have hden : (List.range d).foldlM (fun (s : K) j => do
        let a ← rd (tab (d * p) (fun k => if k % p < i then
          (if 0 < col (k % p) then o k / col (k % p) else o k) else o k)) (i + j * p)
        return s + a) 0 = (Except.ok (col i) : Except Fault K) := by
      have := foldlM_range_eq (ε := Fault) (f := fun (s : K) j => do
        let a ← rd (tab (d * p) (fun k => if k % p < i then
          (if 0 < col (k % p) then o k / col (k % p) else o k) else o k)) (i + j * p)
        return s + a) (s := fun n => ∑ j ∈ Finset.range n, o (i + j * p)) (n := d) ?_
      · rw [← this]; simp
      · intro j hj
        rw [rd_tab (hbound i hi j hj), ok_bind, hmod, if_neg (lt_irrefl i), Finset.sum_range_succ]
        rfl
    rw [hden, ok_bind]
    by_cases hpos : 0 < col i
    · rw [if_pos hpos]
      have hin := foldlM_range_eq (ε := Fault) (f := fun (r : List K) j => do
          let a ← rd r (i + j * p)
          wr r (i + j * p) (a / col i))
        (s := fun n => tab (d * p) (fun k => if k % p < i then
          (if 0 < col (k % p) then o k / col (k % p) else o k) else
            if k % p = i ∧ k / p < n then o k / col i else o k)) (n := d) ?_
      · rw [show tab (d * p) (fun k => if k % p < i then
          (if 0 < col (k % p) then o k / col (k % p) else o k) else o k) =
          tab (d * p) (fun k => if k % p < i then
          (if 0 < col (k % p) then o k / col (k % p) else o k) else
            if k % p = i ∧ k / p < 0 then o k / col i else o k) by simp]
        rw [hin]
        congr 1
        apply tab_congr
        intro k hk
        have hkd : k / p < d := Nat.div_lt_of_lt_mul (by rwa [mul_comm] at hk)
        by_cases h1 : k % p < i
        · rw [if_pos h1, if_pos (show k % p < i + 1 by omega)]
        · rw [if_neg h1]
          by_cases h2 : k % p = i
          · rw [if_pos ⟨h2, hkd⟩, if_pos (by omega), h2, if_pos hpos]
          · rw [if_neg (by tauto), if_neg (by omega)]
      · intro j hj
        have hjp : (i + j * p) / p = j := by
          rw [Nat.add_mul_div_right _ _ (by omega), Nat.div_eq_of_lt hi, Nat.zero_add]
        rw [rd_tab (hbound i hi j hj), ok_bind, wr_tab (hbound i hi j hj), hmod, hjp]
        rw [if_neg (lt_irrefl i), if_neg (by omega)]
        congr 1
        apply tab_congr
        intro k hk
        by_cases hk1 : k = i + j * p
        · subst hk1
          rw [if_pos rfl, hmod, hjp, if_neg (lt_irrefl i), if_pos ⟨rfl, by omega⟩]
        · rw [if_neg hk1]
          by_cases h1 : k % p < i
          · rw [if_pos h1, if_pos h1]
          · rw [if_neg h1, if_neg h1]
            by_cases h2 : k % p = i ∧ k / p < j
            · rw [if_pos h2, if_pos ⟨h2.1, by omega⟩]
            · rw [if_neg h2, if_neg]
              rintro ⟨h3, h4⟩
              apply hk1
              have : k / p = j := by
                by_contra h5
                exact h2 ⟨h3, by omega⟩
              rw [← h3, ← this]
              have := Nat.mod_add_div k p
              rw [mul_comm] at this
              exact this.symm
    · rw [if_neg hpos]
      show Except.ok _ = _
      congr 1
      apply tab_congr
      intro k _
      by_cases h1 : k % p < i
      · rw [if_pos h1, if_pos (show k % p < i + 1 by omega)]
      · rw [if_neg h1]
        by_cases h2 : k % p = i
        · rw [if_pos (by omega), h2, if_neg hpos]
        · rw [if_neg (by omega)]

theorem normalizeCPT_fromFn [Field K] [LinearOrder K] {card : Nat → Nat} {v : Nat} {vs : List Nat}
    (hn : (v :: vs).Nodup) {F : Assignment → K} :
    normalizeCPT (fromFn card (v :: vs) F) =
      .ok (fromFn card (v :: vs) (fun a =>
        if 0 < sumOut card [v] F a then F a / sumOut card [v] F a else F a)) := by
  obtain ⟨hv, hvs⟩ := List.nodup_cons.1 hn
  unfold normalizeCPT
  simp only [fromFn, List.map_cons, List.prod_cons]
  rw [cumLevels_cons]
  rw [rd_ok (a := (vs.map card).prod) (by simp), ok_bind, rd_ok (a := card v) (by simp), ok_bind]
  rw [normalizeCPT_loop]
  show Except.ok _ = _
  congr 2
  apply tab_congr
  intro k hk
  have hm : 0 < (vs.map card).prod := by
    rcases Nat.eq_zero_or_pos (vs.map card).prod with h | h
    · rw [h] at hk; simp at hk
    · exact h
  have e : ∑ j ∈ Finset.range (card v), F (asgOf (v :: vs) (digits (card v :: vs.map card)
      (k % (vs.map card).prod + j * (vs.map card).prod))) =
      sumOut card [v] F (asgOf (v :: vs) (digits (card v :: vs.map card) k)) := by
    simp only [sumOut]
    apply Finset.sum_congr rfl
    intro j _
    rw [Nat.add_comm, digits_cons_add (Nat.mod_lt _ hm), digits, asgOf_cons, asgOf_cons, set_set_same]
  rw [e]

/-! ### Two-sided multiplication -/

theorem sortedSet_length_le {vars ws : List Nat} (hn : vars.Nodup) :
    vars.length ≤ (sortedSet (vars ++ ws)).length :=
  (hn.subperm (fun v hv => mem_sortedSet.2 (by simp [hv]))).length_le

theorem subset_of_length {vars ws : List Nat} (hn : vars.Nodup)
    (h : (sortedSet (vars ++ ws)).length ≤ vars.length) : ∀ v ∈ ws, v ∈ vars := by
  intro v hv
  have hp := (hn.subperm (l₂ := sortedSet (vars ++ ws))
    (fun v hv => mem_sortedSet.2 (by simp [hv]))).perm_of_length_le h
  exact hp.mem_iff.2 (mem_sortedSet.2 (by simp [hv]))

theorem subset_of_length' {vars ws : List Nat} (hn : ws.Nodup)
    (h : (sortedSet (vars ++ ws)).length ≤ ws.length) : ∀ v ∈ vars, v ∈ ws := by
  intro v hv
  have hp := (hn.subperm (l₂ := sortedSet (vars ++ ws))
    (fun v hv => mem_sortedSet.2 (by simp [hv]))).perm_of_length_le h
  exact hp.mem_iff.2 (mem_sortedSet.2 (by simp [hv]))

theorem tableMultiplicationTwoExtension_fromFn [Mul K] {card : Nat → Nat} {vars ws : List Nat} (hn : vars.Nodup)
    (hnw : ws.Nodup) (hp : ∀ v ∈ vars, 0 < card v) (hpw : ∀ v ∈ ws, 0 < card v) (hne : vars ≠ []) (hnew : ws ≠ [])
    (horder : ¬ (vars.Perm ws ∧ vars ≠ ws))
    {F G : Assignment → K} (hF : DependsOn F vars) (hG : DependsOn G ws) :
    ∃ us S', tableMultiplicationTwoExtension (fromFn card vars F) (fromFn card ws G) =
        .ok (fromFn card us (fun a => F a * G a), S') ∧ us.Nodup ∧ ∀ v, v ∈ us ↔ v ∈ vars ∨ v ∈ ws := by
  unfold tableMultiplicationTwoExtension
  have hV : (fromFn card vars F).vars = vars := rfl
  have hW : (fromFn card ws G).vars = ws := rfl
  simp only [hV, hW]
  rw [if_neg hnew]
  rw [if_neg hne]
  simp only [hV]
  have hl1 := sortedSet_length_le (ws := ws) hn
  have hl2 : ws.length ≤ (sortedSet (vars ++ ws)).length :=
    (hnw.subperm (fun v hv => mem_sortedSet.2 (by simp [hv]))).length_le
  by_cases h1 : (sortedSet (vars ++ ws)).length - vars.length = 0 ∧ (sortedSet (vars ++ ws)).length - ws.length = 0
  · rw [if_pos h1]
    have hsub := subset_of_length hn (ws := ws) (by omega)
    have hperm : ws.Perm vars := (hnw.subperm hsub).perm_of_length_le (by omega)
    have he : vars = ws := by
      by_contra hc
      exact horder ⟨hperm.symm, hc⟩
    subst he
    refine ⟨vars, fromFn card vars G, ?_, hn, by simp⟩
    simp only [ok_bind, fromFn]
    rw [mulEntries_eq]
    rfl
  · rw [if_neg h1]
    by_cases h2 : (sortedSet (vars ++ ws)).length - vars.length > 0 ∧ (sortedSet (vars ++ ws)).length - ws.length = 0
    · rw [if_pos h2]
      have hsub := subset_of_length' hnw (vars := vars) (by omega)
      refine ⟨ws, fromFn card ws G, ?_, hnw, ?_⟩
      · rw [show (fromFn card ws G).dims = ws.map card from rfl, tableExtension_fromFn hnew hpw hsub hn hF]
        simp only [ok_bind, pure_eq_ok, fromFn]
        rw [mulEntries_eq]
        rfl
      · intro v
        exact ⟨fun h => Or.inr h, fun h => h.elim (hsub v) id⟩
    · rw [if_neg h2]
      by_cases h3 : (sortedSet (vars ++ ws)).length - vars.length = 0 ∧ (sortedSet (vars ++ ws)).length - ws.length > 0
      · rw [if_pos h3]
        have hsub := subset_of_length hn (ws := ws) (by omega)
        refine ⟨vars, fromFn card vars G, ?_, hn, ?_⟩
        · rw [show (fromFn card vars F).dims = vars.map card from rfl, tableExtension_fromFn hne hp hsub hnw hG]
          simp only [ok_bind, pure_eq_ok, fromFn]
          rw [mulEntries_eq]
          rfl
        · intro v
          exact ⟨fun h => Or.inl h, fun h => h.elim id (hsub v)⟩
      · rw [if_neg h3]
        set us := sortedSet (vars ++ ws) with hus
        have hmem : ∀ v, v ∈ us ↔ v ∈ vars ∨ v ∈ ws := fun v => by rw [hus, mem_sortedSet]; simp
        refine ⟨us, fromFn card us G, ?_, sortedSet_nodup _, hmem⟩
        have hdims : us.mapM (fun v =>
            if getVariableIndex vars v < vars.length then rd (fromFn card vars F).dims (getVariableIndex vars v)
            else rd (fromFn card ws G).dims (getVariableIndex ws v)) = .ok (us.map card) := by
          apply mapM_ok
          intro v hv
          split
          · rename_i hlt
            have hv' : v ∈ vars := List.idxOf_lt_length_iff.1 hlt
            rw [show (fromFn card vars F).dims = vars.map card from rfl, rd_getElem (by simpa using hlt)]
            simp [getVariableIndex]
          · rename_i hlt
            have hv' : v ∈ ws := by
              rcases (hmem v).1 hv with h | h
              · exact absurd (List.idxOf_lt_length_iff.2 h) hlt
              · exact h
            have hlt' : getVariableIndex ws v < ws.length := List.idxOf_lt_length_iff.2 hv'
            rw [show (fromFn card ws G).dims = ws.map card from rfl, rd_getElem (by simpa using hlt')]
            simp [getVariableIndex]
        have hpu : ∀ v ∈ us, 0 < card v := fun v hv => ((hmem v).1 hv).elim (hp v) (hpw v)
        have hneu : us ≠ [] := by
          intro h0
          cases vars with
          | nil => exact hne rfl
          | cons v vs =>
            have := (hmem v).2 (by simp)
            rw [h0] at this
            simp at this
        rw [hdims, ok_bind, tableExtension_fromFn hneu hpu (fun v hv => (hmem v).2 (Or.inl hv)) hn hF, ok_bind,
          tableExtension_fromFn hneu hpu (fun v hv => (hmem v).2 (Or.inr hv)) hnw hG]
        simp only [ok_bind, pure_eq_ok, fromFn]
        rw [mulEntries_eq]
        rfl

theorem tableMultiplicationOneVariable_fromFn [Mul K] {card : Nat → Nat} {vars : List Nat} {v : Nat} (hn : vars.Nodup)
    (hp : ∀ w ∈ vars, 0 < card w) (hv : v ∈ vars)
    {F G : Assignment → K} (hG : DependsOn G [v]) :
    tableMultiplicationOneVariable (fromFn card vars F) (fromFn card [v] G) =
      .ok (fromFn card vars (fun a => F a * G a)) := by
  unfold tableMultiplicationOneVariable
  have hne : vars ≠ [] := List.ne_nil_of_mem hv
  have hV : (fromFn card vars F).vars = vars := rfl
  have hW : (fromFn card [v] G).vars = [v] := rfl
  simp only [hV, hW]
  rw [if_neg (by simp), rd_ok (a := v) (by simp), ok_bind, if_neg hne]
  simp only [hV]
  by_cases h1 : vars.length > 1
  · rw [if_pos h1]
    simp only [fromFn]
    rw [foldlM_pointwise (g := fun k => F (asgOf vars (digits (vars.map card) k)) *
      G (asgOf vars (digits (vars.map card) k)))]
    · rfl
    · intro i hi r hr
      rw [getConfig_cumLevels (map_pos hp), ok_bind]
      have hlt : getVariableIndex vars v < (digits (vars.map card) i).length := by
        simpa [getVariableIndex] using List.idxOf_lt_length_of_mem hv
      have hx : rd (digits (vars.map card) i) (getVariableIndex vars v) =
          .ok (asgOf vars (digits (vars.map card) i) v) := by
        rw [rd_getElem hlt]
        unfold asgOf
        rw [List.getD_eq_getElem?_getD]
        show _ = Except.ok ((digits (vars.map card) i)[getVariableIndex vars v]?.getD 0)
        rw [List.getElem?_eq_getElem hlt]
        rfl
      rw [hx, ok_bind]
      have hb := asgOf_lt hi v hv
      rw [rd_tab (by simpa using hb), ok_bind, rd_tab hi, ok_bind, wr_tab hi, hr]
      congr 1
      apply tab_congr
      intro j _
      split
      · congr 1
        apply hG
        intro w hw
        have : w = v := by simpa using hw
        subst this
        rw [List.map_cons, List.map_nil, show digits [card w] (asgOf vars (digits (vars.map card) i) w) =
          [asgOf vars (digits (vars.map card) i) w] by simp [digits], asgOf_cons]
        simp [Assignment.set]
      · rfl
  · rw [if_neg h1]
    have : vars = [v] := by
      match vars, hv, h1 with
      | [w], hv, _ => simp at hv; simp [hv]
      | _ :: _ :: _, _, h1 => simp at h1
    subst this
    simp only [fromFn]
    rw [mulEntries_eq]
    rfl

theorem constructEmptyTable_eq [One K] {card : Nat → Nat} {vs : List Nat} (hne : vs ≠ []) :
    constructEmptyTable card vs = .ok (fromFn card vs (fun _ => (1 : K))) := by
  unfold constructEmptyTable
  rw [construct_first _ (by simpa using hne)]
  simp only [fromFn, pure_eq_ok]
  rw [replicate_eq_tab]

end FastPGM
