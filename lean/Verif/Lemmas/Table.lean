import Verif.Lemmas.Index

/-!
Every table operation on well-formed tables, as an equation between tables that denote functions on assignments.
-/

namespace FastPGM

open Spec

variable {K : Type}

/-- The well-formed table over `vs` denoting `F`. -/
def fromFn (card : Nat → Nat) (vs : List Nat) (F : Assignment → K) : Table K :=
  ⟨vs, vs.map card, cumLevels (vs.map card), (vs.map card).prod,
    tab (vs.map card).prod (fun k => F (asgOf vs (digits (vs.map card) k)))⟩

theorem map_pos {card : Nat → Nat} {vs : List Nat} (h : ∀ v ∈ vs, 0 < card v) : ∀ d ∈ vs.map card, 0 < d := by
  intro d hd
  obtain ⟨v, hv, rfl⟩ := List.mem_map.1 hd
  exact h v hv

theorem fromFn_wf {card : Nat → Nat} {vs : List Nat} (hn : vs.Nodup) (hp : ∀ v ∈ vs, 0 < card v)
    (F : Assignment → K) : WellFormed card (fromFn card vs F) where
  nodup := hn
  pos := hp
  dims := rfl
  cum := by
    intro i hi
    exact cumLevels_get? _ _ (by simpa [fromFn] using hi)
  cum_length := by simp [fromFn, cumLevels_length]
  size := rfl
  length := by simp [fromFn]

theorem asgOf_digits_rank {card : Nat → Nat} {vs : List Nat} (hn : vs.Nodup) {a : Assignment}
    (ha : InRange card vs a) : ∀ v ∈ vs, asgOf vs (digits (vs.map card) (rank (vs.map card) (vs.map a))) v = a v := by
  rw [digits_rank (cfgIn_map ha)]
  exact List.map_inj_left.1 (map_asgOf hn (by simp))

theorem value_fromFn [Zero K] {card : Nat → Nat} {vs : List Nat} (hn : vs.Nodup) {F : Assignment → K}
    (hF : DependsOn F vs) {a : Assignment} (ha : InRange card vs a) : value (fromFn card vs F) a = F a := by
  unfold value fromFn
  rw [getD_tab (rank_lt (cfgIn_map ha))]
  exact hF _ _ (asgOf_digits_rank hn ha)

theorem Spec.WellFormed.cumEq {card : Nat → Nat} {T : Table K} (h : WellFormed card T) : T.cum = cumLevels T.dims := by
  apply eq_cumLevels
  · rw [h.cum_length, h.dims]; simp
  · intro i hi
    exact h.cum i (by rw [h.dims] at hi; simpa using hi)

theorem value_dependsOn [Zero K] (T : Table K) : DependsOn (value T) T.vars := by
  intro a b h
  unfold value
  rw [map_eq_of_agree h]

theorem Spec.WellFormed.eq_fromFn [Zero K] {card : Nat → Nat} {T : Table K} (h : WellFormed card T) :
    T = fromFn card T.vars (value T) := by
  have hc := h.cumEq
  have hd := h.dims
  have hs := h.size
  have hl := h.length
  have hn := h.nodup
  obtain ⟨vars, dims, cum, size, pot⟩ := T
  simp only at hc hd hs hl hn
  subst hd; subst hc; subst hs
  simp only [fromFn, Table.mk.injEq, true_and]
  apply tab_ext hl
  intro i hi
  unfold value
  simp only
  rw [map_asgOf hn (by simp), rank_digits hi]
  simp [hl, hi]

theorem fromFn_congr {card : Nat → Nat} {vs : List Nat} {F G : Assignment → K}
    (h : ∀ a, InRange card vs a → F a = G a) : fromFn card vs F = fromFn card vs G := by
  unfold fromFn
  congr 1
  apply tab_congr
  intro i hi
  exact h _ (asgOf_lt hi)

theorem fromFn_ext [Zero K] {card : Nat → Nat} {T S : Table K} (hT : WellFormed card T) (hS : WellFormed card S)
    (hv : T.vars = S.vars) (h : ∀ a, InRange card T.vars a → value T a = value S a) : T = S := by
  rw [hT.eq_fromFn, hS.eq_fromFn, ← hv]
  exact fromFn_congr h

theorem shapeOf_eq (dims : List Nat) : shapeOf dims = .ok (cumLevels dims, dims.prod) := by
  unfold shapeOf
  cases dims with
  | nil => rfl
  | cons d ds =>
    simp only [reduceCtorEq, if_false, constructCumLevels]
    rw [cumLevels_cons]
    show Except.ok (_, ds.prod * d) = _
    rw [List.prod_cons, mul_comm]

theorem construct_first (dims : List Nat) (h : dims ≠ []) {β : Type} (k : List Nat → Nat → Except Fault β) :
    (do
      let cum ← constructCumLevels dims
      let size ← firstProduct cum dims
      k cum size) = k (cumLevels dims) dims.prod := by
  cases dims with
  | nil => exact absurd rfl h
  | cons d ds =>
    simp only [reduceCtorEq, if_false, constructCumLevels]
    rw [cumLevels_cons]
    show k _ (ds.prod * d) = _
    rw [List.prod_cons, mul_comm]

theorem foldlM_congr {ε α β : Type} {f g : β → α → Except ε β} {l : List α} {b : β}
    (h : ∀ b, ∀ x ∈ l, f b x = g b x) : l.foldlM f b = l.foldlM g b := by
  induction l generalizing b with
  | nil => rfl
  | cons x xs ih =>
    rw [List.foldlM_cons, List.foldlM_cons, h b x (by simp)]
    congr 1
    funext b'
    exact ih (fun b y hy => h b y (by simp [hy]))

theorem scatterAdd_eq [AddCommMonoid K] {n m : Nat} {t : Nat → Nat} {q : Nat → K} (ht : ∀ k < n, t k < m) (init : Nat → K) :
    scatterAdd (tab m init) (tab n t) (tab n q) n =
      .ok (tab m (fun j => init j + ∑ k ∈ Finset.range n, if t k = j then q k else 0)) := by
  unfold scatterAdd
  have := foldlM_range_eq (ε := Fault)
    (f := fun (p : List K) k => do
      let t ← rd (tab n t) k
      let q ← rd (tab n q) k
      let o ← rd p t
      wr p t (o + q))
    (s := fun i => tab m (fun j => init j + ∑ k ∈ Finset.range i, if t k = j then q k else 0)) (n := n) ?_
  · rw [← this]
    congr 1
    apply tab_congr
    intro i _
    simp
  · intro i hi
    rw [rd_tab hi]
    show (do let q ← rd (tab n q) i; _) = _
    rw [rd_tab hi]
    show (do let o ← rd _ (t i); _) = _
    rw [rd_tab (ht i hi)]
    show wr _ _ _ = _
    rw [wr_tab (ht i hi)]
    congr 1
    apply tab_congr
    intro j _
    rw [Finset.sum_range_succ]
    by_cases h : j = t i
    · subst h; simp [add_assoc]
    · have h' : ¬ t i = j := fun e => h e.symm
      simp [h, h']

theorem scatterSet_eq {n m : Nat} {t : Nat → Nat} {q : Nat → K} (ht : ∀ k < n, t k < m)
    (init : Nat → K) {r : Nat → K}
    (hr : ∀ k < n, r (t k) = q k) (hr' : ∀ j < m, (∀ k < n, t k ≠ j) → r j = init j) :
    scatterSet (tab m init) (tab n t) (tab n q) n = .ok (tab m r) := by
  unfold scatterSet
  have hstep := foldlM_range (ε := Fault)
    (f := fun (p : List K) k => do
      let t ← rd (tab n t) k
      let q ← rd (tab n q) k
      wr p t q)
    (P := fun i b => b = tab m (fun j => if ∃ k < i, t k = j then r j else init j)) (n := n) (b := tab m init)
    (by apply tab_congr; intro i _; simp) ?_
  · obtain ⟨b, hb, rfl⟩ := hstep
    rw [hb]
    congr 1
    apply tab_congr
    intro j hj
    split
    · rfl
    · rename_i h
      exact (hr' j hj (fun k hk e => h ⟨k, hk, e⟩)).symm
  · intro i hi b hb
    refine ⟨_, ?_, rfl⟩
    rw [rd_tab hi]
    show (do let q ← rd (tab n q) i; _) = _
    rw [rd_tab hi]
    show wr _ _ _ = _
    rw [hb, wr_tab (ht i hi)]
    congr 1
    apply tab_congr
    intro j _
    by_cases h : j = t i
    · subst h
      rw [if_pos rfl, if_pos ⟨i, by omega, rfl⟩, hr i hi]
    · rw [if_neg h]
      by_cases h2 : ∃ k < i, t k = j
      · obtain ⟨k, hk, e⟩ := h2
        rw [if_pos ⟨k, hk, e⟩, if_pos ⟨k, by omega, e⟩]
      · rw [if_neg h2, if_neg]
        rintro ⟨k, hk, e⟩
        rcases Nat.lt_succ_iff_lt_or_eq.1 hk with hk | rfl
        · exact h2 ⟨k, hk, e⟩
        · exact h e.symm

theorem inRange_map_asg {card : Nat → Nat} {vars vs : List Nat} (hsub : ∀ v ∈ vs, v ∈ vars) {i : Nat}
    (hi : i < (vars.map card).prod) : InRange card vs (asgOf vars (digits (vars.map card) i)) :=
  fun v hv => asgOf_lt hi v (hsub v hv)

/-- The table-index array computed by the loops. -/
theorem transferLoop {card : Nat → Nat} {vars vs : List Nat} (hp : ∀ v ∈ vars, 0 < card v)
    (hsub : ∀ v ∈ vs, v ∈ vars) (n : Nat) :
    (List.range n).mapM (transferIndex (cumLevels (vars.map card)) (vs.map (getVariableIndex vars))
      (cumLevels (vs.map card))) =
    .ok (tab n (fun i => rank (vs.map card) (vs.map (asgOf vars (digits (vars.map card) i))))) :=
  mapM_ok (fun i _ => transferIndex_eq (map_pos hp) (by simp) hsub i)

/-- Summation over the table entries compatible with a configuration. -/
theorem sum_fibre [AddCommMonoid K] {card : Nat → Nat} {vars vs : List Nat} (hn : vars.Nodup)
    (hsub : ∀ v ∈ vs, v ∈ vars) {F : Assignment → K} (hF : DependsOn F vars) {a : Assignment}
    (ha : InRange card vs a) :
    (∑ k ∈ Finset.range (vars.map card).prod,
      if rank (vs.map card) (vs.map (asgOf vars (digits (vars.map card) k))) = rank (vs.map card) (vs.map a)
        then F (asgOf vars (digits (vars.map card) k)) else 0) =
      sumOut card (vars.filter (fun v => v ∉ vs)) F a := by
  have e1 : ∀ k ∈ Finset.range (vars.map card).prod,
      (if rank (vs.map card) (vs.map (asgOf vars (digits (vars.map card) k))) = rank (vs.map card) (vs.map a)
        then F (asgOf vars (digits (vars.map card) k)) else 0) =
      (fun b : Assignment => if vs.map b = vs.map a then F b else 0) (asgOf vars (digits (vars.map card) k)) := by
    intro k hk
    have hk' : k < (vars.map card).prod := by simpa using hk
    simp only
    by_cases e : vs.map (asgOf vars (digits (vars.map card) k)) = vs.map a
    · rw [if_pos e, if_pos (by rw [e])]
    · rw [if_neg e, if_neg]
      intro e'
      exact e (rank_inj (cfgIn_map (inRange_map_asg hsub hk')) (cfgIn_map ha) e')
  rw [Finset.sum_congr rfl e1, sum_entries (F := fun b : Assignment => if vs.map b = vs.map a then F b else 0) hn ?_ a, sumOut_indicator hn (fun v _ hv => ha v hv) hsub]
  intro b c h
  have e : vs.map b = vs.map c := map_eq_of_agree (fun v hv => h v (hsub v hv))
  simp only [e, hF b c h]

theorem sumOut_agree [AddCommMonoid K] {card : Nat → Nat} {F : Assignment → K} {a b : Assignment} {us vs : List Nat}
    (hF : DependsOn F vs) (h : ∀ v ∈ vs, v ∉ us → a v = b v) : sumOut card us F a = sumOut card us F b := by
  induction us generalizing a b with
  | nil => exact hF a b (fun v hv => h v hv (by simp))
  | cons u us ih =>
    simp only [sumOut]
    apply Finset.sum_congr rfl
    intro x _
    apply ih
    intro v hv hvu
    unfold Assignment.set
    by_cases e : v = u
    · simp [e]
    · simp only [e, if_false]
      exact h v hv (by simp [e, hvu])

theorem sumOut_dependsOn [AddCommMonoid K] {card : Nat → Nat} {F : Assignment → K} {us vs : List Nat}
    (hF : DependsOn F vs) : DependsOn (sumOut card us F) (vs.filter (fun v => v ∉ us)) := by
  intro a b h
  exact sumOut_agree hF (fun v hv hvu => h v (by simp [hv, hvu]))

theorem tableMarginalization_fromFn [AddCommMonoid K] {card : Nat → Nat} {vars vs : List Nat} (hn : vars.Nodup)
    (hp : ∀ v ∈ vars, 0 < card v) (hsub : ∀ v ∈ vs, v ∈ vars) (hnv : vs.Nodup)
    {F : Assignment → K} (hF : DependsOn F vars) :
    tableMarginalization (fromFn card vars F) vs (vs.map card) =
      .ok (fromFn card vs (sumOut card (vars.filter (fun v => v ∉ vs)) F)) := by
  unfold tableMarginalization
  rw [shapeOf_eq]
  simp only [fromFn]
  simp only [ok_bind]
  rw [transferLoop hp hsub]
  simp only [ok_bind]
  rw [replicate_eq_tab, scatterAdd_eq (fun k hk => rank_lt (cfgIn_map (inRange_map_asg hsub hk)))]
  show Except.ok _ = _
  congr 2
  apply tab_congr
  intro j hj
  rw [zero_add]
  have hr := asgOf_lt (card := card) (vars := vs) hj
  rw [← sum_fibre hn hsub hF hr]
  apply Finset.sum_congr rfl
  intro k _
  rw [map_asgOf hnv (by simp), rank_digits hj]

theorem tableExtension_fromFn {card : Nat → Nat} {vars vs : List Nat}
    (hne : vs ≠ []) (hp : ∀ v ∈ vs, 0 < card v) (hsub : ∀ v ∈ vars, v ∈ vs) (hn : vars.Nodup)
    {F : Assignment → K} (hF : DependsOn F vars) :
    tableExtension (fromFn card vars F) vs (vs.map card) = .ok (fromFn card vs F) := by
  unfold tableExtension
  rw [construct_first _ (by simpa using hne)]
  simp only [fromFn]
  rw [transferLoop hp hsub]
  simp only [ok_bind]
  rw [mapM_ok (g := fun x => F (asgOf vars (digits (vars.map card) x)))]
  · show Except.ok _ = _
    congr 2
    rw [tab, List.map_map]
    apply tab_congr (g := _ ∘ _)
    intro i hi
    simp only [Function.comp]
    apply hF
    exact asgOf_digits_rank hn (inRange_map_asg hsub hi)
  · intro x hx
    obtain ⟨i, hi, rfl⟩ := List.mem_map.1 hx
    have hi' : i < (vs.map card).prod := by simpa using hi
    exact rd_tab (rank_lt (cfgIn_map (inRange_map_asg hsub hi')))

theorem prod_perm {card : Nat → Nat} {vars vs : List Nat} (h : vars.Perm vs) :
    (vars.map card).prod = (vs.map card).prod := (h.map card).prod_eq

theorem scatter_perm {card : Nat → Nat} {vars vs : List Nat} (hn : vars.Nodup) (hperm : vars.Perm vs)
    {F : Assignment → K} (hF : DependsOn F vars) (init : Nat → K) :
    scatterSet (tab (vs.map card).prod init)
      (tab (vs.map card).prod (fun i => rank (vs.map card) (vs.map (asgOf vars (digits (vars.map card) i)))))
      (tab (vars.map card).prod (fun k => F (asgOf vars (digits (vars.map card) k)))) (vs.map card).prod =
    .ok (tab (vs.map card).prod (fun k => F (asgOf vs (digits (vs.map card) k)))) := by
  have hs := prod_perm (card := card) hperm
  have hsub : ∀ v ∈ vs, v ∈ vars := fun v hv => hperm.mem_iff.2 hv
  have hnv : vs.Nodup := hperm.nodup_iff.1 hn
  rw [hs]
  apply scatterSet_eq
  · intro k hk
    exact rank_lt (cfgIn_map (inRange_map_asg hsub (by rw [hs]; exact hk)))
  · intro k hk
    apply hF
    intro v hv
    exact asgOf_digits_rank hnv (inRange_map_asg hsub (by rw [hs]; exact hk)) v (hperm.mem_iff.1 hv)
  · intro j hj hno
    exfalso
    have hb := asgOf_lt (card := card) (vars := vs) hj
    have hb' : InRange card vars (asgOf vs (digits (vs.map card) j)) := fun v hv => hb v (hperm.mem_iff.1 hv)
    apply hno (rank (vars.map card) (vars.map (asgOf vs (digits (vs.map card) j))))
    · rw [← hs]; exact rank_lt (cfgIn_map hb')
    · have := asgOf_digits_rank hn hb'
      rw [List.map_congr_left (fun v hv => this v (hsub v hv)), map_asgOf hnv (by simp), rank_digits hj]

theorem tableReorganization_fromFn {card : Nat → Nat} {vars vs : List Nat} (hn : vars.Nodup)
    (hp : ∀ v ∈ vars, 0 < card v) (hperm : vars.Perm vs)
    {F : Assignment → K} (hF : DependsOn F vars) (G : Assignment → K) :
    tableReorganization (fromFn card vars F) (fromFn card vs G) = .ok (fromFn card vs F) := by
  unfold tableReorganization
  have hs := prod_perm (card := card) hperm
  rw [if_neg (by simp [fromFn, hperm.length_eq, hs])]
  simp only [fromFn]
  rw [transferLoop hp (fun v hv => hperm.mem_iff.2 hv)]
  simp only [ok_bind]
  rw [scatter_perm hn hperm hF]
  rfl

theorem mulEntries_eq [Mul K] (n : Nat) (p q : Nat → K) :
    mulEntries n (tab n p) (tab n q) = .ok (tab n (fun i => p i * q i)) := by
  apply foldlM_pointwise
  intro i hi r hr
  rw [rd_tab hi, ok_bind, rd_tab hi, ok_bind, wr_tab hi, hr]

theorem DependsOn.mono {β : Type} {f : Assignment → β} {vs ws : List Nat} (h : DependsOn f vs) (hsub : ∀ v ∈ vs, v ∈ ws) :
    DependsOn f ws := fun a b hab => h a b (fun v hv => hab v (hsub v hv))

theorem tableMultiplication_fromFn [Mul K] {card : Nat → Nat} {vars vs : List Nat} (hn : vars.Nodup)
    (hp : ∀ v ∈ vars, 0 < card v) (hsub : ∀ v ∈ vs, v ∈ vars) (hnv : vs.Nodup)
    {F G : Assignment → K} (hG : DependsOn G vs) :
    tableMultiplication (fromFn card vars F) (fromFn card vs G) =
      .ok (fromFn card vars (fun a => F a * G a)) := by
  unfold tableMultiplication
  have hlen : vs.length ≤ vars.length := (hnv.subperm hsub).length_le
  by_cases h : vs.length < vars.length
  · have hne : vars ≠ [] := by rintro rfl; simp at h
    rw [if_pos (show (fromFn card vars F).vars.length > (fromFn card vs G).vars.length from h)]
    rw [show tableExtension (fromFn card vs G) (fromFn card vars F).vars (fromFn card vars F).dims =
      .ok (fromFn card vars G) from tableExtension_fromFn hne hp hsub hnv hG]
    rw [ok_bind, if_neg (by simp [fromFn]), ok_bind]
    simp only [fromFn]
    rw [mulEntries_eq]
    rfl
  · rw [if_neg (show ¬ (fromFn card vars F).vars.length > (fromFn card vs G).vars.length from h)]
    have hperm : vs.Perm vars := (hnv.subperm hsub).perm_of_length_le (by omega)
    rw [ok_bind]
    by_cases he : vars = vs
    · subst he
      rw [if_neg (by simp [fromFn]), ok_bind]
      simp only [fromFn]
      rw [mulEntries_eq]
      rfl
    · rw [if_pos (by simpa [fromFn] using he)]
      rw [tableReorganization_fromFn hnv (fun v hv => hp v (hsub v hv)) hperm hG, ok_bind]
      simp only [fromFn]
      rw [mulEntries_eq]
      rfl

theorem tableDivision_fromFn [Field K] [DecidableEq K] {card : Nat → Nat} {vars : List Nat}
    {F G : Assignment → K} :
    tableDivision (fromFn card vars F) (fromFn card vars G) =
      .ok (fromFn card vars (fun a => if G a = 0 then 0 else F a / G a)) := by
  unfold tableDivision
  simp only [fromFn]
  rw [foldlM_pointwise (g := fun j => if G (asgOf vars (digits (vars.map card) j)) = 0 then 0 else
        F (asgOf vars (digits (vars.map card) j)) / G (asgOf vars (digits (vars.map card) j)))]
  · rfl
  · intro i hi r hr
    rw [rd_tab hi, ok_bind]
    split
    · rw [wr_tab hi]
    · rw [rd_tab hi, ok_bind, wr_tab hi, hr]

end FastPGM
