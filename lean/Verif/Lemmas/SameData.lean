import Verif.Spec.SameData
import Verif.Lemmas.LearnCommands
import Verif.Lemmas.Skeleton6

/-!
Lemmas for C90: counts, statistics and degrees of freedom do not depend on the numbering of the values nor on the order of the rows.
-/

namespace FastPGM

open Spec

variable {K : Type}

/-- Renumbering of the values of each variable. -/
def renumber (τ : Nat → Nat → Nat) (a : Assignment) : Assignment := fun v => τ v (a v)

theorem renumber_set (τ : Nat → Nat → Nat) (a : Assignment) (v x : Nat) :
    (renumber τ a).set v (τ v x) = renumber τ (a.set v x) := by
  funext w
  unfold renumber Assignment.set
  by_cases h : w = v
  · subst h; simp
  · simp [h]

/-- `τ` renumbers the values of the variables below `n`. -/
structure Renumbering (card : Nat → Nat) (n : Nat) (τ : Nat → Nat → Nat) : Prop where
  inj : ∀ v < n, ∀ x y, τ v x = τ v y → x = y
  lt : ∀ v < n, ∀ x < card v, τ v x < card v

theorem Renumbering.sum [AddCommMonoid K] {card : Nat → Nat} {n : Nat} {τ : Nat → Nat → Nat} (h : Renumbering card n τ) {v : Nat} (hv : v < n)
    (f : Nat → K) : ∑ x ∈ Finset.range (card v), f (τ v x) = ∑ x ∈ Finset.range (card v), f x := by
  have himg : (Finset.range (card v)).image (τ v) = Finset.range (card v) := by
    apply Finset.eq_of_subset_of_card_le
    · intro y hy
      obtain ⟨x, hx, rfl⟩ := Finset.mem_image.1 hy
      exact Finset.mem_range.2 (h.lt v hv x (Finset.mem_range.1 hx))
    · rw [Finset.card_image_of_injective _ (fun x y e => h.inj v hv x y e)]
  rw [← Finset.sum_image (f := f) (g := τ v) (s := Finset.range (card v)) (fun x _ y _ e => h.inj v hv x y e), himg]

theorem sumOut_renumber [AddCommMonoid K] {card : Nat → Nat} {n : Nat} {τ : Nat → Nat → Nat} (h : Renumbering card n τ) {vs : List Nat}
    (hvs : ∀ v ∈ vs, v < n) (f : Assignment → K) (a : Assignment) :
    sumOut card vs f (renumber τ a) = sumOut card vs (fun b => f (renumber τ b)) a := by
  induction vs generalizing a with
  | nil => rfl
  | cons v vs ih =>
    simp only [sumOut]
    rw [← h.sum (hvs v (by simp))]
    apply Finset.sum_congr rfl
    intro x _
    rw [renumber_set]
    exact ih (fun w hw => hvs w (by simp [hw])) _

/-- The rows of the second data set are the renumbered rows of the first one, in some order. -/
def SameRows (n : Nat) (τ : Nat → Nat → Nat) (rows rows' : List Assignment) : Prop :=
  (rows.map (fun r => (List.range n).map (renumber τ r))).Perm (rows'.map (fun r => (List.range n).map r))

theorem countSame_renumber {card : Nat → Nat} {n : Nat} {τ : Nat → Nat → Nat} (h : Renumbering card n τ) {rows rows' : List Assignment}
    (hr : SameRows n τ rows rows') {vs : List Nat} (hvs : ∀ v ∈ vs, v < n) (a : Assignment) :
    countSame rows' vs (renumber τ a) = countSame rows vs a := by
  have key : ∀ (R : List Assignment) (b : Assignment), countSame R vs b =
      (R.map (fun r => (List.range n).map r)).countP (fun l => vs.all (fun v => l.getD v 0 == b v)) := by
    intro R b
    unfold countSame
    rw [List.countP_map]
    apply List.countP_congr
    intro r _
    simp only [Function.comp_apply, List.all_eq_true, beq_iff_eq]
    refine forall₂_congr (fun v hv => ?_)
    rw [List.getD_eq_getElem?_getD, List.getElem?_map, List.getElem?_range (hvs v hv)]
    rfl
  rw [key rows', ← hr.countP_eq, List.countP_map]
  unfold countSame
  apply List.countP_congr
  intro r _
  simp only [Function.comp_apply, List.all_eq_true, beq_iff_eq]
  refine forall₂_congr (fun v hv => ?_)
  rw [List.getD_eq_getElem?_getD, List.getElem?_map, List.getElem?_range (hvs v hv)]
  exact ⟨fun e => h.inj v (hvs v hv) _ _ e, fun e => congrArg (τ v) e⟩

section

variable {card : Nat → Nat} {n : Nat} {τ : Nat → Nat → Nat} {rows rows' : List Assignment}

theorem gSquare_renumber [Field K] (log : K → K) (h : Renumbering card n τ) (hr : SameRows n τ rows rows') {x y : Nat} {z : List Nat}
    (hv : ∀ v ∈ z ++ [x, y], v < n) : gSquare log card rows' x y z = gSquare log card rows x y z := by
  unfold gSquare
  have hz : ∀ v ∈ z, v < n := fun v h => hv v (by simp [h])
  have hx : x < n := hv x (by simp)
  have hy : y < n := hv y (by simp)
  have hzx : ∀ v ∈ z ++ [x], v < n := fun v h => hv v (by simp at h ⊢; tauto)
  have hzy : ∀ v ∈ z ++ [y], v < n := fun v h => hv v (by simp at h ⊢; tauto)
  have hdep : DependsOn (fun a => gTerm log (countSame rows' (z ++ [x, y]) a) (countSame rows' (z ++ [x]) a)
      (countSame rows' (z ++ [y]) a) (countSame rows' z a)) (z ++ [x, y]) := by
    intro a b hab
    have e : ∀ vs : List Nat, (∀ v ∈ vs, v ∈ z ++ [x, y]) → countSame rows' vs a = countSame rows' vs b :=
      fun vs hvs => countSame_depends vs a b (fun v h => hab v (hvs v h))
    show gTerm log _ _ _ _ = gTerm log _ _ _ _
    rw [e _ (fun v h => h), e (z ++ [x]) (fun v h => by simp at h ⊢; tauto), e (z ++ [y]) (fun v h => by simp at h ⊢; tauto),
      e z (fun v h => by simp [h])]
  rw [sumOut_agree (b := renumber τ (fun _ => 0)) hdep (fun v hv hn => absurd hv hn), sumOut_renumber h hv]
  congr 1
  funext a
  rw [countSame_renumber h hr hv, countSame_renumber h hr hzx, countSame_renumber h hr hzy, countSame_renumber h hr hz]

theorem observedValues_renumber (h : Renumbering card n τ) (hr : SameRows n τ rows rows') {v : Nat} {z : List Nat} (hv : v < n)
    (hz : ∀ w ∈ z, w < n) (a : Assignment) : observedValues card rows' v z (renumber τ a) = observedValues card rows v z a := by
  unfold observedValues
  rw [Finset.card_filter, Finset.card_filter, ← h.sum hv]
  apply Finset.sum_congr rfl
  intro x _
  rw [renumber_set, countSame_renumber h hr (by
    intro w hw
    simp at hw
    rcases hw with hw | rfl
    · exact hz w hw
    · exact hv)]

theorem degrees_renumber (h : Renumbering card n τ) (hr : SameRows n τ rows rows') {x y : Nat} {z : List Nat}
    (hv : ∀ v ∈ z ++ [x, y], v < n) : degrees card rows' x y z = degrees card rows x y z := by
  unfold degrees
  have hz : ∀ v ∈ z, v < n := fun v h => hv v (by simp [h])
  have hdep : DependsOn (fun a => (observedValues card rows' x z a - 1) * (observedValues card rows' y z a - 1)) z := by
    intro a b hab
    have e : ∀ u, observedValues card rows' u z a = observedValues card rows' u z b := by
      intro u
      unfold observedValues
      congr 2
      funext w
      rw [countSame_depends (z ++ [u]) _ _ (set_agree hab w)]
    show _ * _ = _ * _
    rw [e, e]
  rw [sumOut_agree (b := renumber τ (fun _ => 0)) hdep (fun v hv hn => absurd hv hn), sumOut_renumber h hz]
  congr 1
  funext a
  rw [observedValues_renumber h hr (hv x (by simp)) hz, observedValues_renumber h hr (hv y (by simp)) hz]

theorem verdicts_renumber [Field K] [LinearOrder K] (log : K → K) (pchisq : K → Nat → Option K) (alpha : K) (h : Renumbering card n τ)
    (hr : SameRows n τ rows rows') {x y : Nat} {z : List Nat} (hv : ∀ v ∈ z ++ [x, y], v < n) :
    verdicts log pchisq alpha card rows' x y z = verdicts log pchisq alpha card rows x y z := by
  rw [Bool.eq_iff_iff, verdicts_iff, verdicts_iff]
  unfold Independent
  rw [gSquare_renumber log h hr hv, degrees_renumber h hr hv]

end

theorem sumOut_values [AddCommMonoid K] {card card' : Nat → Nat} {vs : List Nat} (h : ∀ v ∈ vs, card v = card' v) (f : Assignment → K)
    (a : Assignment) : sumOut card vs f a = sumOut card' vs f a := by
  induction vs generalizing a with
  | nil => rfl
  | cons v vs ih =>
    simp only [sumOut]
    rw [h v (by simp)]
    exact Finset.sum_congr rfl (fun x _ => ih (fun w hw => h w (by simp [hw])) _)

theorem verdicts_card [Field K] [LinearOrder K] (log : K → K) (pchisq : K → Nat → Option K) (alpha : K) {card card' : Nat → Nat}
    {rows : List Assignment} {x y : Nat} {z : List Nat} (h : ∀ v ∈ z ++ [x, y], card v = card' v) :
    verdicts log pchisq alpha card rows x y z = verdicts log pchisq alpha card' rows x y z := by
  have hg : gSquare log card rows x y z = gSquare log card' rows x y z := sumOut_values h _ _
  have hd : degrees card rows x y z = degrees card' rows x y z := by
    unfold degrees observedValues
    rw [h x (by simp), h y (by simp)]
    exact sumOut_values (fun v hv => h v (by simp [hv])) _ _
  rw [Bool.eq_iff_iff, verdicts_iff, verdicts_iff]
  unfold Independent
  rw [hg, hd]

/-- Verdicts that agree on the variables give the same answers. -/
theorem Spec.Answers.congr {ci : CITest} {ind ind' : Nat → Nat → List Nat → Bool} {n g : Nat} (h : Answers ci ind n g)
    (he : ∀ x y z, (∀ v ∈ z ++ [x, y], v < n) → ind' x y z = ind x y z) : Answers ci ind' n g := by
  refine ⟨?_, ?_⟩
  · intro x y hxy hy
    rw [he x y [] (by intro v hv; simp at hv; omega)]
    exact h.empty x y hxy hy
  · intro x y d sets hxy hy hd hne hlen hsets
    have e : ∀ s ∈ sets, ind' x y s = ind x y s := by
      intro s hs
      apply he
      intro v hv
      simp only [List.mem_append, List.mem_cons, List.not_mem_nil, or_false] at hv
      rcases hv with hv | rfl | rfl
      · exact ((hsets s hs).2.2 v hv).1
      · omega
      · omega
    have hany : sets.any (ind' x y) = sets.any (ind x y) := by
      rw [Bool.eq_iff_iff, List.any_eq_true, List.any_eq_true]
      constructor
      · rintro ⟨s, hs, hi⟩; exact ⟨s, hs, by rw [← e s hs]; exact hi⟩
      · rintro ⟨s, hs, hi⟩; exact ⟨s, hs, by rw [e s hs]; exact hi⟩
    have hidx : sets.findIdx (ind' x y) = sets.findIdx (ind x y) := by
      have : ∀ l : List (List Nat), (∀ s ∈ l, ind' x y s = ind x y s) → l.findIdx (ind' x y) = l.findIdx (ind x y) := by
        intro l
        induction l with
        | nil => intro _; rfl
        | cons s l ih =>
          intro hl
          rw [List.findIdx_cons, List.findIdx_cons, hl s (by simp), ih (fun t ht => hl t (by simp [ht]))]
      exact this sets e
    rw [hany, hidx]
    exact h.group x y d sets hxy hy hd hne hlen hsets

/-! ### From the texts to the numbers -/

section

variable {n : Nat} {σ : Nat → Str → Str} {train train' : List (List Str)}

/-- The number of a text after renaming, from the number before. -/
def recode (σ : Nat → Str → Str) (train train' : List (List Str)) (j c : Nat) : Nat :=
  match (firstSeen (column train j))[c]? with
  | some s => codeIn train' j (σ j s)
  | none => c

theorem Spec.Renamed.column (h : Renamed n σ train train') {j : Nat} (hj : j < n) :
    ((Spec.column train j).map (σ j)).Perm (Spec.column train' j) := by
  have := h.rows.map (fun l => l.getD j [])
  rw [List.map_map, List.map_map] at this
  unfold Spec.column
  rw [List.map_map]
  refine (List.Perm.of_eq ?_).trans (this.trans (List.Perm.of_eq ?_))
  · apply List.map_congr_left
    intro r _
    simp [List.getD_eq_getElem?_getD, List.getElem?_range hj]
  · apply List.map_congr_left
    intro r _
    simp [List.getD_eq_getElem?_getD, List.getElem?_range hj]

theorem Spec.Renamed.mem (h : Renamed n σ train train') {j : Nat} (hj : j < n) {s : Str} (hs : s ∈ Spec.column train j) :
    σ j s ∈ Spec.column train' j := (h.column hj).mem_iff.1 (List.mem_map.2 ⟨s, hs, rfl⟩)

theorem Spec.Renamed.values (h : Renamed n σ train train') {j : Nat} (hj : j < n) :
    (firstSeen (Spec.column train' j)).length = (firstSeen (Spec.column train j)).length := by
  have hn : ((firstSeen (Spec.column train j)).map (σ j)).Nodup := by
    rw [List.nodup_map_iff_inj_on (firstSeen_nodup _)]
    intro s hs t ht e
    exact h.injective j hj s (mem_firstSeen.1 hs) t (mem_firstSeen.1 ht) e
  have : (firstSeen (Spec.column train' j)).Perm ((firstSeen (Spec.column train j)).map (σ j)) := by
    rw [List.perm_ext_iff_of_nodup (firstSeen_nodup _) hn]
    intro t
    rw [mem_firstSeen, ← (h.column hj).mem_iff, List.mem_map, List.mem_map]
    simp only [mem_firstSeen]
  rw [this.length_eq, List.length_map]

theorem recode_code {j : Nat} {s : Str} (hs : s ∈ column train j) :
    recode σ train train' j (codeIn train j s) = codeIn train' j (σ j s) := by
  unfold recode
  have hlt := List.idxOf_lt_length_iff.2 (mem_firstSeen.2 hs)
  unfold codeIn at *
  rw [List.getElem?_eq_getElem hlt, List.getElem_idxOf]

theorem code_lt {j : Nat} {s : Str} (hs : s ∈ column train j) : codeIn train j s < (firstSeen (column train j)).length :=
  List.idxOf_lt_length_iff.2 (mem_firstSeen.2 hs)

theorem renumbering (h : Renamed n σ train train') :
    Renumbering (fun v => (firstSeen (column train v)).length) n (recode σ train train') := by
  have hcase : ∀ v c, (c < (firstSeen (column train v)).length ∧ ∃ s ∈ column train v, c = codeIn train v s) ∨
      ((firstSeen (column train v)).length ≤ c ∧ recode σ train train' v c = c) := by
    intro v c
    rcases Nat.lt_or_ge c (firstSeen (column train v)).length with hc | hc
    · refine Or.inl ⟨hc, (firstSeen (column train v))[c], mem_firstSeen.1 (List.getElem_mem hc), ?_⟩
      exact ((firstSeen_nodup _).idxOf_getElem c hc).symm
    · refine Or.inr ⟨hc, ?_⟩
      unfold recode
      rw [List.getElem?_eq_none hc]
  have hlt : ∀ v < n, ∀ c < (firstSeen (column train v)).length, recode σ train train' v c < (firstSeen (column train v)).length := by
    intro v hv c hc
    rcases hcase v c with ⟨_, s, hs, rfl⟩ | ⟨h', _⟩
    · rw [recode_code hs, ← h.values hv]
      exact code_lt (h.mem hv hs)
    · omega
  refine ⟨?_, hlt⟩
  intro v hv x y e
  rcases hcase v x with ⟨hx, s, hs, rfl⟩ | ⟨hx, ex⟩ <;> rcases hcase v y with ⟨hy, t, ht, rfl⟩ | ⟨hy, ey⟩
  · rw [recode_code hs, recode_code ht] at e
    unfold codeIn at e
    rw [List.idxOf_inj (mem_firstSeen.2 (h.mem hv hs))] at e
    rw [h.injective v hv s hs t ht e]
  · have := hlt v hv _ hx
    omega
  · have := hlt v hv _ hy
    omega
  · omega

theorem sameRows (h : Renamed n σ train train') :
    SameRows n (recode σ train train') (train.map (rowAssignment train)) (train'.map (rowAssignment train')) := by
  unfold SameRows
  rw [List.map_map, List.map_map]
  have := h.rows.map (fun l => (List.range n).map (fun j => codeIn train' j (l.getD j [])))
  rw [List.map_map, List.map_map] at this
  refine (List.Perm.of_eq ?_).trans (this.trans (List.Perm.of_eq ?_))
  · apply List.map_congr_left
    intro r hr
    apply List.map_congr_left
    intro j hj
    have hj := List.mem_range.1 hj
    show recode σ train train' j (codeIn train j (cellText r j)) = _
    rw [recode_code (List.mem_map.2 ⟨r, hr, rfl⟩)]
    simp [List.getD_eq_getElem?_getD, List.getElem?_range hj]
  · apply List.map_congr_left
    intro r hr
    apply List.map_congr_left
    intro j hj
    have hj := List.mem_range.1 hj
    show _ = codeIn train' j (cellText r j)
    simp [List.getD_eq_getElem?_getD, List.getElem?_range hj]

theorem Spec.Renamed.dims (h : Renamed n σ train train') : trainDims train' n = trainDims train n := by
  unfold trainDims
  apply List.map_congr_left
  intro j hj
  exact h.values (List.mem_range.1 hj)

end

/-! ### Renaming without reordering -/

theorem firstSeen_map {f : Str → Str} {l : List Str} (hf : ∀ s ∈ l, ∀ t ∈ l, f s = f t → s = t) :
    firstSeen (l.map f) = (firstSeen l).map f := by
  induction l with
  | nil => rfl
  | cons x l ih =>
    rw [List.map_cons, firstSeen, firstSeen, List.map_cons, ih (fun s hs t ht => hf s (by simp [hs]) t (by simp [ht])), List.filter_map]
    congr 2
    apply List.filter_congr
    intro s hs
    have hs := mem_firstSeen.1 hs
    simp only [Function.comp_apply, ne_eq, decide_eq_decide]
    constructor
    · intro h e; exact h (by rw [e])
    · intro h e; exact h (hf s (by simp [hs]) x (by simp) e)

theorem idxOf_map {f : Str → Str} {l : List Str} {x : Str} (hf : ∀ s ∈ l, f s = f x → s = x) : (l.map f).idxOf (f x) = l.idxOf x := by
  induction l with
  | nil => rfl
  | cons y l ih =>
    rw [List.map_cons, List.idxOf_cons, List.idxOf_cons, ih (fun s hs => hf s (by simp [hs]))]
    have e : (f y == f x) = (y == x) := by
      rw [Bool.eq_iff_iff, beq_iff_eq, beq_iff_eq]
      exact ⟨hf y (by simp), fun h => by rw [h]⟩
    rw [e]

section

variable {n : Nat} {σ : Nat → Str → Str} {train train' test test' : List (List Str)}

theorem Spec.Rewritten.column (h : Rewritten n σ train train') {j : Nat} (hj : j < n) : column train' j = (column train j).map (σ j) := by
  have := congrArg (List.map (fun l => l.getD j [])) h
  rw [List.map_map, List.map_map] at this
  unfold Spec.column
  rw [List.map_map]
  refine Eq.trans ?_ (this.trans ?_)
  · apply List.map_congr_left
    intro r _
    simp [List.getD_eq_getElem?_getD, List.getElem?_range hj]
  · apply List.map_congr_left
    intro r _
    simp [List.getD_eq_getElem?_getD, List.getElem?_range hj]

theorem Spec.Rewritten.code (h : Rewritten n σ train train') (hf : Faithful n σ train test) {j : Nat} (hj : j < n) {s : Str}
    (hs : s ∈ Spec.column train j ++ Spec.column test j) : codeIn train' j (σ j s) = codeIn train j s := by
  have hc := (hf j hj).1
  unfold codeIn
  rw [h.column hj, firstSeen_map (fun s hs t ht => hc s (by simp [hs]) t (by simp [ht])), idxOf_map]
  intro t ht
  exact hc t (by simp [mem_firstSeen.1 ht]) s hs

theorem Spec.Rewritten.trainDims (h : Rewritten n σ train train') (hf : Faithful n σ train test) :
    trainDims train' n = Spec.trainDims train n := by
  unfold Spec.trainDims
  apply List.map_congr_left
  intro j hj
  have hj := List.mem_range.1 hj
  rw [h.column hj, firstSeen_map (fun s hs t ht => (hf j hj).1 s (by simp [hs]) t (by simp [ht])), List.length_map]

theorem Spec.Rewritten.trainColumns (h : Rewritten n σ train train') (hf : Faithful n σ train test) :
    trainColumns train' n = Spec.trainColumns train n := by
  unfold Spec.trainColumns
  apply List.map_congr_left
  intro j hj
  have hj := List.mem_range.1 hj
  rw [h.column hj, List.map_map]
  apply List.map_congr_left
  intro s hs
  exact h.code hf hj (by simp [hs])

theorem Spec.Rewritten.testCells (h : Rewritten n σ train train') (hf : Faithful n σ train test) (h' : Rewritten n σ test test') :
    test'.map (testCells train' n) = test.map (Spec.testCells train n) := by
  have key : ∀ r : List Str, Spec.testCells train' n r = (List.range n).filterMap (fun j =>
      if ((List.range n).map (fun j => cellText r j)).getD j [] ≠ [] ∧ ((List.range n).map (fun j => cellText r j)).getD j [] ∈ Spec.column train' j
      then some (j, codeIn train' j (((List.range n).map (fun j => cellText r j)).getD j [])) else none) := by
    intro r
    unfold Spec.testCells
    rw [← List.filterMap_eq_filter, List.map_filterMap]
    apply List.filterMap_congr
    intro j hj
    have hj := List.mem_range.1 hj
    have e : ((List.range n).map (fun j => cellText r j)).getD j [] = cellText r j := by
      simp [List.getD_eq_getElem?_getD, List.getElem?_range hj]
    rw [e]
    by_cases hk : Known train' r j
    · have hk' : cellText r j ≠ [] ∧ cellText r j ∈ Spec.column train' j := hk
      rw [if_pos hk']
      simp [Option.guard, hk]
    · have hk' : ¬ (cellText r j ≠ [] ∧ cellText r j ∈ Spec.column train' j) := hk
      rw [if_neg hk']
      simp [Option.guard, hk]
  have e1 : test'.map (Spec.testCells train' n) = (test'.map (fun r => (List.range n).map (fun j => cellText r j))).map (fun l =>
      (List.range n).filterMap (fun j => if l.getD j [] ≠ [] ∧ l.getD j [] ∈ Spec.column train' j
        then some (j, codeIn train' j (l.getD j [])) else none)) := by
    rw [List.map_map]
    exact List.map_congr_left (fun r _ => key r)
  rw [e1, h', List.map_map]
  apply List.map_congr_left
  intro r hr
  unfold Spec.testCells
  rw [← List.filterMap_eq_filter, List.map_filterMap]
  apply List.filterMap_congr
  intro j hj
  have hj := List.mem_range.1 hj
  have e : ((List.range n).map (fun j => σ j (cellText r j))).getD j [] = σ j (cellText r j) := by
    simp [List.getD_eq_getElem?_getD, List.getElem?_range hj]
  rw [e]
  have hm : cellText r j ∈ Spec.column train j ++ Spec.column test j := List.mem_append_right _ (List.mem_map.2 ⟨r, hr, rfl⟩)
  have hiff : (σ j (cellText r j) ≠ [] ∧ σ j (cellText r j) ∈ Spec.column train' j) ↔ Known train r j := by
    unfold Known
    rw [h.column hj, List.mem_map, ne_eq, (hf j hj).2 _ (List.mem_map.2 ⟨r, hr, rfl⟩)]
    refine and_congr_right (fun _ => ⟨?_, fun h => ⟨_, h, rfl⟩⟩)
    rintro ⟨s, hs, e⟩
    rw [← (hf j hj).1 s (by simp [hs]) _ hm e]
    exact hs
  by_cases hk : Known train r j
  · rw [if_pos (hiff.2 hk), h.code hf hj hm]
    simp [Option.guard, hk]
  · rw [if_neg (fun h => hk (hiff.1 h))]
    simp [Option.guard, hk]

end

end FastPGM
