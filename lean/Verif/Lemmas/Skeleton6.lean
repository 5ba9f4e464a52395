import Verif.Lemmas.Skeleton5
import Verif.Props.CellTable

/-!
Lemmas about the skeleton phase: renaming of variables, and the G² test as the source of the verdicts.
-/

namespace FastPGM

open Spec

theorem sort_lt {l : List Nat} (hn : l.Nodup) : (l.mergeSort (fun a b => decide (a ≤ b))).Pairwise (· < ·) := by
  have h1 : (l.mergeSort (fun a b => decide (a ≤ b))).Pairwise (fun a b => decide (a ≤ b) = true) :=
    List.pairwise_mergeSort (by intro a b c; simp; omega) (by intro a b; simp; omega) l
  have h2 : (l.mergeSort (fun a b => decide (a ≤ b))).Nodup := (List.mergeSort_perm l _).nodup_iff.2 hn
  refine (h1.and h2).imp ?_
  rintro a b ⟨h3, h4⟩
  have := of_decide_eq_true h3
  omega

theorem nodup_two {S : List Nat} {x y : Nat} (hs : S.Nodup) (hx : x ∉ S) (hy : y ∉ S) (hxy : x ≠ y) : (S ++ [x, y]).Nodup := by
  rw [List.nodup_append]
  refine ⟨hs, by simp [hxy], ?_⟩
  intro a ha b hb
  simp only [List.mem_cons, List.not_mem_nil, or_false] at hb
  rcases hb with rfl | rfl
  · rintro rfl; exact hx ha
  · rintro rfl; exact hy ha

theorem separable_not_mem {G : Nat → Nat → Prop} (hirr : ∀ x, ¬ G x x) {S : List Nat} {x y : Nat}
    (h : (∀ z ∈ S, G x z ∧ z ≠ y) ∨ (∀ z ∈ S, G y z ∧ z ≠ x)) : x ∉ S ∧ y ∉ S := by
  rcases h with h | h
  · exact ⟨fun hm => hirr x (h x hm).1, fun hm => (h y hm).2 rfl⟩
  · exact ⟨fun hm => (h x hm).2 rfl, fun hm => hirr y (h y hm).1⟩

theorem Separable.symm {ind : Nat → Nat → List Nat → Bool} {G : Nat → Nat → Prop} (hs : SymmetricOracle ind) (hirr : ∀ x, ¬ G x x)
    {d x y : Nat} (hxy : x ≠ y) (h : Separable ind G d x y) : Separable ind G d y x := by
  obtain ⟨S, h1, h2, h3, h4⟩ := h
  obtain ⟨hx, hy⟩ := separable_not_mem hirr h4
  refine ⟨S, h1, h2, ?_, h4.symm⟩
  rw [← (hs x y S (nodup_two (nodup_of_sorted h1) hx hy hxy)).1]
  exact h3

theorem separable_map {ind ind' : Nat → Nat → List Nat → Bool} {G G' : Nat → Nat → Prop} (hs : SymmetricOracle ind) (hirr : ∀ x, ¬ G x x)
    (π : Equiv.Perm Nat) (hind : ∀ x y S, ind' x y S = ind (π x) (π y) (S.map π)) (hG : ∀ x y, G' x y ↔ G (π x) (π y)) {d x y : Nat}
    (hxy : x ≠ y) : Separable ind' G' d x y ↔ Separable ind G d (π x) (π y) := by
  have hpxy : π x ≠ π y := fun h => hxy (π.injective h)
  constructor
  · rintro ⟨S, h1, h2, h3, h4⟩
    have hp := List.mergeSort_perm (S.map π) (fun a b => decide (a ≤ b))
    have hnd : (S.map π).Nodup := (nodup_of_sorted h1).map π.injective
    have h4' : (∀ z ∈ S.map π, G (π x) z ∧ z ≠ π y) ∨ (∀ z ∈ S.map π, G (π y) z ∧ z ≠ π x) := by
      rcases h4 with h | h
      · left
        intro z hz
        obtain ⟨w, hw, rfl⟩ := List.mem_map.1 hz
        exact ⟨(hG _ _).1 (h w hw).1, fun he => (h w hw).2 (π.injective he)⟩
      · right
        intro z hz
        obtain ⟨w, hw, rfl⟩ := List.mem_map.1 hz
        exact ⟨(hG _ _).1 (h w hw).1, fun he => (h w hw).2 (π.injective he)⟩
    obtain ⟨hx, hy⟩ := separable_not_mem hirr h4'
    refine ⟨_, sort_lt hnd, by rw [hp.length_eq, List.length_map, h2], ?_, ?_⟩
    · rw [← (hs (π x) (π y) (S.map π) (nodup_two hnd hx hy hpxy)).2 _ hp.symm, ← hind]
      exact h3
    · simpa only [hp.mem_iff] using h4'
  · rintro ⟨T, h1, h2, h3, h4⟩
    have hp := List.mergeSort_perm (T.map π.symm) (fun a b => decide (a ≤ b))
    have hnd : (T.map π.symm).Nodup := (nodup_of_sorted h1).map π.symm.injective
    obtain ⟨hx, hy⟩ := separable_not_mem hirr h4
    refine ⟨_, sort_lt hnd, by rw [hp.length_eq, List.length_map, h2], ?_, ?_⟩
    · rw [hind, ← (hs (π x) (π y) T (nodup_two (nodup_of_sorted h1) hx hy hpxy)).2]
      · exact h3
      · have := (hp.map π).symm
        rwa [List.map_map, show (π ∘ π.symm : Nat → Nat) = id from by funext a; simp, List.map_id] at this
    · simp only [hp.mem_iff]
      rcases h4 with h | h
      · left
        intro z hz
        obtain ⟨w, hw, rfl⟩ := List.mem_map.1 hz
        refine ⟨(hG _ _).2 ?_, fun he => (h w hw).2 ?_⟩
        · rw [π.apply_symm_apply]; exact (h w hw).1
        · rw [← he, π.apply_symm_apply]
      · right
        intro z hz
        obtain ⟨w, hw, rfl⟩ := List.mem_map.1 hz
        refine ⟨(hG _ _).2 ?_, fun he => (h w hw).2 ?_⟩
        · rw [π.apply_symm_apply]; exact (h w hw).1
        · rw [← he, π.apply_symm_apply]

theorem skeletonAt_irrefl (ind : Nat → Nat → List Nat → Bool) (n d x : Nat) : ¬ skeletonAt ind n d x x := by
  induction d with
  | zero => exact fun h => h.2.2 rfl
  | succ d ih => exact fun h => ih h.1

theorem levelGraph_symm {ind : Nat → Nat → List Nat → Bool} {G : Nat → Nat → Prop} (hs : SymmetricOracle ind) (hirr : ∀ x, ¬ G x x) {d x y : Nat} :
    levelGraph ind d G x y ↔ G x y ∧ ¬ Separable ind G d x y := by
  unfold levelGraph
  by_cases hxy : x = y
  · subst hxy
    exact ⟨fun h => absurd h.1 (hirr x), fun h => absurd h.1 (hirr x)⟩
  · rcases Nat.le_total x y with h | h
    · rw [Nat.min_eq_left h, Nat.max_eq_right h]
    · rw [Nat.min_eq_right h, Nat.max_eq_left h]
      exact and_congr_right (fun _ => not_congr ⟨fun h => Separable.symm hs hirr (Ne.symm hxy) h, fun h => Separable.symm hs hirr hxy h⟩)

theorem skeletonAt_map {ind ind' : Nat → Nat → List Nat → Bool} {n : Nat} (hs : SymmetricOracle ind)
    (π : Equiv.Perm Nat) (hπ : ∀ x, π x < n ↔ x < n) (hind : ∀ x y S, ind' x y S = ind (π x) (π y) (S.map π)) (d : Nat) :
    ∀ x y, skeletonAt ind' n d x y ↔ skeletonAt ind n d (π x) (π y) := by
  have hs' : SymmetricOracle ind' := by
    intro x y S hn
    have hn' : (S.map π ++ [π x, π y]).Nodup := by
      have := hn.map π.injective
      simpa using this
    refine ⟨?_, ?_⟩
    · rw [hind, hind]
      exact (hs _ _ _ hn').1
    · intro T hT
      rw [hind, hind]
      exact (hs _ _ _ hn').2 _ (hT.map π)
  induction d with
  | zero =>
    intro x y
    show _ ∧ _ ∧ _ ↔ _ ∧ _ ∧ _
    rw [hπ, hπ, π.injective.ne_iff]
  | succ d ih =>
    intro x y
    show levelGraph _ _ _ _ _ ↔ levelGraph _ _ _ _ _
    rw [levelGraph_symm hs' (skeletonAt_irrefl ind' n d), levelGraph_symm hs (skeletonAt_irrefl ind n d), ih]
    by_cases hxy : x = y
    · subst hxy
      exact ⟨fun h => absurd h.1 (skeletonAt_irrefl ind n d _), fun h => absurd h.1 (skeletonAt_irrefl ind n d _)⟩
    · rw [separable_map hs (skeletonAt_irrefl ind n d) π hind ih hxy]

theorem adjacentIn_iff {n : Nat} {G : Nat → Nat → Prop} {k : Skeleton} (hk : Represents n G k) (x y : Nat) : AdjacentIn k x y ↔ G x y := by
  unfold AdjacentIn
  constructor
  · rintro ⟨e, he, ⟨rfl, rfl⟩ | ⟨rfl, rfl⟩⟩
    · exact ((hk.edge _ _).1 (List.mem_map.2 ⟨e, he, rfl⟩)).2
    · exact hk.symm _ _ ((hk.edge _ _).1 (List.mem_map.2 ⟨e, he, rfl⟩)).2
  · intro h
    rcases Nat.lt_or_ge x y with hxy | hxy
    · obtain ⟨e, he, heq⟩ := List.mem_map.1 ((hk.edge x y).2 ⟨hxy, h⟩)
      simp only [Prod.mk.injEq] at heq
      exact ⟨e, he, Or.inl heq⟩
    · have : y < x := by have := (hk.range x y h).2; omega
      obtain ⟨e, he, heq⟩ := List.mem_map.1 ((hk.edge y x).2 ⟨this, hk.symm _ _ h⟩)
      simp only [Prod.mk.injEq] at heq
      exact ⟨e, he, Or.inr heq⟩

/-! ### Renaming of variables in data -/

theorem sumOut_rename {K : Type} [AddCommMonoid K] (card : Nat → Nat) (π : Equiv.Perm Nat) (vs : List Nat) (f : Assignment → K) (a : Assignment) :
    sumOut (card ∘ π) vs (fun b => f (b ∘ π.symm)) a = sumOut card (vs.map π) f (a ∘ π.symm) := by
  induction vs generalizing a with
  | nil => rfl
  | cons v vs ih =>
    rw [List.map_cons]
    unfold sumOut
    apply Finset.sum_congr rfl
    intro x _
    rw [ih]
    congr 1
    funext w
    simp only [Function.comp, Assignment.set]
    by_cases h : w = π v
    · subst h; simp
    · rw [if_neg h, if_neg (fun h' => h (by rw [← h', π.apply_symm_apply]))]

theorem countSame_rename (π : Equiv.Perm Nat) (rows : List Assignment) (vs : List Nat) (a : Assignment) :
    countSame (rows.map (fun r => r ∘ π)) vs a = countSame rows (vs.map π) (a ∘ π.symm) := by
  unfold countSame
  rw [List.countP_map]
  congr 1
  funext r
  simp [List.all_map, Function.comp_def]

theorem gSquare_rename {K : Type} [Field K] (log : K → K) (card : Nat → Nat) (π : Equiv.Perm Nat) (rows : List Assignment) (x y : Nat) (z : List Nat) :
    gSquare log (card ∘ π) (rows.map (fun r => r ∘ π)) x y z = gSquare log card rows (π x) (π y) (z.map π) := by
  unfold gSquare
  have := sumOut_rename card π (z ++ [x, y]) (fun a => gTerm log (countSame rows ((z ++ [x, y]).map π) a) (countSame rows ((z ++ [x]).map π) a)
    (countSame rows ((z ++ [y]).map π) a) (countSame rows (z.map π) a)) (fun _ => 0)
  simp only [countSame_rename]
  rw [this]
  simp only [List.map_append, List.map_cons, List.map_nil]
  rfl

theorem degrees_rename (card : Nat → Nat) (π : Equiv.Perm Nat) (rows : List Assignment) (x y : Nat) (z : List Nat) :
    degrees (card ∘ π) (rows.map (fun r => r ∘ π)) x y z = degrees card rows (π x) (π y) (z.map π) := by
  unfold degrees
  have hobs : ∀ v a, observedValues (card ∘ π) (rows.map (fun r => r ∘ π)) v z a = observedValues card rows (π v) (z.map π) (a ∘ π.symm) := by
    intro v a
    unfold observedValues
    congr 1
    apply Finset.filter_congr
    intro w _
    rw [countSame_rename]
    have : (a.set v w) ∘ π.symm = Assignment.set (a ∘ π.symm) (π v) w := by
      funext u
      simp only [Function.comp, Assignment.set]
      by_cases h : u = π v
      · subst h; simp
      · rw [if_neg h, if_neg (fun h' => h (by rw [← h', π.apply_symm_apply]))]
    rw [this]
    simp
  simp only [hobs]
  exact sumOut_rename card π z (fun a => (observedValues card rows (π x) (z.map π) a - 1) * (observedValues card rows (π y) (z.map π) a - 1)) (fun _ => 0)

/-! ### The G² test -/

section
variable {K : Type} [Field K] [LinearOrder K] (log : K → K) (pchisq : K → Nat → Option K) (alpha : K)
  {card : Nat → Nat} {dims : List Nat} {cols : List (List Nat)} {rows : List Assignment} {n : Nat}

theorem verdicts_iff {x y : Nat} {z : List Nat} :
    verdicts log pchisq alpha card rows x y z = true ↔ Independent log pchisq alpha card rows x y z := by
  classical
  exact decide_eq_true_iff

theorem verdicts_symm : SymmetricOracle (verdicts log pchisq alpha card rows) := by
  intro x y S hn
  have key : ∀ T, S.Perm T → ((Independent log pchisq alpha card rows x y S ↔ Independent log pchisq alpha card rows y x T)) := by
    intro T hT
    unfold Independent
    rw [gSquare_symm log hn hT, degrees_symm hn hT]
  have hn' : (S ++ [y, x]).Nodup := by
    refine (List.Perm.nodup_iff ?_).1 hn
    exact List.Perm.append_left _ (List.Perm.swap _ _ _)
  have key' : ∀ T, S.Perm T → ((Independent log pchisq alpha card rows y x S ↔ Independent log pchisq alpha card rows x y T)) := by
    intro T hT
    unfold Independent
    rw [gSquare_symm log hn' hT, degrees_symm hn' hT]
  constructor
  · unfold verdicts
    rw [decide_eq_decide]
    exact key S (List.Perm.refl _)
  · intro T hT
    unfold verdicts
    rw [decide_eq_decide]
    exact (key S (List.Perm.refl _)).trans (key' T hT)

theorem verdicts_rename (π : Equiv.Perm Nat) (x y : Nat) (z : List Nat) :
    verdicts log pchisq alpha (card ∘ π) (rows.map (fun r => r ∘ π)) x y z = verdicts log pchisq alpha card rows (π x) (π y) (z.map π) := by
  rw [Bool.eq_iff_iff, verdicts_iff, verdicts_iff]
  unfold Independent
  simp only [gSquare_rename, degrees_rename]

/-- The single test, and groups of up to 8 sets if tables without degrees of freedom do not occur or are judged independent by the
chi-square function, answer according to the G² verdicts. -/
theorem answers_gsquare (hc : Columns card n cols rows) (hdim : ∀ v < n, dims[v]? = some (card v)) {g : Nat}
    (hg : g ≤ 1 ∨ g ≤ 8 ∧ ∀ x y z, x < y → y < n → (∀ v ∈ z, v < n) → z ≠ [] → degrees card rows x y z = 0 →
      ∃ q, pchisq (gSquare log card rows x y z) 0 = some q ∧ alpha < 1 - q) :
    Answers (ciTest log pchisq alpha dims cols rows.length) (verdicts log pchisq alpha card rows) n g := by
  refine ⟨?_, ?_⟩
  · intro x y hxy hy
    have hv : ∀ v ∈ [] ++ [x, y], v < n := by
      intro v hv
      simp at hv
      omega
    have hn : ([] ++ [x, y] : List Nat).Nodup := by simp; omega
    obtain ⟨res, h1, h2, _⟩ := C27_statistic log pchisq alpha hc hdim hv hn
    refine ⟨res.first, ?_⟩
    unfold ciTest
    rw [h1, ok_bind]
    show Except.ok _ = Except.ok _
    congr 2
    rw [Bool.eq_iff_iff, h2, verdicts_iff]
  · intro x y d sets hxy hy hd hne hlen hsets
    have hvs : ∀ s ∈ sets, ∀ v ∈ s ++ [x, y], v < n := by
      intro s hs v hv
      simp only [List.mem_append, List.mem_cons, List.not_mem_nil, or_false] at hv
      rcases hv with h | rfl | rfl
      · exact ((hsets s hs).2.2 v h).1
      · omega
      · omega
    have hns : ∀ s ∈ sets, (s ++ [x, y]).Nodup := by
      intro s hs
      obtain ⟨_, h2, h3⟩ := hsets s hs
      exact nodup_two (nodup_of_sorted h2) (fun h => (h3 x h).2.1 rfl) (fun h => (h3 y h).2.2 rfl) (by omega)
    have hnn : ∀ s ∈ sets, s ≠ [] := by
      rintro s hs rfl
      have := (hsets [] hs).1
      simp at this
      omega
    have hsingle : ∀ s ∈ sets, gSquareXYZ log pchisq alpha dims cols rows.length x y s =
        .ok (singleResult pchisq alpha (some 0) (gSquare log card rows x y s) (degrees card rows x y s)) := fun s hs =>
      gSquareXYZ_eq log pchisq alpha (hnn s hs) (hns s hs) (Columns.for hc (hvs s hs)) (fun v hv => hdim v (hvs s hs v hv))
    have hverd : ∀ s ∈ sets, (singleResult pchisq alpha (some 0) (gSquare log card rows x y s) (degrees card rows x y s)).indep =
        verdicts log pchisq alpha card rows x y s := by
      intro s hs
      rw [Bool.eq_iff_iff, singleResult_indep, verdicts_iff]
    unfold ciTest independenceResult
    rw [if_neg (by
      intro h
      rw [List.flatten_eq_nil_iff] at h
      obtain ⟨s, hs⟩ := List.exists_mem_of_ne_nil _ hne
      exact hnn s hs (h s hs))]
    by_cases h1 : sets.length > 1
    · rw [if_pos h1]
      have hg' := hg.resolve_left (by omega)
      obtain ⟨verdict, h2, h3⟩ := C26_group_partial log pchisq alpha hc hdim (x := x) (y := y) hne hd (fun s hs => (hsets s hs).1) (by
        intro v hv
        simp only [List.mem_append] at hv
        rcases hv with hv | hv
        · obtain ⟨s, hs, hvs'⟩ := List.mem_flatten.1 hv
          exact hvs s hs v (by simp [hvs'])
        · obtain ⟨s, hs⟩ := List.exists_mem_of_ne_nil _ hne
          exact hvs s hs v (by simp only [List.mem_append]; exact Or.inr hv)) hns (by omega)
        (fun s hs h0 => hg'.2 x y s hxy hy (fun v hv => ((hsets s hs).2.2 v hv).1) (hnn s hs) h0)
      have hv : ∀ s ∈ sets, verdict s = verdicts log pchisq alpha card rows x y s := by
        intro s hs
        obtain ⟨res, hres, hind⟩ := h2 s hs
        rw [hsingle s hs] at hres
        cases hres
        rw [← hind, hverd s hs]
      rcases h3 with ⟨e, s, he, hvs', hbefore, hrun⟩ | ⟨hall, hrun⟩
      · rw [hrun, ok_bind]
        have hmem := List.mem_of_getElem? he
        have helt := (List.getElem?_eq_some_iff.1 he).1
        have hany : sets.any (verdicts log pchisq alpha card rows x y) = true :=
          List.any_eq_true.2 ⟨s, hmem, by rw [← hv s hmem]; exact hvs'⟩
        refine ⟨some e, ?_, ?_⟩
        · rw [hany]; rfl
        · intro _
          congr 1
          symm
          rw [List.findIdx_eq helt]
          have hse : sets[e] = s := (List.getElem?_eq_some_iff.1 he).2
          refine ⟨by rw [hse, ← hv s hmem]; exact hvs', ?_⟩
          intro j hj
          have hjl : j < sets.length := by omega
          have hjm : sets[j] ∈ sets := List.getElem_mem hjl
          rw [← hv _ hjm]
          exact hbefore j hj _ (List.getElem?_eq_getElem hjl)
      · rw [hrun, ok_bind]
        have hany : sets.any (verdicts log pchisq alpha card rows x y) = false := by
          rw [List.any_eq_false]
          intro s hs
          rw [← hv s hs, hall s hs]
          simp
        refine ⟨none, ?_, ?_⟩
        · rw [hany]; rfl
        · intro h
          rw [hany] at h
          cases h
    · rw [if_neg h1]
      have hl1 : sets.length = 1 := by
        have := List.length_pos_of_ne_nil hne
        omega
      obtain ⟨s, rfl⟩ := List.length_eq_one_iff.1 hl1
      rw [show [s].flatten = s by simp, hsingle s (by simp), ok_bind]
      have hfirst : (singleResult pchisq alpha (some 0) (gSquare log card rows x y s) (degrees card rows x y s)).first = some 0 := by
        unfold singleResult
        split <;> rfl
      refine ⟨some 0, ?_, ?_⟩
      · show Except.ok _ = Except.ok _
        rw [hverd s (by simp), hfirst]
        simp
      · intro h
        have hv : verdicts log pchisq alpha card rows x y s = true := by simpa using h
        rw [List.findIdx_cons, hv]
        rfl

end

end FastPGM
