import Verif.Lemmas.JTElim2

/-!
Prim's algorithm in `FormJunctionTree`: the separators it selects form a junction tree.
-/

namespace FastPGM

open Spec Relation

theorem setInsert_of_mem {x : Nat} {l : List Nat} (h : l.Pairwise (· < ·)) (hx : x ∈ l) : setInsert x l = l :=
  sorted_eq (setInsert_sorted h) h (fun _ ha => (mem_setInsert.1 ha).elim (fun e => e ▸ hx) id) (fun _ ha => mem_setInsert.2 (Or.inr ha))

theorem length_setInsert_of_not_mem {x : Nat} {l : List Nat} (h : l.Pairwise (· < ·)) (hx : x ∉ l) :
    (setInsert x l).length = l.length + 1 := by
  have : (setInsert x l).Perm (x :: l) :=
    (List.perm_ext_iff_of_nodup (nodup_of_sorted (setInsert_sorted h)) (List.nodup_cons.2 ⟨hx, nodup_of_sorted h⟩)).2
      (fun a => by rw [mem_setInsert, List.mem_cons])
  simpa using this.length_eq

/-- Clique `i` contains the variable `v`. -/
def clqHas (cliques : List (List Nat)) (i v : Nat) : Prop := v ∈ cliques.getD i []

/-- Two cliques are the ends of one of the separators. -/
def sepEdge (seps : List (Nat × Nat)) (i j : Nat) : Prop := (i, j) ∈ seps ∨ (j, i) ∈ seps

theorem sepEdge_symm {seps : List (Nat × Nat)} : ∀ i j, sepEdge seps i j → sepEdge seps j i := fun _ _ h => h.symm

theorem mem_commonVars {cliques : List (List Nat)} {i j v : Nat} :
    v ∈ commonVars cliques i j ↔ clqHas cliques i v ∧ clqHas cliques j v := by
  simp [commonVars, clqHas]

theorem mem_candidateSeps {cliques : List (List Nat)} {p : Nat × Nat} :
    p ∈ candidateSeps cliques ↔ p.1 < p.2 ∧ p.2 < cliques.length ∧ ∃ v, clqHas cliques p.1 v ∧ clqHas cliques p.2 v := by
  unfold candidateSeps
  rw [List.mem_flatMap]
  constructor
  · rintro ⟨i, hi, hp⟩
    obtain ⟨j, hj, rfl⟩ := List.mem_map.1 hp
    simp only [List.mem_filter, List.mem_range, decide_eq_true_eq] at hj hi
    obtain ⟨v, hv⟩ := List.exists_mem_of_ne_nil _ hj.2.2
    exact ⟨hj.2.1, hj.1, v, mem_commonVars.1 hv⟩
  · rintro ⟨h1, h2, v, hv⟩
    refine ⟨p.1, List.mem_range.2 (by omega), List.mem_map.2 ⟨p.2, ?_, rfl⟩⟩
    simp only [List.mem_filter, List.mem_range, decide_eq_true_eq]
    exact ⟨h2, h1, List.ne_nil_of_mem (mem_commonVars.2 hv)⟩

/-- Exactly one end is in the tree. -/
def crossing (tree : List Nat) (p : Nat × Nat) : Prop := (p.1 ∈ tree ∧ p.2 ∉ tree) ∨ (p.1 ∉ tree ∧ p.2 ∈ tree)

theorem heaviestSep_spec (cliques : List (List Nat)) (ord : List (Nat × Nat)) (tree : List Nat) :
    match heaviestSep cliques ord tree with
    | none => ∀ q ∈ ord, ¬ crossing tree q
    | some p => p ∈ ord ∧ crossing tree p ∧
        ∀ q ∈ ord, crossing tree q → (commonVars cliques q.1 q.2).length ≤ (commonVars cliques p.1 p.2).length := by
  unfold heaviestSep
  induction ord using List.reverseRecOn with
  | nil => simp
  | append_singleton l x ih =>
    rw [List.foldl_append, List.foldl_cons, List.foldl_nil]
    generalize List.foldl (fun best p =>
      if (p.1 ∈ tree ∧ p.2 ∉ tree) ∨ (p.1 ∉ tree ∧ p.2 ∈ tree) then
        match best with
        | none => some p
        | some q => if (commonVars cliques q.1 q.2).length < (commonVars cliques p.1 p.2).length then some p else some q
      else best) none l = best at ih
    by_cases hx : (x.1 ∈ tree ∧ x.2 ∉ tree) ∨ (x.1 ∉ tree ∧ x.2 ∈ tree)
    · rw [if_pos hx]
      match best, ih with
      | none, ih =>
        refine ⟨by simp, hx, fun q hq hc => ?_⟩
        rcases List.mem_append.1 hq with hq | hq
        · exact absurd hc (ih q hq)
        · rw [List.mem_singleton] at hq; subst hq; omega
      | some p, ih =>
        simp only
        by_cases hlt : (commonVars cliques p.1 p.2).length < (commonVars cliques x.1 x.2).length
        · rw [if_pos hlt]
          refine ⟨by simp, hx, fun q hq hc => ?_⟩
          rcases List.mem_append.1 hq with hq | hq
          · have := ih.2.2 q hq hc; omega
          · rw [List.mem_singleton] at hq; subst hq; omega
        · rw [if_neg hlt]
          refine ⟨by simp [ih.1], ih.2.1, fun q hq hc => ?_⟩
          rcases List.mem_append.1 hq with hq | hq
          · exact ih.2.2 q hq hc
          · rw [List.mem_singleton] at hq; subst hq; omega
    · rw [if_neg hx]
      match best, ih with
      | none, ih =>
        intro q hq
        rcases List.mem_append.1 hq with hq | hq
        · exact ih q hq
        · rw [List.mem_singleton] at hq; subst hq; exact hx
      | some p, ih =>
        refine ⟨by simp [ih.1], ih.2.1, fun q hq hc => ?_⟩
        rcases List.mem_append.1 hq with hq | hq
        · exact ih.2.2 q hq hc
        · rw [List.mem_singleton] at hq; subst hq; exact absurd hc hx

/-- What holds of the partial tree whatever the cliques are. -/
structure PrimInv (cliques : List (List Nat)) (ord : List (Nat × Nat)) (tree : List Nat) (seps : List (Nat × Nat)) : Prop where
  sorted : tree.Pairwise (· < ·)
  lt : ∀ i ∈ tree, i < cliques.length
  sub : ∀ p ∈ seps, p ∈ ord
  ends : ∀ p ∈ seps, p.1 ∈ tree ∧ p.2 ∈ tree
  conn : ∀ x y, x ∈ tree → y ∈ tree → ReflTransGen (sepEdge seps) x y
  len : seps.length + 1 = tree.length
  nodup : seps.Nodup

theorem PrimInv.start {cliques : List (List Nat)} {ord : List (Nat × Nat)} (h : cliques ≠ []) : PrimInv cliques ord [0] [] := by
  refine ⟨by simp, ?_, by simp, by simp, ?_, rfl, by simp⟩
  · intro i hi
    rw [List.mem_singleton] at hi
    subst hi
    exact List.length_pos_iff.2 h
  · intro x y hx hy
    rw [List.mem_singleton] at hx hy
    subst hx; subst hy
    exact .refl

theorem PrimInv.step {cliques : List (List Nat)} {ord : List (Nat × Nat)} {tree : List Nat} {seps : List (Nat × Nat)}
    (h : PrimInv cliques ord tree seps) {p : Nat × Nat} (hp : p ∈ ord) (hl : p.1 < cliques.length ∧ p.2 < cliques.length)
    (hc : crossing tree p) :
    PrimInv cliques ord (setInsert p.2 (setInsert p.1 tree)) (seps ++ [p]) ∧
      (setInsert p.2 (setInsert p.1 tree)).length = tree.length + 1 := by
  have hmem : ∀ x, x ∈ setInsert p.2 (setInsert p.1 tree) ↔ x = p.2 ∨ x = p.1 ∨ x ∈ tree := by
    intro x; rw [mem_setInsert, mem_setInsert]
  have hlen : (setInsert p.2 (setInsert p.1 tree)).length = tree.length + 1 := by
    rcases hc with ⟨h1, h2⟩ | ⟨h1, h2⟩
    · rw [setInsert_of_mem h.sorted h1, length_setInsert_of_not_mem h.sorted h2]
    · rw [setInsert_of_mem (setInsert_sorted h.sorted) (mem_setInsert.2 (Or.inr h2)), length_setInsert_of_not_mem h.sorted h1]
  refine ⟨⟨setInsert_sorted (setInsert_sorted h.sorted), ?_, ?_, ?_, ?_, ?_, ?_⟩, hlen⟩
  · intro i hi
    rcases (hmem i).1 hi with rfl | rfl | hi
    · exact hl.2
    · exact hl.1
    · exact h.lt i hi
  · intro q hq
    rcases List.mem_append.1 hq with hq | hq
    · exact h.sub q hq
    · rw [List.mem_singleton] at hq; subst hq; exact hp
  · intro q hq
    rcases List.mem_append.1 hq with hq | hq
    · exact ⟨(hmem _).2 (Or.inr (Or.inr (h.ends q hq).1)), (hmem _).2 (Or.inr (Or.inr (h.ends q hq).2))⟩
    · rw [List.mem_singleton] at hq; subst hq
      exact ⟨(hmem _).2 (Or.inr (Or.inl rfl)), (hmem _).2 (Or.inl rfl)⟩
  · have old : ∀ x y, x ∈ tree → y ∈ tree → ReflTransGen (sepEdge (seps ++ [p])) x y := by
      intro x y hx hy
      refine conn_mono ?_ (h.conn x y hx hy)
      rintro a b (hab | hab)
      · exact Or.inl (List.mem_append_left _ hab)
      · exact Or.inr (List.mem_append_left _ hab)
    have edge : sepEdge (seps ++ [p]) p.1 p.2 := Or.inl (List.mem_append_right _ (by simp))
    -- every vertex is joined to an old one
    have reach : ∀ x, x ∈ setInsert p.2 (setInsert p.1 tree) → ∃ y ∈ tree, ReflTransGen (sepEdge (seps ++ [p])) x y := by
      intro x hx
      rcases hc with ⟨h1, h2⟩ | ⟨h1, h2⟩
      · rcases (hmem x).1 hx with rfl | rfl | hx
        · exact ⟨p.1, h1, .single (sepEdge_symm _ _ edge)⟩
        · exact ⟨_, h1, .refl⟩
        · exact ⟨x, hx, .refl⟩
      · rcases (hmem x).1 hx with rfl | rfl | hx
        · exact ⟨_, h2, .refl⟩
        · exact ⟨p.2, h2, .single edge⟩
        · exact ⟨x, hx, .refl⟩
    intro x y hx hy
    obtain ⟨x', hx', h1⟩ := reach x hx
    obtain ⟨y', hy', h2⟩ := reach y hy
    exact (h1.trans (old x' y' hx' hy')).trans (conn_symm sepEdge_symm h2)
  · rw [List.length_append, List.length_singleton, hlen, h.len]
  · rw [List.nodup_append]
    refine ⟨h.nodup, by simp, ?_⟩
    intro a ha b hb hab
    rw [List.mem_singleton] at hb
    subst hb; subst hab
    have := h.ends a ha
    rcases hc with ⟨_, h2⟩ | ⟨h1, _⟩
    · exact h2 this.2
    · exact h1 this.1

theorem PrimInv.all {cliques : List (List Nat)} {ord : List (Nat × Nat)} {tree : List Nat} {seps : List (Nat × Nat)}
    (h : PrimInv cliques ord tree seps) (hl : ¬ tree.length < cliques.length) :
    (∀ i < cliques.length, i ∈ tree) ∧ tree.length = cliques.length := by
  have hsp : List.Subperm tree (List.range cliques.length) :=
    List.subperm_of_subset (nodup_of_sorted h.sorted) (fun i hi => List.mem_range.2 (h.lt i hi))
  have hle := hsp.length_le
  rw [List.length_range] at hle
  have hp := hsp.perm_of_length_le (by rw [List.length_range]; omega)
  exact ⟨fun i hi => hp.symm.subset (List.mem_range.2 hi), by omega⟩

/-- If the loop ends normally, the separators connect all cliques. -/
theorem primLoop_sound {cliques : List (List Nat)} {ord : List (Nat × Nat)} (hord : ∀ p ∈ ord, p.1 < cliques.length ∧ p.2 < cliques.length)
    (fuel : Nat) {tree : List Nat} {seps : List (Nat × Nat)} (h : PrimInv cliques ord tree seps) :
    (∃ seps', primLoop cliques ord fuel tree seps = .ok seps' ∧ ∃ tree', PrimInv cliques ord tree' seps' ∧ ¬ tree'.length < cliques.length) ∨
      primLoop cliques ord fuel tree seps = .error .ub := by
  induction fuel generalizing tree seps with
  | zero =>
    unfold primLoop
    by_cases hl : tree.length < cliques.length
    · exact Or.inr (if_pos hl)
    · exact Or.inl ⟨seps, if_neg hl, tree, h, hl⟩
  | succ fuel ih =>
    unfold primLoop
    by_cases hl : tree.length < cliques.length
    · rw [if_pos hl]
      have hs := heaviestSep_spec cliques ord tree
      match hh : heaviestSep cliques ord tree with
      | none => exact Or.inr rfl
      | some p =>
        rw [hh] at hs
        exact ih (h.step hs.1 (hord p hs.1) hs.2.1).1
    · exact Or.inl ⟨seps, if_neg hl, tree, h, hl⟩

/-- With a junction tree available and cliques that hang together, the loop ends normally with a junction tree. -/
theorem primLoop_spec {cliques : List (List Nat)} {ord : List (Nat × Nat)} (hord : ∀ p, p ∈ ord ↔ p ∈ candidateSeps cliques)
    (hnd : ∀ k ∈ cliques, k.Nodup)
    (hcross : ∀ A : Nat → Prop, (∃ i < cliques.length, A i) → (∃ j < cliques.length, ¬ A j) →
      ∃ i j v, i < cliques.length ∧ j < cliques.length ∧ A i ∧ ¬ A j ∧ clqHas cliques i v ∧ clqHas cliques j v)
    (fuel : Nat) {tree : List Nat} {seps : List (Nat × Nat)} (h : PrimInv cliques ord tree seps) (h0 : tree ≠ [])
    (hf : cliques.length ≤ fuel + tree.length)
    (hT : ∃ T, IsJT (clqHas cliques) (fun i => i < cliques.length) T ∧ ∀ p ∈ seps, T p.1 p.2) :
    ∃ seps' tree', primLoop cliques ord fuel tree seps = .ok seps' ∧ PrimInv cliques ord tree' seps' ∧ ¬ tree'.length < cliques.length ∧
      ∃ T, IsJT (clqHas cliques) (fun i => i < cliques.length) T ∧ ∀ p ∈ seps', T p.1 p.2 := by
  induction fuel generalizing tree seps with
  | zero =>
    unfold primLoop
    have hl : ¬ tree.length < cliques.length := by omega
    exact ⟨seps, tree, if_neg hl, h, hl, hT⟩
  | succ fuel ih =>
    unfold primLoop
    by_cases hl : tree.length < cliques.length
    · rw [if_pos hl]
      have hlt : ∀ p ∈ ord, p.1 < cliques.length ∧ p.2 < cliques.length := fun p hp => by
        have := mem_candidateSeps.1 ((hord p).1 hp)
        omega
      have hcommon : ∀ i j, i < cliques.length → (commonVars cliques i j).Nodup := by
        intro i j hi
        unfold commonVars
        refine List.Nodup.filter _ (hnd _ ?_)
        rw [getD_of_lt hi]
        exact List.getElem_mem _
      -- any pair of cliques with a common variable is a candidate
      have cand : ∀ i j v, i < cliques.length → j < cliques.length → i ≠ j → clqHas cliques i v → clqHas cliques j v →
          (i, j) ∈ ord ∨ (j, i) ∈ ord := by
        intro i j v hi hj hij h1 h2
        rcases Nat.lt_or_gt_of_ne hij with hlt | hlt
        · exact Or.inl ((hord _).2 (mem_candidateSeps.2 ⟨hlt, hj, v, h1, h2⟩))
        · exact Or.inr ((hord _).2 (mem_candidateSeps.2 ⟨hlt, hi, v, h2, h1⟩))
      have hs := heaviestSep_spec cliques ord tree
      match hh : heaviestSep cliques ord tree with
      | none =>
        exfalso
        rw [hh] at hs
        obtain ⟨i0, hi0⟩ := List.exists_mem_of_ne_nil _ h0
        have hj0 : ∃ j < cliques.length, j ∉ tree := by
          by_contra hcon
          push Not at hcon
          have hsp : List.Subperm (List.range cliques.length) tree :=
            List.subperm_of_subset List.nodup_range (fun i hi => hcon i (List.mem_range.1 hi))
          have := hsp.length_le
          rw [List.length_range] at this
          omega
        obtain ⟨i, j, v, hi, hj, hit, hjt, h1, h2⟩ := hcross (fun i => i ∈ tree) ⟨i0, h.lt i0 hi0, hi0⟩ hj0
        rcases cand i j v hi hj (fun e => hjt (e ▸ hit)) h1 h2 with hm | hm
        · exact hs _ hm (Or.inl ⟨hit, hjt⟩)
        · exact hs _ hm (Or.inr ⟨hjt, hit⟩)
      | some p =>
        rw [hh] at hs
        obtain ⟨hp, hpc, hmax⟩ := hs
        obtain ⟨hinv, hlen⟩ := h.step hp (hlt p hp) hpc
        obtain ⟨T, hT1, hT2⟩ := hT
        have hTE : ∀ {x y}, sepEdge seps x y → T x y ∧ x ∈ tree ∧ y ∈ tree := by
          rintro x y (hxy | hxy)
          · exact ⟨hT2 _ hxy, h.ends _ hxy⟩
          · exact ⟨hT1.symm _ _ (hT2 _ hxy), (h.ends _ hxy).symm⟩
        -- the two orientations of the crossing pair
        have key : ∀ i j, (i, j) = p ∨ (j, i) = p → i ∈ tree → j ∉ tree → i < cliques.length → j < cliques.length →
            ∃ T', IsJT (clqHas cliques) (fun i => i < cliques.length) T' ∧ ∀ q ∈ seps ++ [p], T' q.1 q.2 := by
          intro i j hijp hit hjt hi hj
          have hne : ∃ v, clqHas cliques i v ∧ clqHas cliques j v := by
            obtain ⟨_, _, v, h1, h2⟩ := mem_candidateSeps.1 ((hord p).1 hp)
            rcases hijp with rfl | rfl
            · exact ⟨v, h1, h2⟩
            · exact ⟨v, h2, h1⟩
          have hwp : (commonVars cliques p.1 p.2).length ≤ (commonVars cliques i j).length := by
            have hsp : List.Subperm (commonVars cliques p.1 p.2) (commonVars cliques i j) := by
              refine List.subperm_of_subset (hcommon _ _ (hlt p hp).1) (fun v hv => ?_)
              rw [mem_commonVars] at hv ⊢
              rcases hijp with rfl | rfl
              · exact hv
              · exact hv.symm
            exact hsp.length_le
          obtain ⟨T', h1, h2, h3⟩ := hT1.exchange (A := fun i => i ∈ tree) (E := sepEdge seps) hTE (fun hx hy => h.conn _ _ hx hy)
            hit hi hjt hj (by
              intro x y hxt hx hyt hy hsub v hvx hvy
              have hw : (commonVars cliques x y).length ≤ (commonVars cliques p.1 p.2).length := by
                rcases cand x y v hx hy (fun e => hyt (e ▸ hxt)) hvx hvy with hm | hm
                · exact hmax _ hm (Or.inl ⟨hxt, hyt⟩)
                · refine Nat.le_trans ?_ (hmax _ hm (Or.inr ⟨hyt, hxt⟩))
                  have hsp : List.Subperm (commonVars cliques x y) (commonVars cliques y x) :=
                    List.subperm_of_subset (hcommon _ _ hx) (fun v hv => by rw [mem_commonVars] at hv ⊢; exact hv.symm)
                  exact hsp.length_le
              have hsp : List.Subperm (commonVars cliques i j) (commonVars cliques x y) :=
                List.subperm_of_subset (hcommon _ _ hi) (fun v hv => by
                  rw [mem_commonVars] at hv ⊢
                  exact hsub v hv.1 hv.2)
              have hperm := hsp.perm_of_length_le (by omega)
              exact mem_commonVars.1 (hperm.symm.subset (mem_commonVars.2 ⟨hvx, hvy⟩)))
          refine ⟨T', h1, fun q hq => ?_⟩
          rcases List.mem_append.1 hq with hq | hq
          · exact h3 _ _ (Or.inl hq)
          · rw [List.mem_singleton] at hq
            subst hq
            rcases hijp with rfl | rfl
            · exact h2
            · exact h1.symm _ _ h2
        have hT' : ∃ T', IsJT (clqHas cliques) (fun i => i < cliques.length) T' ∧ ∀ q ∈ seps ++ [p], T' q.1 q.2 := by
          rcases hpc with ⟨h1, h2⟩ | ⟨h1, h2⟩
          · exact key p.1 p.2 (Or.inl rfl) h1 h2 (hlt p hp).1 (hlt p hp).2
          · exact key p.2 p.1 (Or.inr rfl) h2 h1 (hlt p hp).2 (hlt p hp).1
        exact ih hinv (by intro e; rw [e] at hlen; simp at hlen) (by omega) hT'
    · exact ⟨seps, tree, if_neg hl, h, hl, hT⟩

/-- `FormJunctionTree` yields a junction tree. -/
theorem formJunctionTree_spec {cliques : List (List Nat)} {ord : List (Nat × Nat)} (hord : ∀ p, p ∈ ord ↔ p ∈ candidateSeps cliques)
    (h0 : cliques ≠ []) (hnd : ∀ k ∈ cliques, k.Nodup)
    (hcross : ∀ A : Nat → Prop, (∃ i < cliques.length, A i) → (∃ j < cliques.length, ¬ A j) →
      ∃ i j v, i < cliques.length ∧ j < cliques.length ∧ A i ∧ ¬ A j ∧ clqHas cliques i v ∧ clqHas cliques j v)
    (hT : ∃ T, IsJT (clqHas cliques) (fun i => i < cliques.length) T) :
    ∃ seps, formJunctionTree cliques ord = .ok seps ∧ IsJT (clqHas cliques) (fun i => i < cliques.length) (sepEdge seps) ∧
      seps.length + 1 = cliques.length ∧ seps.Nodup ∧ ∀ p ∈ seps, p ∈ ord := by
  obtain ⟨T, hT⟩ := hT
  obtain ⟨seps, tree, h1, h2, h3, T', h4, h5⟩ := primLoop_spec hord hnd hcross cliques.length (PrimInv.start h0) (by simp) (by omega)
    ⟨T, hT, by simp⟩
  obtain ⟨hall, hlen⟩ := h2.all h3
  refine ⟨seps, by unfold formJunctionTree; rw [if_neg h0]; exact h1, ?_, by rw [h2.len, hlen], h2.nodup, h2.sub⟩
  refine h4.of_spanning ?_ sepEdge_symm (fun hx hy => h2.conn _ _ (hall _ hx) (hall _ hy))
  rintro x y (hxy | hxy)
  · exact h5 _ hxy
  · exact h4.symm _ _ (h5 _ hxy)

/-- A junction tree of a list of distinct cliques is one of their positions. -/
theorem IsJT.toIndex {cliques : List (List Nat)} (hnd : cliques.Nodup) {T : List Nat → List Nat → Prop}
    (h : IsJT (fun (k : List Nat) v => v ∈ k) (fun k => k ∈ cliques) T) :
    ∃ T', IsJT (clqHas cliques) (fun i => i < cliques.length) T' := by
  have hget : ∀ k ∈ cliques, cliques.getD (cliques.idxOf k) [] = k := by
    intro k hk
    rw [getD_of_lt (List.idxOf_lt_length_iff.2 hk)]
    exact List.getElem_idxOf _
  refine ⟨_, h.rename (vs' := clqHas cliques) (fun k => cliques.idxOf k) (fun i => cliques.getD i []) hget ?_ ?_ ?_⟩
  · intro i
    constructor
    · intro hi
      exact ⟨cliques[i], List.getElem_mem _, hnd.idxOf_getElem i hi⟩
    · rintro ⟨k, hk, rfl⟩
      exact List.idxOf_lt_length_iff.2 hk
  · intro k v hk hv
    show v ∈ cliques.getD (cliques.idxOf k) []
    rw [hget k hk]; exact hv
  · intro a b v ha hb _ h1 h2
    change v ∈ cliques.getD (cliques.idxOf a) [] at h1
    change v ∈ cliques.getD (cliques.idxOf b) [] at h2
    rw [hget a ha] at h1
    rw [hget b hb] at h2
    exact ⟨h1, h2⟩

end FastPGM
