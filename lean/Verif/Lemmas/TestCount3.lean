import Verif.Lemmas.TestCount2

/-!
The number of tests: a level and the whole skeleton phase with one thread.
-/

namespace FastPGM

open Spec

section
variable {ci : CITest} {ind : Nat → Nat → List Nat → Bool} {n g d cap : Nat} {adj : List (List Nat)}

/-- The edge at position `i` has `t` tests to go. -/
def Has (ind : Nat → Nat → List Nat → Bool) (n g : Nat) (adj : List (List Nat)) (d : Nat) (st : LevelState) (i t : Nat) : Prop :=
  ∃ e, st.edges[i]? = some e ∧ e.x < e.y ∧ e.y < n ∧ Left ind g adj d e t

theorem Has.of_edges {st st' : LevelState} {i t : Nat} (h : Has ind n g adj d st i t) (he : st'.edges[i]? = st.edges[i]?) : Has ind n g adj d st' i t := by
  obtain ⟨e, h1, h2⟩ := h
  exact ⟨e, by rw [he, h1], h2⟩

/-- One step of a level. -/
theorem levelStep_count (ha : Answers ci ind n g) (hg : 0 < g) (hd : 0 < d) (hadj : GoodAdj n adj) {st : LevelState} {i t : Nat}
    (h : Has ind n g adj d st i t) : ∃ st' b, levelStep ci adj d g st i = .ok (st', b) ∧ (∀ j, j ≠ i → st'.edges[j]? = st.edges[j]?) ∧
      if b then ∃ t', Has ind n g adj d st' i t' ∧ batchTests adj d g st [i] + t' = t else batchTests adj d g st [i] = t := by
  obtain ⟨e, he, hxy, hy, hl⟩ := h
  obtain ⟨r, hr, hx', hy', hres⟩ := checkEdge_count ha hg hd hadj hxy hy hl
  have hi : i < st.edges.length := (List.getElem?_eq_some_iff.1 he).1
  have hb : batchTests adj d g st [i] = edgeTests adj d g e := by simp [batchTests, he]
  rw [levelStep_recorded, rd_ok he, ok_bind, hr, ok_bind, wr_ok hi, ok_bind]
  refine ⟨_, _, rfl, fun j hj => List.getElem?_set_ne (Ne.symm hj), ?_⟩
  rw [hb]
  rcases hres with ⟨h1, t', h2, h3⟩ | ⟨h1, h2⟩
  · rw [h1, if_pos rfl]
    exact ⟨t', ⟨r.1, by simp [hi], by rw [hx', hy']; exact hxy, by rw [hy']; exact hy, h2⟩, h3⟩
  · rw [h1, if_neg (by simp)]
    exact h2

/-- A batch of a level. -/
theorem batch_count (ha : Answers ci ind n g) (hg : 0 < g) (hd : 0 < d) (hadj : GoodAdj n adj) : ∀ (order : List Nat), order.Nodup →
    ∀ (st : LevelState) (acc : List Nat) (τ : Nat → Nat), (∀ i ∈ order, Has ind n g adj d st i (τ i)) → (∀ i ∈ order, i ∉ acc) →
    ∃ (st' : LevelState) (B : List Nat) (τ' : Nat → Nat), order.foldlM (batchStep ci adj d g) (st, acc) = .ok (st', B) ∧
      (∀ i, i ∉ order → st'.edges[i]? = st.edges[i]? ∧ (i ∈ B ↔ i ∈ acc)) ∧
      ∀ i ∈ order, if i ∈ B then Has ind n g adj d st' i (τ' i) ∧ batchTests adj d g st [i] + τ' i = τ i else batchTests adj d g st [i] = τ i := by
  intro order
  induction order with
  | nil =>
    intro _ st acc τ _ _
    exact ⟨st, acc, τ, rfl, fun i _ => ⟨rfl, Iff.rfl⟩, by simp⟩
  | cons i order ih =>
    intro hn st acc τ h hacc
    obtain ⟨hi, hn'⟩ := List.nodup_cons.1 hn
    obtain ⟨st1, b, hs, hsame, hb⟩ := levelStep_count ha hg hd hadj (h i (by simp))
    have hne : ∀ j ∈ order, j ≠ i := by rintro j hj rfl; exact hi hj
    obtain ⟨st', B, τ', hf, hout, hin⟩ := ih hn' st1 (if b then i :: acc else acc) τ
      (fun j hj => (h j (by simp [hj])).of_edges (hsame j (hne j hj)))
      (fun j hj => by
        have h1 := hacc j (by simp [hj])
        have h2 := hne j hj
        split
        · simp [h1, h2]
        · exact h1)
    have htest : ∀ j ∈ order, batchTests adj d g st1 [j] = batchTests adj d g st [j] := by
      intro j hj
      simp only [batchTests, List.map_cons, List.map_nil, hsame j (hne j hj)]
    have hBi : i ∈ B ↔ b = true := by
      rw [(hout i hi).2]
      have := hacc i (by simp)
      cases b <;> simp [this]
    refine ⟨st', B, fun j => if j = i then τ i - batchTests adj d g st [i] else τ' j, ?_, ?_, ?_⟩
    · rw [List.foldlM_cons, batchStep_ok _ hs]
      exact hf
    · intro j hj
      rw [List.mem_cons, not_or] at hj
      refine ⟨(hout j hj.2).1.trans (hsame j hj.1), ?_⟩
      rw [(hout j hj.2).2]
      split
      · simp [hj.1]
      · rfl
    · intro j hj
      rcases List.mem_cons.1 hj with rfl | hj
      · dsimp only
        rw [if_pos rfl]
        cases b with
        | true =>
          rw [if_pos (hBi.2 rfl)]
          rw [if_pos rfl] at hb
          obtain ⟨t', h1, h2⟩ := hb
          rw [show τ j - batchTests adj d g st [j] = t' by omega]
          exact ⟨h1.of_edges (hout j hi).1, h2⟩
        | false =>
          rw [if_neg (fun h => by cases hBi.1 h)]
          exact hb
      · have := hin j hj
        dsimp only
        rw [if_neg (hne j hj)]
        rw [htest j hj] at this
        exact this

theorem sum_filter_split {l : List Nat} {p : Nat → Prop} [DecidablePred p] {a τ τ' : Nat → Nat}
    (h : ∀ i ∈ l, if p i then a i + τ' i = τ i else a i = τ i) : (l.map τ).sum = (l.map a).sum + ((l.filter (fun i => decide (p i))).map τ').sum := by
  induction l with
  | nil => rfl
  | cons i l ih =>
    have hi := h i (by simp)
    have := ih (fun j hj => h j (by simp [hj]))
    rw [List.filter_cons]
    by_cases hp : p i
    · rw [if_pos hp] at hi
      rw [if_pos (by simpa using hp)]
      simp only [List.map_cons, List.sum_cons]
      omega
    · rw [if_neg hp] at hi
      rw [if_neg (by simpa using hp)]
      simp only [List.map_cons, List.sum_cons]
      omega

theorem batchTests_sum (st : LevelState) (batch : List Nat) :
    batchTests adj d g st batch = (batch.map (fun i => batchTests adj d g st [i])).sum := by
  unfold batchTests
  simp

/-- The loops of a level with one thread. -/
theorem levelLoopP_count (ha : Answers ci ind n g) (hg : 0 < g) (hd : 0 < d) (hadj : GoodAdj n adj) (hcap : 0 < cap) :
    ∀ (fuel : Nat) (st : LevelState) (c : Nat) (stack : List Nat) (τ : Nat → Nat), stack.Nodup → (∀ i ∈ stack, Has ind n g adj d st i (τ i)) →
    ∀ st' c', levelLoopP 1 ci adj d g cap fuel st c stack (.ok (st', c')) → c' = c + (stack.map τ).sum := by
  intro fuel
  induction fuel with
  | zero =>
    intro st c stack τ _ _ st' c' h
    cases stack with
    | nil => cases h; rfl
    | cons i stack => cases h
  | succ fuel ih =>
    intro st c stack τ hn hst st' c' h
    cases stack with
    | nil => cases h; rfl
    | cons id stack =>
      have hb : ((id :: stack).take cap).Nodup := hn.sublist (List.take_sublist _ _)
      have hlen : ((id :: stack).take cap).length ≤ cap := by rw [List.length_take]; omega
      have hthr : (if cap ≤ (id :: stack).length then 1 else min 1 ((id :: stack).take cap).length) = 1 := by
        have : 1 ≤ ((id :: stack).take cap).length := by rw [List.length_take, List.length_cons]; omega
        split <;> omega
      unfold levelLoopP at h
      simp only [hthr] at h
      rcases h with ⟨e, -, h⟩ | ⟨⟨st1, c1, pushed⟩, h, ho⟩
      · cases h
      · obtain ⟨order, hp, he⟩ := levelBatchP_one hb hlen h
        obtain ⟨st2, B, τ', hf, hout, hin⟩ := batch_count ha hg hd hadj order (hp.nodup_iff.2 hb) st [] τ
          (fun i hi => hst i (List.mem_of_mem_take (hp.mem_iff.1 hi))) (by simp)
        rw [levelBatch_eq, hf] at he
        simp only [Except.map, Except.ok.injEq, Prod.mk.injEq] at he
        obtain ⟨rfl, rfl, rfl⟩ := he
        have hnd := hn
        rw [← List.take_append_drop cap (id :: stack), List.nodup_append] at hnd
        have hdisj : ∀ j ∈ (id :: stack).drop cap, j ∉ (id :: stack).take cap := fun j h1 h2 => hnd.2.2 j h2 j h1 rfl
        have hn' : (((id :: stack).take cap).filter (fun i => decide (i ∈ B)) ++ (id :: stack).drop cap).Nodup := by
          rw [List.nodup_append]
          refine ⟨hb.filter _, hnd.2.1, ?_⟩
          rintro a h1 b h2 rfl
          exact hdisj a h2 (List.mem_of_mem_filter h1)
        have hres := ih st1 _ _ (fun i => if i ∈ (id :: stack).take cap then τ' i else τ i) hn' (by
          intro i hi
          rcases List.mem_append.1 hi with hi | hi
          · obtain ⟨h1, h2⟩ := List.mem_filter.1 hi
            have := hin i (hp.mem_iff.2 h1)
            rw [if_pos (by simpa using h2)] at this
            rw [if_pos h1]
            exact this.1
          · have h1 := hdisj i hi
            rw [if_neg h1]
            exact (hst i (List.mem_of_mem_drop hi)).of_edges (hout i (fun h => h1 (hp.mem_iff.1 h))).1) st' c' ho
        dsimp only at hres
        rw [hres, List.map_append, List.sum_append]
        have e1 : (((id :: stack).drop cap).map (fun i => if i ∈ (id :: stack).take cap then τ' i else τ i)) = ((id :: stack).drop cap).map τ :=
          List.map_congr_left fun i hi => if_neg (hdisj i hi)
        have e2 : ((((id :: stack).take cap).filter (fun i => decide (i ∈ B))).map (fun i => if i ∈ (id :: stack).take cap then τ' i else τ i)) =
            (((id :: stack).take cap).filter (fun i => decide (i ∈ B))).map τ' :=
          List.map_congr_left fun i hi => if_pos (List.mem_of_mem_filter hi)
        have e3 : ((id :: stack).map τ).sum = (((id :: stack).take cap).map τ).sum + (((id :: stack).drop cap).map τ).sum := by
          rw [← List.sum_append, ← List.map_append, List.take_append_drop]
        have e4 : (((id :: stack).take cap).map τ).sum = batchTests adj d g st ((id :: stack).take cap) +
            ((((id :: stack).take cap).filter (fun i => decide (i ∈ B))).map τ').sum := by
          rw [batchTests_sum]
          exact sum_filter_split (fun i hi => by
            have := hin i (hp.mem_iff.2 hi)
            by_cases h : i ∈ B
            · rw [if_pos h] at this ⊢
              exact this.2
            · rw [if_neg h] at this ⊢
              exact this)
        rw [e1, e2, e3, e4]
        omega

end

end FastPGM
