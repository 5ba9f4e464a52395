import Verif.Lemmas.TestCount

/-!
The number of tests: the life of one edge during a level.
-/

namespace FastPGM

open Spec

section
variable {ci : CITest} {ind : Nat → Nat → List Nat → Bool} {n g d : Nat} {adj : List (List Nat)}

/-- The edge is being tested with sets of neighbours of one of its nodes and has `t` tests to go. -/
def Testing (ind : Nat → Nat → List Nat → Bool) (g : Nat) (adj : List (List Nat)) (d : Nat) (e : WorkEdge) (t : Nat) : Prop :=
  (∃ gen k, e.process = .node1 ∧ e.vecAdj = others adj e.x e.y ∧ e.cg = some gen ∧ GenAt (choicesOf e.vecAdj d) gen k ∧
    t = tested g (ind e.x e.y) ((combos (others adj e.x e.y) d).drop k) +
      if ((combos (others adj e.x e.y) d).drop k).any (ind e.x e.y) then 0 else tested g (ind e.x e.y) (combos (others adj e.y e.x) d)) ∨
  (∃ gen k, e.process = .node2 ∧ e.vecAdj = others adj e.y e.x ∧ e.cg = some gen ∧ GenAt (choicesOf e.vecAdj d) gen k ∧
    t = tested g (ind e.x e.y) ((combos (others adj e.y e.x) d).drop k))

/-- The edge has `t` tests to go. -/
def Left (ind : Nat → Nat → List Nat → Bool) (g : Nat) (adj : List (List Nat)) (d : Nat) (e : WorkEdge) (t : Nat) : Prop :=
  (e.process = .no ∧ t = tested g (ind e.x e.y) (combos (others adj e.x e.y) d) +
      if (combos (others adj e.x e.y) d).any (ind e.x e.y) then 0 else tested g (ind e.x e.y) (combos (others adj e.y e.x) d)) ∨
  (e.process = .enode1 ∧ t = tested g (ind e.x e.y) (combos (others adj e.y e.x) d)) ∨
  Testing ind g adj d e t

theorem groupTests_eq (hg : 0 < g) (hd : 0 < d) {e : WorkEdge} {gen : ChoiceGen} {k : Nat} (hcg : e.cg = some gen)
    (hgen : GenAt (choicesOf e.vecAdj d) gen k) : groupTests d g e = .ok (((combos e.vecAdj d).drop k).take g).length := by
  obtain ⟨gen', hn, -⟩ := genAt_next hgen g
  unfold groupTests
  rw [hcg]
  simp only
  rw [hn, ok_bind]
  simp only
  have hCmem : ∀ c ∈ ((choicesOf e.vecAdj d).drop k).take g, c.length = d ∧ ∀ x ∈ c, 0 ≤ x ∧ x < (e.vecAdj.length : Int) := by
    intro c hc
    have := mem_choices.1 (List.mem_of_mem_drop (List.mem_of_mem_take hc))
    exact ⟨this.1, this.2.2⟩
  have hgrp : ((combos e.vecAdj d).drop k).take g =
      (((choicesOf e.vecAdj d).drop k).take g).map (fun c => c.map (fun i => e.vecAdj.getD i.toNat 0)) := by
    rw [List.map_take, List.map_drop]; rfl
  have hlenC : (((choicesOf e.vecAdj d).drop k).take g).length + (g - ((choicesOf e.vecAdj d).drop k).length) = g := by
    rw [List.length_take]; omega
  rw [hgrp, List.length_map]
  generalize ((choicesOf e.vecAdj d).drop k).take g = C at hCmem hlenC ⊢
  generalize g - ((choicesOf e.vecAdj d).drop k).length = r at hlenC ⊢
  have htw : (C ++ List.replicate r []).takeWhile (fun c => decide (c ≠ [])) = C := by
    have hC : ∀ c ∈ C, decide (c ≠ []) = true := by
      intro c hc
      have := (hCmem c hc).1
      have : c ≠ [] := by rintro rfl; simp at this; omega
      simpa using this
    rw [List.takeWhile_append_of_pos hC]
    cases r with
    | zero => simp
    | succ r => simp [List.replicate_succ]
  rw [htw]
  by_cases hC0 : C = []
  · subst hC0
    have hr0 : r = g := by simpa using hlenC
    subst hr0
    rw [List.nil_append, rd_ok (a := []) (by simp [hg]), ok_bind, if_neg (by simp)]
    rfl
  · obtain ⟨c0, C', rfl⟩ := List.exists_cons_of_ne_nil hC0
    have hc0 : c0 ≠ [] := by
      have := (hCmem c0 (by simp)).1
      rintro rfl; simp at this; omega
    rw [rd_ok (a := c0) (by simp), ok_bind, if_pos hc0]
    rw [mapM_ok (g := fun c => c.map (fun i => e.vecAdj.getD i.toNat 0)) (fun c hc => pickSet_ok (hCmem c hc).1 (hCmem c hc).2), ok_bind]
    rfl

/-- One group of tests. -/
theorem checkTests_count (ha : Answers ci ind n g) (hg : 0 < g) (hd : 0 < d) (hadj : GoodAdj n adj)
    {e : WorkEdge} (hxy : e.x < e.y) (hy : e.y < n) {t : Nat} (h : Testing ind g adj d e t) :
    ∃ c r, groupTests d g e = .ok c ∧ checkTests ci d g e = .ok r ∧ r.1.x = e.x ∧ r.1.y = e.y ∧
      ((r.2.1 = true ∧ ∃ t', Left ind g adj d r.1 t' ∧ c + t' = t) ∨ (r.2.1 = false ∧ c = t)) := by
  have hx : e.x < n := by omega
  have drop_any : ∀ (p : List Nat → Bool) (l : List (List Nat)), (l.take g).any p = false → l.any p = (l.drop g).any p := by
    intro p l hl
    conv_lhs => rw [← List.take_append_drop g l]
    rw [List.any_append, hl, Bool.false_or]
  have take_any : ∀ (p : List Nat → Bool) (l : List (List Nat)), (l.take g).any p = true → l.any p = true := by
    intro p l hl
    rw [← List.take_append_drop g l, List.any_append, hl, Bool.true_or]
  rcases h with ⟨gen, k, hp, hv, hcg, hgen, ht⟩ | ⟨gen, k, hp, hv, hcg, hgen, ht⟩
  · obtain ⟨gen', hgen', hte⟩ := testing_eq ha hg hd hxy hy (by rw [hv]; exact others_sorted hadj hx _)
      (by rw [hv]; exact fun z hz => others_range hadj hx hz) hcg hgen
    refine ⟨(((combos e.vecAdj d).drop k).take g).length, ?_⟩
    rw [groupTests_eq hg hd hcg hgen]
    unfold checkTests
    rw [hte, ok_bind, hv]
    rw [hv] at hgen'
    rw [tested_step hg] at ht
    generalize hL : (combos (others adj e.x e.y) d).drop k = L at ht ⊢
    by_cases hany : (L.take g).any (ind e.x e.y) = true
    · rw [if_pos hany] at ht ⊢
      rw [if_pos (take_any _ _ hany)] at ht
      exact ⟨_, rfl, rfl, rfl, rfl, Or.inr ⟨rfl, ht.symm⟩⟩
    · have hany' : (L.take g).any (ind e.x e.y) = false := by simpa using hany
      rw [if_neg hany] at ht ⊢
      simp only [if_neg (Bool.false_ne_true)]
      rw [drop_any _ _ hany'] at ht
      by_cases hlen : (L.take g).length = g
      · rw [show decide ((L.take g).length ≠ g) = false by simpa using hlen, if_pos rfl]
        refine ⟨_, trivial, rfl, rfl, rfl, Or.inl ⟨rfl, _, Or.inr (Or.inr (Or.inl ⟨gen', k + g, hp, rfl, rfl, hgen', rfl⟩)), ?_⟩⟩
        rw [ht, ← hL, List.drop_drop]
        simp only
        omega
      · rw [show decide ((L.take g).length ≠ g) = true by simpa using hlen, if_neg (by simp), if_pos hp]
        have hdrop : L.drop g = [] := by
          rw [List.length_take] at hlen
          exact List.drop_eq_nil_of_le (by omega)
        refine ⟨_, trivial, rfl, rfl, rfl, Or.inl ⟨rfl, _, Or.inr (Or.inl ⟨rfl, rfl⟩), ?_⟩⟩
        rw [ht, hdrop, tested_nil]
        simp
  · obtain ⟨gen', hgen', hte⟩ := testing_eq ha hg hd hxy hy (by rw [hv]; exact others_sorted hadj hy _)
      (by rw [hv]; exact fun z hz => have h := others_range hadj hy hz; ⟨h.1, h.2.2, h.2.1⟩) hcg hgen
    refine ⟨(((combos e.vecAdj d).drop k).take g).length, ?_⟩
    rw [groupTests_eq hg hd hcg hgen]
    unfold checkTests
    rw [hte, ok_bind, hv]
    rw [hv] at hgen'
    rw [tested_step hg] at ht
    generalize hL : (combos (others adj e.y e.x) d).drop k = L at ht ⊢
    by_cases hany : (L.take g).any (ind e.x e.y) = true
    · rw [if_pos hany] at ht ⊢
      exact ⟨_, rfl, rfl, rfl, rfl, Or.inr ⟨rfl, ht.symm⟩⟩
    · have hany' : (L.take g).any (ind e.x e.y) = false := by simpa using hany
      rw [if_neg hany] at ht ⊢
      simp only [if_neg (Bool.false_ne_true)]
      by_cases hlen : (L.take g).length = g
      · rw [show decide ((L.take g).length ≠ g) = false by simpa using hlen, if_pos rfl]
        refine ⟨_, trivial, rfl, rfl, rfl, Or.inl ⟨rfl, _, Or.inr (Or.inr (Or.inr ⟨gen', k + g, hp, rfl, rfl, hgen', rfl⟩)), ?_⟩⟩
        rw [ht, ← hL, List.drop_drop]
      · rw [show decide ((L.take g).length ≠ g) = true by simpa using hlen, if_neg (by simp), if_neg (by rw [hp]; simp)]
        have hdrop : L.drop g = [] := by
          rw [List.length_take] at hlen
          exact List.drop_eq_nil_of_le (by omega)
        refine ⟨_, trivial, rfl, rfl, rfl, Or.inr ⟨rfl, ?_⟩⟩
        rw [ht, hdrop, tested_nil]
        simp

/-- The part of `CheckEdge` before the tests. -/
theorem prepareEdge_count (hd : 0 < d) (hadj : GoodAdj n adj)
    {e : WorkEdge} (hxy : e.x < e.y) (hy : e.y < n) {t : Nat} (h : Left ind g adj d e t) :
    ∃ e1 b, prepareEdge adj d e = .ok (e1, b) ∧ e1.x = e.x ∧ e1.y = e.y ∧ (if b then Testing ind g adj d e1 t else t = 0) := by
  have hx : e.x < n := by omega
  have second : ∀ t, t = tested g (ind e.x e.y) (combos (others adj e.y e.x) d) → ∃ e1 b, (do
      let a ← findAdjacencies adj e.y e.x
      if d ≤ a.length then do
        let gen ← choiceGenerator a.length d
        return ({ e with vecAdj := a, cg := some gen, process := .node2 }, true)
      else return ({ e with vecAdj := a, needRemove := false }, false) : Except Fault (WorkEdge × Bool)) = .ok (e1, b) ∧ e1.x = e.x ∧ e1.y = e.y ∧
        (if b then Testing ind g adj d e1 t else t = 0) := by
    intro t ht
    rw [findAdjacencies_eq hadj hy, ok_bind]
    split
    · rename_i hlen
      obtain ⟨gen, hgen, hat⟩ := genAt_init (a := ((others adj e.y e.x).length : Int)) (b := (d : Int)) (by omega) (by omega)
      rw [hgen, ok_bind]
      refine ⟨_, _, rfl, rfl, rfl, ?_⟩
      rw [if_pos rfl]
      exact Or.inr ⟨gen, 0, rfl, rfl, rfl, by simpa [choicesOf] using hat, ht⟩
    · rename_i hlen
      refine ⟨_, _, rfl, rfl, rfl, ?_⟩
      rw [if_neg (by simp), ht, combos_short (others_sorted hadj hy e.x) (d := d) (by omega)]
      rfl
  rcases h with ⟨hp, ht⟩ | ⟨hp, ht⟩ | h
  · unfold prepareEdge
    rw [hp]
    simp only
    rw [findAdjacencies_eq hadj hx, ok_bind]
    split
    · rename_i hlen
      obtain ⟨gen, hgen, hat⟩ := genAt_init (a := ((others adj e.x e.y).length : Int)) (b := (d : Int)) (by omega) (by omega)
      rw [hgen, ok_bind]
      refine ⟨_, _, rfl, rfl, rfl, ?_⟩
      rw [if_pos rfl]
      exact Or.inl ⟨gen, 0, rfl, rfl, rfl, by simpa [choicesOf] using hat, ht⟩
    · rename_i hlen
      rw [combos_short (others_sorted hadj hx e.y) (d := d) (by omega)] at ht
      have := second t (by simpa [tested_nil] using ht)
      rw [hp] at this
      exact this
  · unfold prepareEdge
    have := second t ht
    rw [hp] at this ⊢
    exact this
  · have hp : e.process = .node1 ∨ e.process = .node2 := by
      rcases h with ⟨_, _, hp, _⟩ | ⟨_, _, hp, _⟩
      · exact Or.inl hp
      · exact Or.inr hp
    refine ⟨e, true, ?_, rfl, rfl, by rw [if_pos rfl]; exact h⟩
    unfold prepareEdge
    rcases hp with hp | hp <;> rw [hp] <;> rfl

/-- One round of an edge. -/
theorem checkEdge_count (ha : Answers ci ind n g) (hg : 0 < g) (hd : 0 < d) (hadj : GoodAdj n adj)
    {e : WorkEdge} (hxy : e.x < e.y) (hy : e.y < n) {t : Nat} (h : Left ind g adj d e t) :
    ∃ r, checkEdge ci adj d g e = .ok r ∧ r.1.x = e.x ∧ r.1.y = e.y ∧
      ((r.2.1 = true ∧ ∃ t', Left ind g adj d r.1 t' ∧ edgeTests adj d g e + t' = t) ∨ (r.2.1 = false ∧ edgeTests adj d g e = t)) := by
  obtain ⟨e1, b, hp, h1, h2, h3⟩ := prepareEdge_count hd hadj hxy hy h
  rw [checkEdge_prepare, hp, ok_bind]
  unfold edgeTests
  rw [hp]
  cases b with
  | false =>
    refine ⟨_, rfl, h1, h2, Or.inr ⟨rfl, ?_⟩⟩
    rw [if_neg (by simp)] at h3
    exact h3.symm
  | true =>
    rw [if_pos rfl] at h3
    obtain ⟨c, r, e1, e2, e3, e4, e5⟩ := checkTests_count ha hg hd hadj (by rw [h1, h2]; exact hxy) (by rw [h2]; exact hy) h3
    simp only [if_true, e1]
    exact ⟨r, e2, e3.trans h1, e4.trans h2, e5⟩

end

end FastPGM
