import Verif.Lemmas.MarkovReverse
import Verif.Spec.Compelled
import Mathlib.Order.WellFounded

/-!
Graphs with the same adjacencies and v-structures have the same d-separations (Verma and Pearl), by a sequence of reversals of covered
edges (Chickering).
-/

namespace FastPGM

open Spec

variable {D D' : Nat → Nat → Prop} {n : Nat}

open Classical in
/-- The number of nodes before `v`. -/
noncomputable def depthOf (D : Nat → Nat → Prop) (n v : Nat) : Nat :=
  ((Finset.range n).filter (fun u => Relation.TransGen D u v)).card

theorem depthOf_lt (hD : ¬ Cyclic D) (hr : ∀ x y, D x y → x < n ∧ y < n) {u v : Nat} (h : D u v) : depthOf D n u < depthOf D n v := by
  classical
  unfold depthOf
  apply Finset.card_lt_card
  rw [Finset.ssubset_iff_of_subset]
  · refine ⟨u, ?_, ?_⟩
    · simp only [Finset.mem_filter, Finset.mem_range]; exact ⟨(hr u v h).1, .single h⟩
    · simp only [Finset.mem_filter, not_and]; exact fun _ h' => hD ⟨u, h'⟩
  · intro w hw
    simp only [Finset.mem_filter] at hw ⊢
    exact ⟨hw.1, hw.2.tail h⟩

theorem depthOf_le (v : Nat) : depthOf D n v ≤ n := by
  classical
  unfold depthOf
  exact (Finset.card_filter_le _ _).trans (by simp)

/-- If some edge has another direction in an equivalent graph, a covered edge has. -/
theorem exists_covered (hD : ¬ Cyclic D) (hr : ∀ x y, D x y → x < n ∧ y < n) (he : Equivalent D D') {u v : Nat} (huv : D u v)
    (hvu : D' v u) : ∃ x y, Covered D x y ∧ D' y x := by
  have hasym : ∀ x y, D x y → ¬ D y x := fun x y h1 h2 => hD ⟨x, .tail (.single h1) h2⟩
  have hasym' : ∀ x y, D' x y → ¬ D' y x := fun x y h1 h2 => he.acyclic ⟨x, .tail (.single h1) h2⟩
  obtain ⟨y, ⟨x0, hx0⟩, hy⟩ := (measure (depthOf D n)).wf.has_min {y | ∃ x, D x y ∧ D' y x} ⟨v, u, huv, hvu⟩
  obtain ⟨x, hx, hxmax⟩ := (measure (fun x => n - depthOf D n x)).wf.has_min {x | D x y ∧ D' y x} ⟨x0, hx0⟩
  have hmin : ∀ w z, D w y → D z w → ¬ D' w z := fun w z h1 h2 h3 => hy w ⟨z, h2, h3⟩ (depthOf_lt hD hr h1)
  have hmax : ∀ w, D x w → D w y → ¬ D' y w := by
    intro w h1 h2 h3
    refine hxmax w ⟨h2, h3⟩ ?_
    have := depthOf_lt hD hr h1
    have := depthOf_le (D := D) (n := n) w
    show n - depthOf D n w < n - depthOf D n x
    omega
  refine ⟨x, y, ⟨hx.1, fun p hpx => ⟨fun h => ?_, fun h => ?_⟩⟩, hx.2⟩
  · -- a parent of `y` is a parent of `x`
    by_cases hj : Joined D p x
    · rcases hj with h1 | h1
      · exact h1
      · exfalso
        have h2 : D' p y := ((he.skeleton p y).2 (Or.inl h)).resolve_right (hmax p h1 h)
        have h3 : D' p x := by
          refine ((he.skeleton p x).2 (Or.inr h1)).resolve_right (fun h4 => ?_)
          exact he.acyclic ⟨p, .tail (.tail (.single h2) hx.2) h4⟩
        exact hmin p x h h1 h3
    · exfalso
      exact hasym' _ _ hx.2 ((he.colliders p y x).2 ⟨hpx, h, hx.1, hj⟩).2.2.1
  · -- a parent of `x` is a parent of `y`
    have hpy : p ≠ y := fun e => hasym _ _ hx.1 (e ▸ h)
    have h1 : D' p x := ((he.skeleton p x).2 (Or.inl h)).resolve_right (hmin x p hx.1 h)
    by_cases hj : Joined D p y
    · rcases hj with h2 | h2
      · exact h2
      · exact absurd ⟨p, .tail (.tail (.single h) hx.1) h2⟩ hD
    · exfalso
      have hv : VStructure D' p x y := ⟨hpy, h1, hx.2, fun h3 => hj ((he.skeleton p y).1 h3)⟩
      exact hasym _ _ hx.1 ((he.colliders p x y).1 hv).2.2.1

theorem flip_joined {x y : Nat} (h : D x y) (u v : Nat) : Joined (flip D x y) u v ↔ Joined D u v := by
  unfold Joined flip
  constructor
  · rintro ((⟨h1, _⟩ | ⟨rfl, rfl⟩) | (⟨h1, _⟩ | ⟨rfl, rfl⟩))
    · exact Or.inl h1
    · exact Or.inr h
    · exact Or.inr h1
    · exact Or.inl h
  · rintro (h1 | h1)
    · by_cases e : u = x ∧ v = y
      · exact Or.inr (Or.inr ⟨e.2, e.1⟩)
      · exact Or.inl (Or.inl ⟨h1, e⟩)
    · by_cases e : v = x ∧ u = y
      · exact Or.inl (Or.inr ⟨e.2, e.1⟩)
      · exact Or.inr (Or.inl ⟨h1, e⟩)

/-- Reversing a covered edge gives an equivalent graph. -/
theorem flip_equivalent (hD : ¬ Cyclic D) {x y : Nat} (hc : Covered D x y) : Equivalent D (flip D x y) := by
  have hirr : ∀ u, ¬ D u u := fun u h => hD ⟨u, .single h⟩
  have hxy : x ≠ y := fun e => hirr x (by have := hc.1; rwa [← e] at this)
  have hyx : ¬ D y x := fun h => hD ⟨y, .tail (.single h) hc.1⟩
  have one : ∀ (D : Nat → Nat → Prop) (x y : Nat), Covered D x y → ¬ Cyclic D → ∀ a b c, VStructure (flip D x y) a b c → VStructure D a b c := by
    intro D x y hc hD a b c ⟨h1, h2, h3, h4⟩
    have hirr : ∀ u, ¬ D u u := fun u h => hD ⟨u, .single h⟩
    rw [flip_joined hc.1] at h4
    have key : ∀ a c, a ≠ c → flip D x y a b → flip D x y c b → ¬ Joined D a c → D a b := by
      intro a c h1 h2 h3 h4
      rcases h2 with h2 | ⟨rfl, rfl⟩
      · exact h2.1
      · exfalso
        rcases h3 with ⟨h3, _⟩ | ⟨h3, _⟩
        · have : c ≠ b := fun e => hirr b (e ▸ h3)
          exact h4 (Or.inr ((hc.2 c this).2 h3))
        · exact h1 h3.symm
    exact ⟨h1, key a c h1 h2 h3 h4, key c a h1.symm h3 h2 (fun h => h4 h.symm), h4⟩
  refine ⟨flip_acyclic hD hc, flip_joined hc.1, fun a b c => ⟨one D x y hc hD a b c, fun h => ?_⟩⟩
  have := one (flip D x y) y x (flip_covered hD hc) (flip_acyclic hD hc) a b c
  rw [flip_flip hxy hc.1 hyx] at this
  exact this h

open Classical in
/-- The edges that have the other direction in the second graph. -/
noncomputable def reversed (D D' : Nat → Nat → Prop) (n : Nat) : Finset (Nat × Nat) :=
  (Finset.range n ×ˢ Finset.range n).filter (fun p => D p.1 p.2 ∧ D' p.2 p.1)

/-- Verma and Pearl: equivalent graphs have the same d-separations. -/
theorem equivalent_dSeparated (k : Nat) : ∀ {D : Nat → Nat → Prop}, (reversed D D' n).card = k → ¬ Cyclic D →
    (∀ x y, D x y → x < n ∧ y < n) → Equivalent D D' →
    ∀ {S : List Nat} {a b : Nat}, a ≠ b → (DSeparated D S a b ↔ DSeparated D' S a b) := by
  classical
  induction k with
  | zero =>
    intro D hk hD hr he S a b _
    have hsame : D = D' := by
      have hno : ∀ u v, D u v → ¬ D' v u := by
        intro u v h1 h2
        have : (u, v) ∈ reversed D D' n := by
          unfold reversed
          simp only [Finset.mem_filter, Finset.mem_product, Finset.mem_range]
          exact ⟨hr u v h1, h1, h2⟩
        rw [Finset.card_eq_zero.1 hk] at this
        simp at this
      funext u v
      apply propext
      constructor
      · intro h; exact ((he.skeleton u v).2 (Or.inl h)).resolve_right (hno u v h)
      · intro h; exact ((he.skeleton u v).1 (Or.inl h)).resolve_right (fun h' => hno v u h' h)
    rw [hsame]
  | succ k ih =>
    intro D hk hD hr he S a b hab
    obtain ⟨⟨u, v⟩, huv⟩ := Finset.card_pos.1 (by omega : 0 < (reversed D D' n).card)
    unfold reversed at huv
    simp only [Finset.mem_filter] at huv
    obtain ⟨x, y, hc, hyx'⟩ := exists_covered hD hr he huv.2.1 huv.2.2
    have hirr : ∀ u, ¬ D u u := fun u h => hD ⟨u, .single h⟩
    have hxy : x ≠ y := fun e => hirr x (by have := hc.1; rwa [← e] at this)
    have hf := flip_equivalent hD hc
    rw [dSeparated_flip hD hc hab]
    have hnot : ¬ D' x y := fun h => he.acyclic ⟨x, .tail (.single h) hyx'⟩
    refine ih (D := flip D x y) ?_ hf.acyclic ?_ ?_ hab
    · have : reversed (flip D x y) D' n = (reversed D D' n).erase (x, y) := by
        ext ⟨p, q⟩
        unfold reversed flip
        simp only [Finset.mem_filter, Finset.mem_erase, Finset.mem_product, Finset.mem_range, ne_eq, Prod.mk.injEq]
        constructor
        · rintro ⟨h1, (⟨h2, h3⟩ | ⟨rfl, rfl⟩), h4⟩
          · exact ⟨h3, h1, h2, h4⟩
          · exact absurd h4 hnot
        · rintro ⟨h1, h2, h3, h4⟩
          exact ⟨h2, Or.inl ⟨h3, h1⟩, h4⟩
      rw [this, Finset.card_erase_of_mem, hk]
      · rfl
      · unfold reversed
        simp only [Finset.mem_filter, Finset.mem_product, Finset.mem_range]
        exact ⟨hr x y hc.1, hc.1, hyx'⟩
    · rintro p q (⟨h, _⟩ | ⟨rfl, rfl⟩)
      · exact hr p q h
      · exact (hr _ _ hc.1).symm
    · exact ⟨he.acyclic, fun u v => (he.skeleton u v).trans (hf.skeleton u v).symm,
        fun a b c => (he.colliders a b c).trans (hf.colliders a b c).symm⟩

end FastPGM
