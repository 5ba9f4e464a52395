import Verif.Model.Combinations
import Mathlib.Data.Finset.Card
import Mathlib.Algebra.BigOperators.Group.List.Basic
import Mathlib.Algebra.Order.BigOperators.Group.Finset
import Mathlib.Data.Finset.Insert

/-!
Property C124: the combinations of sets.
-/

namespace FastPGM

variable {T : Type} [DecidableEq T]

/-- C124.  The combinations of one or more sets are exactly the sets of one chosen element from each of them. -/
theorem C124_combinations {l : List (Finset T)} (hl : l ≠ []) (S : Finset T) :
    S ∈ (genAllCombinations l).1 ↔ ∃ c : List T, List.Forall₂ (· ∈ ·) c l ∧ S = c.toFinset := by
  induction l generalizing S with
  | nil => exact absurd rfl hl
  | cons A l ih =>
    cases l with
    | nil =>
      simp only [genAllCombinations, Finset.mem_image]
      constructor
      · rintro ⟨p, hp, rfl⟩
        exact ⟨[p], .cons hp .nil, by simp⟩
      · rintro ⟨c, hc, rfl⟩
        cases hc with
        | cons h1 h2 =>
          cases h2
          exact ⟨_, h1, by simp⟩
    | cons B l =>
      have ih := ih (by simp)
      simp only [genAllCombinations, Finset.mem_biUnion, Finset.mem_image]
      constructor
      · rintro ⟨p, hp, S', hS', rfl⟩
        obtain ⟨c, h1, rfl⟩ := (ih S').1 hS'
        exact ⟨p :: c, .cons hp h1, by simp⟩
      · rintro ⟨c, hc, rfl⟩
        cases hc with
        | cons h1 h2 => exact ⟨_, h1, _, (ih _).2 ⟨_, h2, rfl⟩, by simp⟩

/-- C124.  If no two of the sets have a common element, as for the pairs of different variables with their values, there are as many
combinations as choices. -/
theorem C124_count {l : List (Finset T)} (hl : l ≠ []) (hd : l.Pairwise Disjoint) :
    (genAllCombinations l).1.card = (l.map Finset.card).prod := by
  induction l with
  | nil => exact absurd rfl hl
  | cons A l ih =>
    cases l with
    | nil =>
      simp only [genAllCombinations, List.map_cons, List.map_nil, List.prod_cons, List.prod_nil, mul_one]
      exact Finset.card_image_of_injective _ (fun a b h => by simpa using h)
    | cons B l =>
      rw [List.pairwise_cons] at hd
      have ih := ih (by simp) hd.2
      -- no combination of the other sets has an element of the first
      have hnot : ∀ S ∈ (genAllCombinations (B :: l)).1, ∀ p ∈ A, p ∉ S := by
        intro S hS p hp hpS
        obtain ⟨c, hc, rfl⟩ := (C124_combinations (by simp) S).1 hS
        rw [List.mem_toFinset] at hpS
        obtain ⟨i, hi, rfl⟩ := List.getElem_of_mem hpS
        have hlen := hc.length_eq
        have h1 := hc.get (i := i) hi (by omega)
        exact Finset.disjoint_left.1 (hd.1 _ (List.get_mem _ _)) hp h1
      simp only [genAllCombinations]
      rw [Finset.card_biUnion]
      · have : ∀ p ∈ A, ((genAllCombinations (B :: l)).1.image (insert p)).card = (genAllCombinations (B :: l)).1.card := by
          intro p hp
          refine Finset.card_image_of_injOn (fun S hS S' hS' h => ?_)
          have e1 := Finset.erase_insert (hnot S hS p hp)
          have e2 := Finset.erase_insert (hnot S' hS' p hp)
          rw [← e1, ← e2]
          exact congrArg (fun X => Finset.erase X p) h
        rw [Finset.sum_const_nat this, ih]
        simp
      · intro p hp q hq hpq
        refine Finset.disjoint_left.2 ?_
        intro S hS hS'
        rw [Finset.mem_image] at hS hS'
        obtain ⟨X, hX, rfl⟩ := hS
        obtain ⟨Y, hY, e⟩ := hS'
        have : p ∈ insert q Y := by rw [e]; simp
        rcases Finset.mem_insert.1 this with h | h
        · exact hpq h
        · exact hnot Y hY p hp h

/-- C124 (finding).  Without a set there is no combination, not the empty one; and all sets but the last are taken out of the argument. -/
theorem C124_argument (l : List (Finset T)) :
    (genAllCombinations ([] : List (Finset T))).1 = ∅ ∧ (l ≠ [] → (genAllCombinations l).2 = l.getLast?.toList) := by
  refine ⟨rfl, fun hl => ?_⟩
  induction l with
  | nil => exact absurd rfl hl
  | cons A l ih =>
    cases l with
    | nil => rfl
    | cons B l =>
      show (genAllCombinations (B :: l)).2 = _
      rw [ih (by simp), List.getLast?_cons_cons]

/-! Two variables with two and three values; and two equal sets of values, whose combinations fall together. -/

example : ([{(0, 0), (0, 1)}, {(1, 0), (1, 1), (1, 2)}] : List (Finset (Nat × Nat))).Pairwise Disjoint ∧
    (genAllCombinations ([{(0, 0), (0, 1)}, {(1, 0), (1, 1), (1, 2)}] : List (Finset (Nat × Nat)))).1.card = 6 ∧
    {(0, 1), (1, 2)} ∈ (genAllCombinations ([{(0, 0), (0, 1)}, {(1, 0), (1, 1), (1, 2)}] : List (Finset (Nat × Nat)))).1 := by
  decide +kernel

example : (genAllCombinations ([{0, 1}, {0, 1, 2}] : List (Finset Nat))).1.card = 5 := by decide +kernel

end FastPGM
