import Verif.Props.NodeOrder
import Mathlib.Data.Fintype.BigOperators
import Mathlib.Algebra.BigOperators.Fin
import Mathlib.Data.Nat.Factorial.BigOperators

/-!
The number of ways to each order of the nodes (C127).
-/

namespace FastPGM

/-- The numbers drawn for the entries, from a choice for each. -/
def drawn {n : Nat} (c : Fin n → Nat) (i : Nat) : Nat := if h : i < n then c ⟨i, h⟩ else 0

/-- C127.  There are `n!` sequences of choices, the choice for entry `i` being one of `0, …, i`, and for every order of the nodes exactly one of them
gives this order. -/
theorem C127_uniform (n : Nat) {ord : List Nat} (hnd : ord.Nodup) (hmem : ∀ i, i ∈ ord ↔ i < n) :
    (Fintype.piFinset (fun i : Fin n => Finset.range (i + 1))).card = n.factorial ∧
    ((Fintype.piFinset (fun i : Fin n => Finset.range (i + 1))).filter
      (fun c => assignNodeOrder (fun i => if h : i < n then c ⟨i, h⟩ else 0) n (lit "random") = .ok ord)).card = 1 := by
  constructor
  · rw [Fintype.card_piFinset]
    simp only [Finset.card_range]
    rw [Fin.prod_univ_eq_prod_range (fun i => i + 1) n, Finset.prod_range_add_one_eq_factorial]
  · obtain ⟨⟨r, hr, he⟩, huniq⟩ := C127_random n hnd hmem
    have hle : ∀ c ∈ Fintype.piFinset (fun i : Fin n => Finset.range (i + 1)), ∀ i, drawn c i ≤ i := by
      intro c hc i
      unfold drawn
      split
      · rename_i h
        have := Finset.mem_range.1 (Fintype.mem_piFinset.1 hc ⟨i, h⟩)
        simp only at this
        omega
      · omega
    have hcr : assignNodeOrder (drawn (fun i : Fin n => r i)) n (lit "random") = .ok ord := by
      rw [← he]
      have h3 : lit "random" ≠ lit "dataset-ord" := by decide
      simp only [assignNodeOrder, if_neg h3, if_true]
      congr 1
      refine shuffle_congr fun i _ hi => ?_
      simp [drawn, hi]
    rw [Finset.card_eq_one]
    refine ⟨fun i => r i, ?_⟩
    ext c
    rw [Finset.mem_filter, Finset.mem_singleton]
    constructor
    · rintro ⟨hc, h⟩
      funext i
      by_cases h0 : 0 < (i : Nat)
      · have := huniq (drawn c) r (hle c hc) hr h he i h0 i.2
        simpa [drawn] using this
      · have h1 := Finset.mem_range.1 (Fintype.mem_piFinset.1 hc i)
        have h2 := hr i
        omega
    · rintro rfl
      refine ⟨Fintype.mem_piFinset.2 fun i => Finset.mem_range.2 (by have := hr i; omega), hcr⟩

/-- Three nodes: one of the six sequences of choices gives the order 2, 0, 1. -/
example : ((Fintype.piFinset (fun i : Fin 3 => Finset.range (i + 1))).filter
    (fun c => assignNodeOrder (fun i => if h : i < 3 then c ⟨i, h⟩ else 0) 3 (lit "random") = .ok [2, 0, 1])).card = 1 :=
  (C127_uniform 3 (ord := [2, 0, 1]) (by decide) (fun i => by simp; omega)).2

end FastPGM
