import Verif.Lemmas.NaryCount
import Mathlib.Data.List.Rotate
import Mathlib.Data.List.Nodup

/-!
Property C12: the n-ary counter.
-/

namespace FastPGM

/-- C12.  For at least one digit the result lists every vector of in-range digits exactly once, as many as the product of the
ranges, sorted with digit 0 most significant, then the last digit, ..., and digit 1 least significant
(`(c.rotate 1).reverse` is `c₀, cₙ₋₁, ..., c₁`, compared lexicographically). -/
theorem C12_naryCount (r0 : Nat) (rs : List Nat) :
    ∃ L, naryCount (r0 :: rs) = .ok L ∧ L.length = (r0 :: rs).prod ∧
      (∀ c : List Nat, c ∈ L ↔ List.Forall₂ (· < ·) c (r0 :: rs)) ∧
      L.Nodup ∧
      L.Pairwise (fun c d => (c.rotate 1).reverse < (d.rotate 1).reverse) := by
  refine ⟨_, naryCount_eq r0 rs, by simp, ?_⟩
  by_cases hpos : ∀ r ∈ rs, 0 < r
  · refine ⟨?_, ?_, ?_⟩
    · intro c
      simp only [List.mem_map, List.mem_range]
      constructor
      · rintro ⟨k, hk, rfl⟩
        obtain ⟨h1, h2⟩ := counterAt_spec hpos k
        refine List.Forall₂.cons ((counterVal_lt h2).1 (by rw [h1]; exact hk)) h2
      · intro hc
        cases hc with
        | @cons c0 _ cs _ h0 hcs =>
          refine ⟨counterVal c0 rs cs, (counterVal_lt hcs).2 h0, ?_⟩
          obtain ⟨h1, h2⟩ := counterAt_spec hpos (counterVal c0 rs cs)
          obtain ⟨e1, e2⟩ := counterVal_inj h2 hcs h1
          rw [e1, e2]
    · refine (List.nodup_map_iff_inj_on List.nodup_range).2 ?_
      intro i _ j _ hij
      obtain ⟨h1, _⟩ := counterAt_spec hpos i
      obtain ⟨h2, _⟩ := counterAt_spec hpos j
      simp only [List.cons.injEq] at hij
      rw [← h1, ← h2, hij.1, hij.2]
    · rw [List.pairwise_map]
      refine List.Pairwise.imp ?_ List.pairwise_lt_range
      intro i j hij
      rw [List.rotate_cons_succ, List.rotate_cons_succ, List.rotate_zero, List.rotate_zero, List.reverse_append,
        List.reverse_append]
      obtain ⟨h1, h2⟩ := counterAt_spec hpos i
      obtain ⟨h3, h4⟩ := counterAt_spec hpos j
      exact counterVal_lex h2 h4 (by rw [h1, h3]; exact hij)
  · have hz : rs.prod = 0 := by
      push Not at hpos
      obtain ⟨r, hr, h0⟩ := hpos
      have : r = 0 := by omega
      subst this
      exact List.prod_eq_zero_iff_exists_zero_nat.2 ⟨0, hr, rfl⟩
    rw [hz, Nat.mul_zero]
    refine ⟨?_, by simp, by simp⟩
    intro c
    simp only [List.range_zero, List.map_nil, List.not_mem_nil, false_iff]
    intro hc
    apply hpos
    cases hc with
    | cons _ hcs =>
      intro r hr
      obtain ⟨i, hi, rfl⟩ := List.getElem_of_mem hr
      have := hcs.get (i := i) (by rw [hcs.length_eq]; exact hi) hi
      simp at this
      omega

example : naryCount [2, 3, 2] = .ok [[0, 0, 0], [0, 1, 0], [0, 2, 0], [0, 0, 1], [0, 1, 1], [0, 2, 1],
    [1, 0, 0], [1, 1, 0], [1, 2, 0], [1, 0, 1], [1, 1, 1], [1, 2, 1]] := by decide

/-- C12, boundary: with no digit at all the code reads outside the (empty) counter. -/
theorem C12_no_digit : naryCount [] = .error .ub := by decide

end FastPGM
