import Verif.Lemmas.Likelihood

/-!
Property C89: parameter learning maximises the (smoothed) likelihood.
-/

namespace FastPGM

open Spec

/-- C89.  The tables that parameter learning appends are conditional probability tables, and among all conditional probability tables for the
same network they are the only ones that give the product of the likelihood of the data and the smoothing weight its largest value.  Without
smoothing (`alpha = 0`; every parent configuration has to occur) this is the maximum of the likelihood. -/
theorem C89_maximum {card : Nat → Nat} {N : Net} (hN : NetShape card N) {cols : List (List Nat)} {rows : List Assignment}
    (hc : Columns card N.nodes.length cols rows) {alpha : Nat}
    (h0 : alpha = 0 → ∀ (i : Nat) s, N.nodes[i]? = some s → ∀ a, InRange card s.parents a → 0 < countSame rows s.parents a)
    (rnd : Nat → Nat → Nat) :
    ∃ pts : List (Table ℝ), learnParams N cols N.nodes.length rows.length (alpha : Int) rnd [] = .ok pts ∧ pts.length = N.nodes.length ∧
      (∀ i < N.nodes.length, IsConditional card i (parentsOf N i) (tableValues pts i)) ∧
      ∀ θ : Nat → Assignment → ℝ, (∀ i < N.nodes.length, IsConditional card i (parentsOf N i) (θ i)) →
        likelihood N.nodes.length rows θ * smoothing card (parentsOf N) alpha N.nodes.length θ ≤
          likelihood N.nodes.length rows (tableValues pts) * smoothing card (parentsOf N) alpha N.nodes.length (tableValues pts) ∧
        (likelihood N.nodes.length rows θ * smoothing card (parentsOf N) alpha N.nodes.length θ =
          likelihood N.nodes.length rows (tableValues pts) * smoothing card (parentsOf N) alpha N.nodes.length (tableValues pts) →
          ∀ i < N.nodes.length, ∀ a, InRange card (i :: parentsOf N i) a → θ i a = tableValues pts i a) := by
  obtain ⟨pts, h1, h2, h3⟩ := C22_learned (K := ℝ) hN hc (alpha := (alpha : Int)) (by omega) (fun e => h0 (by omega)) rnd []
  rw [List.nil_append] at h1
  have hnode : ∀ i < N.nodes.length, ∃ s T, N.nodes[i]? = some s ∧ parentsOf N i = s.parents ∧ pts[i]? = some T ∧
      tableValues pts i = value T ∧ IsFrequencyTable card rows (alpha : Int) i s.parents T := by
    intro i hi
    obtain ⟨T, h4, h5⟩ := h3 i _ (List.getElem?_eq_getElem hi)
    exact ⟨_, T, List.getElem?_eq_getElem hi, by simp [parentsOf, hi], h4, by funext a; simp [tableValues, h4], h5⟩
  have hnd : ∀ i < N.nodes.length, (parentsOf N i ++ [i]).Nodup := by
    intro i hi
    obtain ⟨s, T, h4, h5, -⟩ := hnode i hi
    rw [h5]
    exact (List.perm_append_comm (l₁ := s.parents) (l₂ := [i])).nodup_iff.2 (NetShape.nodup hN h4)
  have hrow : ∀ i < N.nodes.length, ∀ r ∈ rows, InRange card (parentsOf N i ++ [i]) r := by
    intro i hi r hr v hv
    obtain ⟨s, T, h4, h5, -⟩ := hnode i hi
    rw [h5] at hv
    refine hc.lt r hr v (NetShape.lt hN h4 v ?_)
    rcases List.mem_append.1 hv with h | h
    · simp [h]
    · simp_all
  have hval : ∀ i < N.nodes.length, ∀ a, InRange card (i :: parentsOf N i) a → tableValues pts i a =
      ((countSame rows (i :: parentsOf N i) a : ℝ) + (alpha : ℝ)) / ((countSame rows (parentsOf N i) a : ℝ) + (alpha : ℝ) * (card i : ℝ)) := by
    intro i hi a ha
    obtain ⟨s, T, h4, h5, h6, h7, h8⟩ := hnode i hi
    rw [h7, h8.2.2 a (h5 ▸ ha), h5]
    push_cast
    rfl
  have hpos : ∀ i < N.nodes.length, 0 < card i := fun i hi => (hN.dim i _ (List.getElem?_eq_getElem hi)).2
  have hdep : ∀ i < N.nodes.length, DependsOn (tableValues pts i) (i :: parentsOf N i) := by
    intro i hi
    obtain ⟨s, T, h4, h5, h6, h7, h8⟩ := hnode i hi
    rw [h7, h5, ← h8.2.1]
    exact value_dependsOn T
  have hS : ∀ i < N.nodes.length, ∀ a, InRange card (parentsOf N i) a →
      (0 : ℝ) < (countSame rows (parentsOf N i) a : ℝ) + (alpha : ℝ) * (card i : ℝ) := by
    intro i hi a ha
    obtain ⟨s, T, h4, h5, -⟩ := hnode i hi
    have := den_pos (K := ℝ) (card := card) (rows := rows) (alpha := (alpha : Int)) (i := i) (ps := parentsOf N i) (a := a) (hpos i hi) (by omega)
      (fun e => by rw [h5]; exact h0 (by omega) i s h4 a (h5 ▸ ha))
    exact_mod_cast this
  have hcond : ∀ i < N.nodes.length, IsConditional card i (parentsOf N i) (tableValues pts i) := by
    intro i hi
    have hi' : i ∉ parentsOf N i := by
      obtain ⟨-, -, h⟩ := List.nodup_append.1 (hnd i hi)
      exact fun hm => h i hm i (by simp) rfl
    refine ⟨hdep i hi, fun a ha => ?_, fun a ha => ?_⟩
    · rw [hval i hi a ha]
      exact div_nonneg (by positivity) (by positivity)
    · have hset : ∀ x ∈ Finset.range (card i), tableValues pts i (a.set i x) =
          ((countSame rows (i :: parentsOf N i) (a.set i x) : ℝ) + (alpha : ℝ)) /
            ((countSame rows (parentsOf N i) a : ℝ) + (alpha : ℝ) * (card i : ℝ)) := by
        intro x hx
        rw [hval i hi _ (fun v hv => ?_), countSame_set (vs := parentsOf N i) hi']
        by_cases e : v = i
        · simpa [Assignment.set, e] using hx
        · simp only [Assignment.set, if_neg e]
          exact ha v ((List.mem_cons.1 hv).resolve_left e)
      rw [Finset.sum_congr rfl hset, ← Finset.sum_div, Finset.sum_add_distrib]
      have := countSame_sum (card := card) (rows := rows) hi' (fun r hr => hrow i hi r hr i (by simp)) a
      have hsum : ∑ x ∈ Finset.range (card i), (countSame rows (i :: parentsOf N i) (a.set i x) : ℝ) = (countSame rows (parentsOf N i) a : ℝ) := by
        exact_mod_cast this
      rw [hsum, Finset.sum_const, Finset.card_range, nsmul_eq_mul, mul_comm (card i : ℝ)]
      exact div_self (hS i hi a ha).ne'
  refine ⟨pts, h1, h2, hcond, fun θ hθ => ?_⟩
  rw [score_eq hnd (fun i hi => (hθ i hi).dep) hrow, score_eq hnd hdep hrow]
  have key := fun i (hi : i < N.nodes.length) => nodeScore_le (alpha := alpha) (hnd i hi) (fun r hr => hrow i hi r hr i (by simp)) (hpos i hi) (hθ i hi)
    (fun e a ha => by
      obtain ⟨s, T, h4, h5, -⟩ := hnode i hi
      rw [h5]
      exact h0 e i s h4 a (h5 ▸ ha)) (hval i hi)
  refine ⟨Finset.prod_le_prod (fun i hi => (key i (Finset.mem_range.1 hi)).1) (fun i hi => (key i (Finset.mem_range.1 hi)).2.1), ?_⟩
  intro he i hi a ha
  have hm := Finset.mem_range.2 hi
  refine (key i hi).2.2.2 ?_ a ha
  by_contra hne
  have hlt := lt_of_le_of_ne (key i hi).2.1 hne
  rw [← Finset.mul_prod_erase _ _ hm, ← Finset.mul_prod_erase _ _ hm] at he
  have hR : 0 < ∏ j ∈ (Finset.range N.nodes.length).erase i, nodeScore card rows alpha j (parentsOf N j) (tableValues pts j) :=
    Finset.prod_pos fun j hj => (key j (Finset.mem_range.1 (Finset.mem_of_mem_erase hj))).2.2.1
  have hL : ∏ j ∈ (Finset.range N.nodes.length).erase i, nodeScore card rows alpha j (parentsOf N j) (θ j) ≤
      ∏ j ∈ (Finset.range N.nodes.length).erase i, nodeScore card rows alpha j (parentsOf N j) (tableValues pts j) :=
    Finset.prod_le_prod (fun j hj => (key j (Finset.mem_range.1 (Finset.mem_of_mem_erase hj))).1)
      (fun j hj => (key j (Finset.mem_range.1 (Finset.mem_of_mem_erase hj))).2.1)
  have h5 := mul_le_mul_of_nonneg_left hL (key i hi).1
  have h6 := mul_lt_mul_of_pos_right hlt hR
  linarith

/-! ### The hypotheses can be met -/

/-- The uniform tables are conditional probability tables, so there is something to compare with. -/
example {card : Nat → Nat} {i : Nat} {ps : List Nat} (h : 0 < card i) : IsConditional card i ps (fun _ => 1 / (card i : ℝ)) := by
  refine ⟨fun _ _ _ => rfl, fun _ _ => by positivity, fun _ _ => ?_⟩
  rw [Finset.sum_const, Finset.card_range, nsmul_eq_mul]
  have : (card i : ℝ) ≠ 0 := by exact_mod_cast h.ne'
  field_simp

-- the network `0 → 1` with three instances (data set and network are in `Props/Learn.lean`)
example : ∃ N, (Net.empty [2, 2]).run [.addDirected 0 1] = .ok N ∧
    ∃ pts : List (Table ℝ), learnParams N [[0, 0, 1], [0, 1, 1]] 2 3 1 (fun _ _ => 0) [] = .ok pts := by
  obtain ⟨N, h1, hl, h2, _⟩ := run_shape (dims := [2, 2]) (ops := [.addDirected 0 1])
    (by intro op h; simp at h; subst h; exact ⟨by decide, by decide⟩) (by decide)
  have hc : Columns (fun i => [2, 2].getD i 0) 2 [[0, 0, 1], [0, 1, 1]]
      [fun _ => 0, fun v => if v = 1 then 1 else 0, fun _ => 1] := by
    constructor
    · intro v hv
      obtain rfl | rfl : v = 0 ∨ v = 1 := by omega
      · exact ⟨_, rfl, by rintro (_ | _ | _ | j) r hr <;> simp at hr <;> subst hr <;> rfl⟩
      · exact ⟨_, rfl, by rintro (_ | _ | _ | j) r hr <;> simp at hr <;> subst hr <;> rfl⟩
    · intro r hr v hv
      obtain rfl | rfl : v = 0 ∨ v = 1 := by omega
      all_goals
        simp at hr
        rcases hr with rfl | rfl | rfl <;> simp
  obtain ⟨pts, h3, -⟩ := C89_maximum (alpha := 1) h2 (by rw [hl]; exact hc) (by simp) (fun _ _ => 0)
  rw [hl] at h3
  exact ⟨N, h1, pts, h3⟩

end FastPGM
