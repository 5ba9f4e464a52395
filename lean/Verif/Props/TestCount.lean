import Verif.Lemmas.TestCount4
import Verif.Props.SkeletonThreads

/-!
C87: the number of independence tests that PC-stable reports (`num_ci_test`), for one thread.
-/

namespace FastPGM

open Spec

/-- C87.  With one thread the reported number is the number of tests of the algorithm: one per pair at level 0, and for every pair that is
adjacent at the start of a level the tests with subsets of the neighbours of its first, then of its second node, in groups of `g`, up to and
including the group with the first independence.  It does not depend on the batch size or on the order of the iterations. -/
theorem C87_count (ind : Nat → Nat → List Nat → Bool) (n depth : Nat) : ∃ F, ∀ (ci : CITest) (g cap fuel : Nat),
    Answers ci ind n g → 0 < g → 0 < cap → F ≤ fuel →
      (∃ o, learnSkeletonP 1 ci n depth g cap fuel o) ∧
      ∀ o, learnSkeletonP 1 ci n depth g cap fuel o →
        ∃ k, o = .ok (k, totalTests ind n depth g) ∧ Represents n (skeletonAt ind n (max depth 1)) k := by
  obtain ⟨F, h⟩ := learnSkeletonP_count ind n depth
  exact ⟨F, fun ci g cap fuel ha hg hcap hf => ⟨learnSkeletonP_some hcap n depth fuel, h ci g cap fuel ha hg hcap hf⟩⟩

/-- What `tested` counts: the groups up to the one with the first independent set, and no more than all sets. -/
theorem C87_tested {g : Nat} (hg : 0 < g) (p : List Nat → Bool) (sets : List (List Nat)) :
    tested g p sets = min sets.length ((sets.findIdx p / g + 1) * g) := by
  have hcount : ∀ m b, ((List.range m).filter (fun i => decide (i < b))).length = min m b := by
    intro m b
    induction m with
    | zero => simp
    | succ m ih =>
      rw [List.range_succ, List.filter_append, List.length_append, ih, List.filter_cons]
      by_cases h : m < b
      · simp [h]
        omega
      · simp [h]
        omega
  rw [← hcount]
  unfold tested
  congr 1
  refine List.filter_congr fun i hi => ?_
  rw [List.mem_range] at hi
  rw [Bool.eq_iff_iff, Bool.not_eq_true', decide_eq_true_iff]
  have h2 : i < (sets.findIdx p / g + 1) * g ↔ i / g * g ≤ sets.findIdx p := by
    rw [← Nat.div_lt_iff_lt_mul hg, Nat.lt_succ_iff, Nat.le_div_iff_mul_le hg]
  rw [h2]
  constructor
  · intro h
    by_contra hlt
    push Not at hlt
    have hle : i / g * g ≤ i := Nat.div_mul_le_self i g
    have hlen : sets.findIdx p < sets.length := by omega
    have hp := List.findIdx_getElem (w := hlen)
    rw [← Bool.not_eq_true, List.any_eq_true] at h
    exact h ⟨_, List.mem_take_iff_getElem.2 ⟨_, by omega, rfl⟩, hp⟩
  · intro h
    rw [← Bool.not_eq_true, List.any_eq_true]
    rintro ⟨S, hS, hp⟩
    obtain ⟨j, hj, rfl⟩ := List.mem_take_iff_getElem.1 hS
    rw [List.not_of_lt_findIdx (p := p) (xs := sets) (i := j) (by omega)] at hp
    cases hp

theorem tested_one_le (g : Nat) (p : List Nat → Bool) (sets : List (List Nat)) : tested 1 p sets ≤ tested g p sets := by
  unfold tested
  refine List.Sublist.length_le (List.monotone_filter_right _ fun i h => ?_)
  simp only [Nat.div_one, Nat.mul_one, Bool.not_eq_true', ← Bool.not_eq_true, List.any_eq_true, not_exists, not_and] at h ⊢
  intro S hS
  obtain ⟨j, hj, rfl⟩ := List.mem_take_iff_getElem.1 hS
  have := Nat.div_mul_le_self i g
  exact h _ (List.mem_take_iff_getElem.2 ⟨j, by omega, rfl⟩)

theorem sum_le_sum' {α : Type} {l : List α} {f f' : α → Nat} (h : ∀ a ∈ l, f a ≤ f' a) : (l.map f).sum ≤ (l.map f').sum := by
  induction l with
  | nil => simp
  | cons a l ih =>
    simp only [List.map_cons, List.sum_cons]
    have := h a (by simp)
    have := ih (fun b hb => h b (by simp [hb]))
    omega

/-- C87.  Larger groups never mean fewer tests than one by one, and at most `2 (g - 1)` more for each pair and level. -/
theorem C87_group (ind : Nat → Nat → List Nat → Bool) (n depth : Nat) {g : Nat} (hg : 0 < g) :
    totalTests ind n depth 1 ≤ totalTests ind n depth g ∧
    totalTests ind n depth g ≤ totalTests ind n depth 1 +
      ((List.range (depth - 1)).map (fun i => 2 * (g - 1) * (adjacentPairs (skeletonAt ind n (i + 1)) n).length)).sum := by
  have hup : ∀ p sets, tested g p sets ≤ tested 1 p sets + (g - 1) := by
    intro p sets
    rw [C87_tested hg, C87_tested (by decide : 0 < 1), Nat.div_one, Nat.mul_one, Nat.add_mul, Nat.one_mul]
    have := Nat.div_mul_le_self (sets.findIdx p) g
    omega
  have hpair : ∀ G d x y, pairTests ind G n d 1 x y ≤ pairTests ind G n d g x y ∧
      pairTests ind G n d g x y ≤ pairTests ind G n d 1 x y + 2 * (g - 1) := by
    intro G d x y
    unfold pairTests
    have a1 := tested_one_le g (ind x y) (subsetsOf d (otherNeighbours G n x y))
    have a2 := tested_one_le g (ind x y) (subsetsOf d (otherNeighbours G n y x))
    have b1 := hup (ind x y) (subsetsOf d (otherNeighbours G n x y))
    have b2 := hup (ind x y) (subsetsOf d (otherNeighbours G n y x))
    split <;> omega
  unfold totalTests
  constructor
  · refine Nat.add_le_add_left (sum_le_sum' fun i _ => sum_le_sum' fun q _ => (hpair _ _ _ _).1) _
  · rw [Nat.add_assoc]
    refine Nat.add_le_add_left ?_ _
    rw [← List.sum_map_add]
    refine sum_le_sum' fun i _ => ?_
    unfold levelTests
    have hc : ∀ l : List (Nat × Nat), (l.map (fun _ => 2 * (g - 1))).sum = 2 * (g - 1) * l.length := by
      intro l
      simp [Nat.mul_comm]
    rw [← hc, ← List.sum_map_add]
    exact sum_le_sum' fun q _ => (hpair _ _ _ _).2

/-- C87.  The number of tests is at most one per pair at level 0, and per adjacent pair and level the number of subsets of the neighbours of
its two nodes: `C(a, d) + C(b, d)` for `a` and `b` further neighbours. -/
theorem C87_bound (ind : Nat → Nat → List Nat → Bool) (n depth g : Nat) :
    totalTests ind n depth g ≤ n * (n - 1) / 2 + ((List.range (depth - 1)).map (fun i =>
      ((adjacentPairs (skeletonAt ind n (i + 1)) n).map (fun q =>
        (otherNeighbours (skeletonAt ind n (i + 1)) n q.1 q.2).length.choose (i + 1) +
        (otherNeighbours (skeletonAt ind n (i + 1)) n q.2 q.1).length.choose (i + 1))).sum)).sum := by
  unfold totalTests
  refine Nat.add_le_add_left (sum_le_sum' fun i _ => sum_le_sum' fun q _ => ?_) _
  unfold pairTests
  have a1 := tested_le g (ind q.1 q.2) (subsetsOf (i + 1) (otherNeighbours (skeletonAt ind n (i + 1)) n q.1 q.2))
  have a2 := tested_le g (ind q.1 q.2) (subsetsOf (i + 1) (otherNeighbours (skeletonAt ind n (i + 1)) n q.2 q.1))
  rw [subsetsOf_length] at a1 a2
  split <;> omega

/-! ### A concrete case -/

-- three dependent variables, the first and the last independent given the second, and an isolated one: 6 tests at level 0, then 2, 1 and 2
theorem chain_total : totalTests chainInd 4 2 1 = 11 := by
  have hG : skeletonAt chainInd 4 1 = fun x y => x < 3 ∧ y < 3 ∧ x ≠ y := by
    funext x y
    apply propext
    have h0 : Separable chainInd (skeletonAt chainInd 4 0) 0 (min x y) (max x y) ↔ chainInd (min x y) (max x y) [] = true := by
      constructor
      · rintro ⟨S, -, h1, h2, -⟩
        rw [List.length_eq_zero_iff.1 h1] at h2
        exact h2
      · exact fun h => ⟨[], List.Pairwise.nil, rfl, h, Or.inl (by simp)⟩
    show (x < 4 ∧ y < 4 ∧ x ≠ y) ∧ ¬ Separable chainInd (skeletonAt chainInd 4 0) 0 (min x y) (max x y) ↔ _
    rw [h0]
    simp [chainInd]
    omega
  have hs : ∀ x y, otherNeighbours (fun x y => x < 3 ∧ y < 3 ∧ x ≠ y) 4 x y = (List.range 4).filter (fun z => x < 3 ∧ z < 3 ∧ x ≠ z ∧ z ≠ y) := by
    intro x y
    unfold otherNeighbours
    refine List.filter_congr fun z _ => ?_
    simp [and_assoc]
  have hp : adjacentPairs (fun x y => x < 3 ∧ y < 3 ∧ x ≠ y) 4 = [(0, 1), (0, 2), (1, 2)] := by
    have : adjacentPairs (fun x y => x < 3 ∧ y < 3 ∧ x ≠ y) 4 =
        (List.range 4).flatMap (fun x => ((List.range 4).filter (fun y => x < y ∧ x < 3 ∧ y < 3 ∧ x ≠ y)).map (fun y => (x, y))) := by
      unfold adjacentPairs
      congr 1
      funext x
      congr 1
      refine List.filter_congr fun z _ => ?_
      simp
    rw [this]
    decide +kernel
  unfold totalTests
  simp only [List.range_one, List.map_cons, List.map_nil, List.sum_cons, List.sum_nil, Nat.zero_add, levelTests, hG, hp, pairTests, hs, Nat.add_one_sub_one]
  decide +kernel

example : ∃ F, (∃ o, learnSkeletonP 1 chainCi 4 2 1 128 F o) ∧ ∀ o, learnSkeletonP 1 chainCi 4 2 1 128 F o → ∃ k, o = .ok (k, 11) := by
  obtain ⟨F, h⟩ := C87_count chainInd 4 2
  obtain ⟨h1, h2⟩ := h chainCi 1 128 F (chain_answers 4) (by decide) (by decide) (le_refl F)
  refine ⟨F, h1, fun o ho => ?_⟩
  obtain ⟨k, hk, -⟩ := h2 o ho
  exact ⟨k, by rw [hk, chain_total]⟩

-- seven sets, the fourth independent: 4 tests one by one, 6 in groups of three, 7 in groups of eight
example : tested 1 (· == [3]) [[0], [1], [2], [3], [4], [5], [6]] = 4 ∧ tested 3 (· == [3]) [[0], [1], [2], [3], [4], [5], [6]] = 6 ∧
    tested 8 (· == [3]) [[0], [1], [2], [3], [4], [5], [6]] = 7 := by decide +kernel

end FastPGM
