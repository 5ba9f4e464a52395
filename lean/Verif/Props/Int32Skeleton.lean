import Verif.Lemmas.Int32Skeleton
import Verif.Props.Int32Test
import Verif.Props.Skeleton

/-!
C116: the skeleton phase in 32-bit arithmetic.
-/

namespace FastPGM

open Spec

variable {K : Type}

/-- C116.  The complete graph the search starts from is built without overflow exactly up to 46341 variables. -/
theorem C116_complete_graph (n : Nat) :
    (n ≤ 46341 → ∃ slots : List Edge, completeGraphEdges32 n = .ok (slots.map some) ∧ slots.length = n * (n - 1) / 2 ∧ slots.Nodup ∧
      ∀ e : Edge, e ∈ slots ↔ ∃ i j, i < j ∧ j < n ∧
        e = { node1 := i, node2 := j, end1 := .tail, end2 := .tail, ordered := false, label := .unset }) ∧
    (46341 < n → completeGraphEdges32 n = .error .ub) := by
  rw [completeGraphEdges32_eq]
  constructor
  · intro h
    rw [if_pos h]
    obtain ⟨slots, h1, h2, h3, h4, _⟩ := C19_completeGraph n
    exact ⟨slots, h1, h2, h3, h4⟩
  · intro h
    rw [if_neg (by omega)]

example : completeGraphEdges32 3 = .ok ([mkUndirected 0 1, mkUndirected 0 2, mkUndirected 1 2].map some) := by decide

variable [Field K] [LinearOrder K] (log : K → K) (pchisq : K → Nat → Option K) (alpha : K) {card : Nat → Nat} {cols : List (List Nat)}
  {rows : List Assignment} {dims : List Nat}

/-- The 32-bit test is the unbounded one for a group that fits. -/
theorem ciTest32_eq {n g D E : Nat} (hc : Columns card n cols rows) (hdim : ∀ v < n, dims[v]? = some (card v))
    (hpos : ∀ v < n, 0 < card v ∧ card v ≤ D) (hlim : g * D ^ E < 2 ^ 31) {x y d : Nat} {sets : List (List Nat)} (hxy : x < y) (hy : y < n)
    (hd : 0 < d) (hdE : d + 2 ≤ E) (hne : sets ≠ []) (hg : sets.length ≤ g)
    (hs : ∀ s ∈ sets, s.length = d ∧ s.Pairwise (· < ·) ∧ ∀ z ∈ s, z < n ∧ z ≠ x ∧ z ≠ y) :
    ciTest32 log pchisq alpha dims cols rows.length x y sets.flatten sets.length =
      ciTest log pchisq alpha dims cols rows.length x y sets.flatten sets.length := by
  have hD : 0 < D := by have := hpos y hy; omega
  have hlim' : g * D ^ (d + 2) < 2 ^ 31 :=
    Nat.lt_of_le_of_lt (Nat.mul_le_mul_left _ (Nat.pow_le_pow_right hD hdE)) hlim
  have hv : ∀ v ∈ sets.flatten ++ [x, y], v < n := by
    intro v hv
    rcases List.mem_append.1 hv with h | h
    · obtain ⟨s, h1, h2⟩ := List.mem_flatten.1 h
      exact ((hs s h1).2.2 v h2).1
    · simp only [List.mem_cons, List.not_mem_nil, or_false] at h
      omega
  have hfl : sets.flatten ≠ [] := by
    intro e
    have := Uniform.length (sets := sets) (depth := d) (fun s h => (hs s h).1)
    rw [e] at this
    have h3 : 0 < sets.length * d := Nat.mul_pos (List.length_pos_iff.2 hne) hd
    simp only [List.length_nil] at this
    omega
  -- the number of cells
  have hp : ∀ l : List Nat, (∀ v ∈ l, v < n) → (l.map card).prod ≤ D ^ l.length := by
    intro l hl
    induction l with
    | nil => simp
    | cons v l ih =>
      rw [List.map_cons, List.prod_cons, List.length_cons, Nat.pow_succ, Nat.mul_comm]
      exact Nat.mul_le_mul (ih (fun u hu => hl u (by simp [hu]))) (hpos v (hl v (by simp))).2
  have hsum : (groupDims card sets).sum ≤ sets.length * D ^ d := by
    have hv' : ∀ v ∈ sets.flatten, v < n := fun v h => hv v (List.mem_append_left _ h)
    clear hfl hne hg hv
    unfold groupDims
    induction sets with
    | nil => simp
    | cons s sets ih =>
      have h1 := hp s (fun v h => hv' v (by simp [h]))
      rw [(hs s (by simp)).1] at h1
      have h2 := ih (fun t ht => hs t (by simp [ht])) (fun v h => hv' v (by simp only [List.flatten_cons, List.mem_append]; exact Or.inr h))
      rw [List.map_cons, List.sum_cons, List.length_cons, Nat.succ_mul, Nat.add_comm]
      exact Nat.add_le_add h2 h1
  have hcells : (groupDims card sets).sum * card x * card y ≤ intMax := by
    have h1 : (groupDims card sets).sum * card x * card y ≤ sets.length * D ^ d * D * D :=
      Nat.mul_le_mul (Nat.mul_le_mul hsum (hpos x (by omega)).2) (hpos y hy).2
    have h2 : sets.length * D ^ d * D * D = sets.length * D ^ (d + 2) := by ring
    have h3 := Nat.mul_le_mul_right (D ^ (d + 2)) hg
    rw [le_intMax]
    omega
  have hd32 : ∀ v ∈ sets.flatten ++ [x, y], 0 < card v ∧ card v ≤ intMax := by
    intro v hv'
    have h1 := hpos v (hv v hv')
    refine ⟨h1.1, ?_⟩
    have h2 : D ≤ g * D ^ (d + 2) := by
      have hg0 : 0 < g := Nat.lt_of_lt_of_le (List.length_pos_iff.2 hne) hg
      calc D = D ^ 1 := (Nat.pow_one D).symm
        _ ≤ D ^ (d + 2) := Nat.pow_le_pow_right hD (by omega)
        _ ≤ g * D ^ (d + 2) := Nat.le_mul_of_pos_left _ hg0
    rw [le_intMax]
    omega
  have hDF : DimsFor card dims (sets.flatten ++ [x, y]) := fun v h => hdim v (hv v h)
  unfold ciTest32 ciTest independenceResult32 independenceResult
  rw [if_neg hfl, if_neg hfl]
  by_cases h1 : sets.length > 1
  · rw [if_pos h1, if_pos h1, gSquareXYZGroup32_eq log pchisq alpha hne hd (fun s h => (hs s h).1) (fun v h => (hd32 v h).1)
      (Columns.for hc hv) hDF, if_pos hcells]
  · rw [if_neg h1, if_neg h1, gSquareXYZ32_eq log pchisq alpha hfl hd32 (Columns.for hc hv) hDF, if_pos]
    obtain ⟨s, rfl⟩ : ∃ s, sets = [s] := by
      match sets, hne, h1 with
      | [s], _, _ => exact ⟨s, rfl⟩
      | _ :: _ :: _, _, h1 => simp at h1
    simpa [groupDims] using hcells

theorem ciTest32_empty {n g D E : Nat} (hc : Columns card n cols rows) (hdim : ∀ v < n, dims[v]? = some (card v))
    (hpos : ∀ v < n, 0 < card v ∧ card v ≤ D) (hg : 0 < g) (hlim : g * D ^ E < 2 ^ 31) (hE : 2 ≤ E) {x y : Nat} (hxy : x < y) (hy : y < n) :
    ciTest32 log pchisq alpha dims cols rows.length x y [] 1 = ciTest log pchisq alpha dims cols rows.length x y [] 1 := by
  have hD : 0 < D := by have := hpos y hy; omega
  have hv : ∀ v ∈ [x, y], v < n := by
    intro v h
    simp only [List.mem_cons, List.not_mem_nil, or_false] at h
    omega
  unfold ciTest32 ciTest independenceResult32 independenceResult
  rw [if_pos rfl, if_pos rfl, gSquareXY32_eq log pchisq alpha (hpos x (by omega)).1 (hpos y hy).1 (Columns.for hc hv) (fun v h => hdim v (hv v h)),
    if_pos]
  have h1 : card x * card y ≤ D * D := Nat.mul_le_mul (hpos x (by omega)).2 (hpos y hy).2
  have h2 : D * D ≤ g * D ^ E := by
    calc D * D = D ^ 2 := by ring
      _ ≤ D ^ E := Nat.pow_le_pow_right hD hE
      _ ≤ g * D ^ E := Nat.le_mul_of_pos_left _ hg
  rw [le_intMax]
  omega

/-- C116.  The skeleton phase with 32-bit arithmetic.  Let every variable have at most `D` values and let the tests give the verdicts `ind` in
unbounded arithmetic.  If there are at most 46341 variables and `g * D ^ E < 2 ^ 31`, where `E` is the smaller of the number of variables and of
the number of variables in a test on the last level, no run overflows, and every run gives the skeleton that belongs to the verdicts, whatever
the orders of the parallel loops. -/
theorem C116_skeleton (ind : Nat → Nat → List Nat → Bool) (n depth : Nat) : ∃ F, ∀ {card : Nat → Nat} {cols : List (List Nat)}
    {rows : List Assignment} {dims : List Nat} {D g cap : Nat} {order : List Nat} {sched : Nat → Schedule} {fuel : Nat},
    Columns card n cols rows → (∀ v < n, dims[v]? = some (card v)) → (∀ v < n, 0 < card v ∧ card v ≤ D) →
    Answers (ciTest log pchisq alpha dims cols rows.length) ind n g → 0 < g → 0 < cap → n ≤ 46341 →
    g * D ^ min (max depth 1 + 1) n < 2 ^ 31 → order.Perm (List.range (n * (n - 1) / 2)) → (∀ d r l, (sched d r l).Perm l) → F ≤ fuel →
    ∃ k k', learnSkeleton32 log pchisq alpha dims cols rows.length n depth g cap order sched fuel = .ok k ∧
      learnSkeleton (ciTest log pchisq alpha dims cols rows.length) n depth g cap order sched fuel = .ok k' ∧
      k.view = k'.view ∧ Represents n (skeletonAt ind n (max depth 1)) k := by
  obtain ⟨F, v, h⟩ := learnSkeleton_eq ind n depth
  refine ⟨F, ?_⟩
  intro card cols rows dims D g cap order sched fuel hc hdim hpos ha hg hcap hn hlim hord hsched hF
  obtain ⟨k', hk', hv', -⟩ := h _ g cap order sched fuel ha hg hcap hord hsched hF
  -- a test that is the 32-bit one where it is asked and the unbounded one elsewhere
  have ha2 : Answers (fun x y z size => if z.length ≤ size * (depth - 1) then ciTest32 log pchisq alpha dims cols rows.length x y z size
      else ciTest log pchisq alpha dims cols rows.length x y z size) ind n g := by
    refine ⟨fun x y hxy hy => ?_, fun x y d sets hxy hy hd hne hl hs => ?_⟩
    · rw [if_pos (by simp), ciTest32_empty log pchisq alpha hc hdim hpos hg hlim (by omega) hxy hy]
      exact ha.empty x y hxy hy
    · have key := ha.group x y d sets hxy hy hd hne hl hs
      by_cases hz : sets.flatten.length ≤ sets.length * (depth - 1)
      · rw [if_pos hz, ciTest32_eq log pchisq alpha hc hdim hpos hlim hxy hy hd ?_ hne hl hs]
        · exact key
        · rw [Uniform.length (sets := sets) (depth := d) (fun s h => (hs s h).1)] at hz
          have h1 : d ≤ depth - 1 := Nat.le_of_mul_le_mul_left hz (List.length_pos_iff.2 hne)
          obtain ⟨s, hs'⟩ := List.exists_mem_of_ne_nil _ hne
          obtain ⟨s1, s2, s3⟩ := hs s hs'
          have hnod : (s ++ [x, y]).Nodup := by
            refine List.nodup_append'.2 ⟨s2.imp (fun h => by omega), by simp; omega, ?_⟩
            intro z hz1 hz2
            have := s3 z hz1
            simp only [List.mem_cons, List.not_mem_nil, or_false] at hz2
            omega
          have h2 : (s ++ [x, y]).length ≤ (List.range n).length := by
            refine (List.subperm_of_subset hnod ?_).length_le
            intro z hz1
            rw [List.mem_range]
            rcases List.mem_append.1 hz1 with h | h
            · exact (s3 z h).1
            · simp only [List.mem_cons, List.not_mem_nil, or_false] at h
              omega
          rw [List.length_append, List.length_range, s1] at h2
          simp only [List.length_cons, List.length_nil] at h2
          omega
      · rw [if_neg hz]
        exact key
  obtain ⟨k, hk, hv, hr, -⟩ := h _ g cap order sched fuel ha2 hg hcap hord hsched hF
  refine ⟨k, k', ?_, hk', by rw [hv, hv'], hr⟩
  rw [← hk]
  unfold learnSkeleton32 learnSkeleton
  rw [level0_32_agree (ci' := fun x y z size => if z.length ≤ size * (depth - 1) then ciTest32 log pchisq alpha dims cols rows.length x y z size
      else ciTest log pchisq alpha dims cols rows.length x y z size) (by intro x y; simp) hn]
  congr 1
  funext k0
  refine levels_agree _ _ ?_ k0
  intro e h1 h2 x y sets hne hl hs
  show _ = if _ then _ else _
  rw [if_pos]
  rw [Uniform.length (sets := sets) (depth := e) hs]
  exact Nat.mul_le_mul_left _ (by omega)

/-- C116, violated: with more than 46341 variables the behaviour is undefined, whatever the data. -/
theorem C116_too_many {n : Nat} (hn : 46341 < n) (dims : List Nat) (cols : List (List Nat)) (m depth g cap : Nat) (order : List Nat)
    (sched : Nat → Schedule) (fuel : Nat) :
    learnSkeleton32 log pchisq alpha dims cols m n depth g cap order sched fuel = .error .ub := by
  unfold learnSkeleton32 level0_32
  rw [(C116_complete_graph n).2 hn, ub_bind, ub_bind]

/-- Two instances of three binary variables. -/
def skelRows : List Assignment := [fun v => if v = 0 then 0 else 1, fun v => if v = 1 then 1 else 0]

/-- The hypotheses of `C116_skeleton` for three binary variables, with the values each test needs. -/
example : Columns (fun _ => 2) 3 [[0, 0], [1, 1], [1, 0]] skelRows ∧
    (∀ v < 3, [2, 2, 2][v]? = some ((fun _ => 2) v)) ∧ 1 * 2 ^ min (max 2 1 + 1) 3 < 2 ^ 31 ∧
    Answers (ciTest (K := ℚ) (fun q => q - 1) (fun g _ => some g) (1 / 20) [2, 2, 2] [[0, 0], [1, 1], [1, 0]] skelRows.length)
      (verdicts (K := ℚ) (fun q => q - 1) (fun g _ => some g) (1 / 20) (fun _ => 2)
        skelRows) 3 1 := by
  have hc : Columns (fun _ => 2) 3 [[0, 0], [1, 1], [1, 0]] skelRows := by
    constructor
    · intro v hv
      obtain rfl | rfl | rfl : v = 0 ∨ v = 1 ∨ v = 2 := by omega
      · exact ⟨_, rfl, by rintro (_ | _ | j) r hr <;> simp [skelRows] at hr <;> subst hr <;> rfl⟩
      · exact ⟨_, rfl, by rintro (_ | _ | j) r hr <;> simp [skelRows] at hr <;> subst hr <;> rfl⟩
      · exact ⟨_, rfl, by rintro (_ | _ | j) r hr <;> simp [skelRows] at hr <;> subst hr <;> rfl⟩
    · intro r hr v _
      simp only [skelRows, List.mem_cons, List.not_mem_nil, or_false] at hr
      rcases hr with rfl | rfl
      · show (if v = 0 then 0 else 1) < 2
        split <;> omega
      · show (if v = 1 then 1 else 0) < 2
        split <;> omega
  have hdim : ∀ v < 3, [2, 2, 2][v]? = some ((fun _ => 2) v) := by decide
  refine ⟨hc, hdim, by norm_num, ?_⟩
  exact C28_gsquare (K := ℚ) (fun q => q - 1) (fun g _ => some g) (1 / 20) hc hdim

end FastPGM
