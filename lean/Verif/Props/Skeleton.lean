import Verif.Lemmas.Skeleton6

/-!
C28, C29, C30, C31, C34: the skeleton phase of PC-stable.

The order of the parallel iterations and the batching are arbitrary (`order`, `sched`, `cap`); `ind` is an arbitrary independence verdict
that the test `ci` answers (`Answers`).  `answers_gsquare` says when the G² test of the code does.
-/

namespace FastPGM

open Spec

/-- C28.  A level removes exactly the edges that are separable with respect to the graph at the start of the level, and updates the
adjacency lists accordingly; it finishes (after a number of rounds that depends neither on the schedule nor on the group or batch size). -/
theorem C28_level {ind : Nat → Nat → List Nat → Bool} {n d : Nat} {G : Nat → Nat → Prop} {k : Skeleton} (hk : Represents n G k) (hd : 0 < d)
    (hs : ∀ x y, x < y → G x y → k.sep x y = none) :
    ∃ F, ∀ (ci : CITest) (g cap : Nat) (sched : Schedule), Answers ci ind n g → 0 < g → 0 < cap → (∀ r l, (sched r l).Perm l) → ∀ fuel, F ≤ fuel →
      ∃ k' more, searchAtDepth ci d g cap sched fuel k = .ok (k', more) ∧ Represents n (levelGraph ind d G) k' ∧
        (k'.edges.map (fun e => (e.x, e.y))).Sublist (k.edges.map (fun e => (e.x, e.y))) ∧
        (more = true ↔ ∃ l ∈ k'.adj, d + 1 < l.length) ∧
        ∀ x y, ¬ (x < y ∧ G x y ∧ ¬ levelGraph ind d G x y) → k'.sep x y = k.sep x y := by
  refine ⟨levelFuel d k.adj (k.edges.map (fun e => (e.x, e.y))), fun ci g cap sched ha hg hcap hsched fuel hfuel => ?_⟩
  obtain ⟨es, he, hes, hun⟩ := searchAtDepth_eq hk ha hg hd hcap hs hsched (fuel := fuel) hfuel
  refine ⟨_, _, he, represents_level hk hes hun, ?_, ?_, ?_⟩
  · show (List.map _ es).Sublist _
    rw [hes]
    exact List.filter_sublist
  · rw [decide_eq_true_iff]
    simp only
    generalize levelAdj ind d k.adj _ = adj
    have hex : ∀ (ls : List (List Nat)) (m : Nat), d + 1 < ls.foldl (fun m l => if l.length > m then l.length else m) m →
        d + 1 < m ∨ ∃ l ∈ ls, d + 1 < l.length := by
      intro ls
      induction ls with
      | nil => intro m h; exact Or.inl h
      | cons a ls ih =>
        intro m h
        rw [List.foldl_cons] at h
        rcases ih _ h with h1 | ⟨l, hl, h1⟩
        · split at h1
          · exact Or.inr ⟨a, by simp, h1⟩
          · exact Or.inl h1
        · exact Or.inr ⟨l, by simp [hl], h1⟩
    constructor
    · intro h
      unfold freeDegree at h
      rcases hex adj 0 (by omega) with h1 | h1
      · omega
      · exact h1
    · rintro ⟨l, hl, h⟩
      have := freeDegree_ge hl
      omega
  · intro x y hxy
    show levelSep _ _ _ _ _ _ _ = _
    unfold levelSep
    split
    · rename_i hm
      obtain ⟨h1, h2⟩ := (hk.edge x y).1 hm
      have h3 : levelGraph ind d G x y := by
        by_contra h3
        exact hxy ⟨h1, h2, h3⟩
      have h4 := h3.2
      rw [Nat.min_eq_left (by omega), Nat.max_eq_right (by omega),
        ← (separator_spec hk (hk.range x y h2).1 (hk.range y x (hk.symm _ _ h2)).1).1, Bool.not_eq_true, Option.isSome_eq_false_iff,
        Option.isNone_iff_eq_none] at h4
      rw [h4, Option.none_or]
    · rfl

/-- C28 for the data of the code: the single G² test of the code (group size 1) answers according to the G² verdicts. -/
theorem C28_gsquare {K : Type} [Field K] [LinearOrder K] (log : K → K) (pchisq : K → Nat → Option K) (alpha : K) {card : Nat → Nat}
    {dims : List Nat} {cols : List (List Nat)} {rows : List Assignment} {n : Nat}
    (hc : Columns card n cols rows) (hdim : ∀ v < n, dims[v]? = some (card v)) :
    Answers (ciTest log pchisq alpha dims cols rows.length) (verdicts log pchisq alpha card rows) n 1 :=
  answers_gsquare log pchisq alpha hc hdim (Or.inl (le_refl 1))

/-- C29.  Any two runs of the skeleton phase whose tests answer the same question give the same edges in the same order, the same
adjacency lists and the same separating sets, whatever the group sizes, the batch sizes and the orders of the parallel iterations. -/
theorem C29_schedule (ind : Nat → Nat → List Nat → Bool) (n depth : Nat) :
    ∃ F, ∀ (ci ci' : CITest) (g g' cap cap' : Nat) (order order' : List Nat) (sched sched' : Nat → Schedule) (fuel fuel' : Nat),
      Answers ci ind n g → Answers ci' ind n g' → 0 < g → 0 < g' → 0 < cap → 0 < cap' →
      order.Perm (List.range (n * (n - 1) / 2)) → order'.Perm (List.range (n * (n - 1) / 2)) →
      (∀ d r l, (sched d r l).Perm l) → (∀ d r l, (sched' d r l).Perm l) → F ≤ fuel → F ≤ fuel' →
      ∃ k k', learnSkeleton ci n depth g cap order sched fuel = .ok k ∧ learnSkeleton ci' n depth g' cap' order' sched' fuel' = .ok k' ∧
        k.edges.map (fun e => (e.x, e.y)) = k'.edges.map (fun e => (e.x, e.y)) ∧ k.adj = k'.adj ∧ k.sep = k'.sep := by
  obtain ⟨F, v, h⟩ := learnSkeleton_eq ind n depth
  refine ⟨F, ?_⟩
  intro ci ci' g g' cap cap' order order' sched sched' fuel fuel' ha ha' hg hg' hcap hcap' hord hord' hs hs' hf hf'
  obtain ⟨k, h1, h2, _⟩ := h ci g cap order sched fuel ha hg hcap hord hs hf
  obtain ⟨k', h1', h2', _⟩ := h ci' g' cap' order' sched' fuel' ha' hg' hcap' hord' hs' hf'
  refine ⟨k, k', h1, h1', ?_⟩
  have := h2.trans h2'.symm
  unfold Skeleton.view at this
  simpa only [Prod.mk.injEq] using this

/-- C29 for the G² test, partial: group sizes 1 to 8 give the same skeleton and separating sets if the chi-square function judges tables
without degrees of freedom independent (the code does not guarantee this; see `C29_group_disagreement`).  Missing: group sizes above 8
(the code's result buffer has 8 entries, `C26_group_overflow`) and data with degenerate tables. -/
theorem C29_group_partial {K : Type} [Field K] [LinearOrder K] (log : K → K) (pchisq : K → Nat → Option K) (alpha : K) {card : Nat → Nat}
    {dims : List Nat} {cols : List (List Nat)} {rows : List Assignment} {n : Nat}
    (hc : Columns card n cols rows) (hdim : ∀ v < n, dims[v]? = some (card v))
    (hdf : ∀ x y z, x < y → y < n → (∀ v ∈ z, v < n) → z ≠ [] → degrees card rows x y z = 0 →
      ∃ q, pchisq (gSquare log card rows x y z) 0 = some q ∧ alpha < 1 - q) (depth : Nat) :
    ∃ F, ∀ (g g' cap cap' : Nat) (order order' : List Nat) (sched sched' : Nat → Schedule) (fuel fuel' : Nat),
      0 < g → g ≤ 8 → 0 < g' → g' ≤ 8 → 0 < cap → 0 < cap' →
      order.Perm (List.range (n * (n - 1) / 2)) → order'.Perm (List.range (n * (n - 1) / 2)) →
      (∀ d r l, (sched d r l).Perm l) → (∀ d r l, (sched' d r l).Perm l) → F ≤ fuel → F ≤ fuel' →
      ∃ k k', learnSkeleton (ciTest log pchisq alpha dims cols rows.length) n depth g cap order sched fuel = .ok k ∧
        learnSkeleton (ciTest log pchisq alpha dims cols rows.length) n depth g' cap' order' sched' fuel' = .ok k' ∧
        k.edges.map (fun e => (e.x, e.y)) = k'.edges.map (fun e => (e.x, e.y)) ∧ k.adj = k'.adj ∧ k.sep = k'.sep := by
  obtain ⟨F, h⟩ := C29_schedule (verdicts log pchisq alpha card rows) n depth
  refine ⟨F, ?_⟩
  intro g g' cap cap' order order' sched sched' fuel fuel' hg hg8 hg' hg8' hcap hcap' hord hord' hs hs' hf hf'
  exact h _ _ g g' cap cap' order order' sched sched' fuel fuel' (answers_gsquare log pchisq alpha hc hdim (Or.inr ⟨hg8, hdf⟩))
    (answers_gsquare log pchisq alpha hc hdim (Or.inr ⟨hg8', hdf⟩)) hg hg' hcap hcap' hord hord' hs hs' hf hf'

/-- C29 for the G² test with group size 1: batching and schedule never matter. -/
theorem C29_single {K : Type} [Field K] [LinearOrder K] (log : K → K) (pchisq : K → Nat → Option K) (alpha : K) {card : Nat → Nat}
    {dims : List Nat} {cols : List (List Nat)} {rows : List Assignment} {n : Nat}
    (hc : Columns card n cols rows) (hdim : ∀ v < n, dims[v]? = some (card v)) (depth : Nat) :
    ∃ F, ∀ (cap cap' : Nat) (order order' : List Nat) (sched sched' : Nat → Schedule) (fuel fuel' : Nat), 0 < cap → 0 < cap' →
      order.Perm (List.range (n * (n - 1) / 2)) → order'.Perm (List.range (n * (n - 1) / 2)) →
      (∀ d r l, (sched d r l).Perm l) → (∀ d r l, (sched' d r l).Perm l) → F ≤ fuel → F ≤ fuel' →
      ∃ k k', learnSkeleton (ciTest log pchisq alpha dims cols rows.length) n depth 1 cap order sched fuel = .ok k ∧
        learnSkeleton (ciTest log pchisq alpha dims cols rows.length) n depth 1 cap' order' sched' fuel' = .ok k' ∧
        k.edges.map (fun e => (e.x, e.y)) = k'.edges.map (fun e => (e.x, e.y)) ∧ k.adj = k'.adj ∧ k.sep = k'.sep := by
  obtain ⟨F, h⟩ := C29_schedule (verdicts log pchisq alpha card rows) n depth
  refine ⟨F, ?_⟩
  intro cap cap' order order' sched sched' fuel fuel' hcap hcap' hord hord' hs hs' hf hf'
  exact h _ _ 1 1 cap cap' order order' sched sched' fuel fuel' (C28_gsquare log pchisq alpha hc hdim)
    (C28_gsquare log pchisq alpha hc hdim) (by omega) (by omega) hcap hcap' hord hord' hs hs' hf hf'

/-- C29, violation: four equal binary variables (the instances 0000, 1111, 0000, 1111) and a chi-square function that is 1 for positive
degrees of freedom and NaN for none.  With group size 1 the learned skeleton is empty, with group size 2 it is complete. -/
theorem C29_group_disagreement :
    (learnSkeleton (ciTest (K := Rat) (fun r => r) (fun _ df => if df = 0 then none else some 1) (1 / 20) [2, 2, 2, 2]
        [[0, 1, 0, 1], [0, 1, 0, 1], [0, 1, 0, 1], [0, 1, 0, 1]] 4) 4 2 1 128 (List.range 6) (fun _ _ l => l) 100).map
        (fun k => k.edges.map (fun e => (e.x, e.y))) = .ok [] ∧
    (learnSkeleton (ciTest (K := Rat) (fun r => r) (fun _ df => if df = 0 then none else some 1) (1 / 20) [2, 2, 2, 2]
        [[0, 1, 0, 1], [0, 1, 0, 1], [0, 1, 0, 1], [0, 1, 0, 1]] 4) 4 2 2 128 (List.range 6) (fun _ _ l => l) 100).map
        (fun k => k.edges.map (fun e => (e.x, e.y))) = .ok [(0, 1), (0, 2), (0, 3), (1, 2), (1, 3), (2, 3)] := by
  constructor <;> decide +kernel

/-- C30.  After the skeleton phase two variables are adjacent exactly if no separating set is recorded for them.  A recorded set makes the
two independent; it has fewer than `depth` elements, all of them neighbours of one of the two variables at the level that removed the edge,
which is the level given by the size of the set. -/
theorem C30_sepset (ind : Nat → Nat → List Nat → Bool) (n depth : Nat) :
    ∃ F, ∀ (ci : CITest) (g cap : Nat) (order : List Nat) (sched : Nat → Schedule) (fuel : Nat), Answers ci ind n g → 0 < g → 0 < cap →
      order.Perm (List.range (n * (n - 1) / 2)) → (∀ d r l, (sched d r l).Perm l) → F ≤ fuel →
      ∃ k, learnSkeleton ci n depth g cap order sched fuel = .ok k ∧
        (∀ x y, x < y → y < n → (AdjacentIn k x y ↔ k.sep x y = none)) ∧
        (∀ x y, ¬ (x < y ∧ y < n) → k.sep x y = none) ∧
        ∀ x y S, k.sep x y = some S → x < y ∧ y < n ∧ ind x y S = true ∧ S.Pairwise (· < ·) ∧ x ∉ S ∧ y ∉ S ∧ S.length < max depth 1 ∧
          skeletonAt ind n S.length x y ∧ ¬ skeletonAt ind n (S.length + 1) x y ∧
          ((∀ z ∈ S, skeletonAt ind n S.length x z) ∨ (∀ z ∈ S, skeletonAt ind n S.length y z)) := by
  obtain ⟨F, v, h⟩ := learnSkeleton_eq ind n depth
  refine ⟨F, ?_⟩
  intro ci g cap order sched fuel ha hg hcap hord hs hf
  obtain ⟨k, h1, _, h3, h4⟩ := h ci g cap order sched fuel ha hg hcap hord hs hf
  refine ⟨k, h1, ?_, h4.outside, ?_⟩
  · intro x y hxy hy
    rw [adjacentIn_iff h3]
    constructor
    · exact h4.none_of_adj x y hxy
    · intro hn
      by_contra hc
      obtain ⟨S, hS, _⟩ := h4.some_of_not x y hxy hy hc
      rw [hn] at hS
      cases hS
  · intro x y S hS
    have hxy : x < y ∧ y < n := by
      by_contra hc
      rw [h4.outside x y hc] at hS
      cases hS
    have hc : ¬ skeletonAt ind n (max depth 1) x y := by
      intro hc
      rw [h4.none_of_adj x y hxy.1 hc] at hS
      cases hS
    obtain ⟨T, a1, a2, a3, a4, a5, a6, a7⟩ := h4.some_of_not x y hxy.1 hxy.2 hc
    rw [hS] at a1
    cases a1
    obtain ⟨hx, hy⟩ := separable_not_mem (skeletonAt_irrefl ind n S.length) a7
    exact ⟨hxy.1, hxy.2, a4, a2, hx, hy, a3, a5, a6, a7.imp (fun h z hz => (h z hz).1) (fun h z hz => (h z hz).1)⟩

/-- C31.  If the search stops because no node has more than `d + 1` neighbours, no later level would remove an edge. -/
theorem C31_early_stop {ind : Nat → Nat → List Nat → Bool} {n d : Nat} {G : Nat → Nat → Prop} {k : Skeleton} (hk : Represents n G k)
    (hstop : ∀ l ∈ k.adj, l.length ≤ d + 1) {d' : Nat} (hd : d < d') (x y : Nat) : levelGraph ind d' G x y ↔ G x y := by
  have hf : ¬ freeDegree k.adj > d := by
    unfold freeDegree
    have key : ∀ (ls : List (List Nat)) (m : Nat), m ≤ d + 1 → (∀ l ∈ ls, l.length ≤ d + 1) →
        ls.foldl (fun m l => if l.length > m then l.length else m) m ≤ d + 1 := by
      intro ls
      induction ls with
      | nil => intro m hm _; exact hm
      | cons a ls ih =>
        intro m hm hl
        rw [List.foldl_cons]
        apply ih _ _ (fun l h => hl l (by simp [h]))
        have := hl a (by simp)
        split <;> omega
    have := key k.adj 0 (by omega) hstop
    omega
  constructor
  · exact fun h => h.1
  · intro h
    refine ⟨h, ?_⟩
    rcases Nat.le_total x y with hxy | hxy
    · rw [Nat.min_eq_left hxy, Nat.max_eq_right hxy]
      exact not_separable_of_degree hk hf hd h
    · rw [Nat.min_eq_right hxy, Nat.max_eq_left hxy]
      exact not_separable_of_degree hk hf hd (hk.symm _ _ h)

/-- C31.  The learned skeleton is the graph after all levels below the depth bound (level 0 is always done), whether or not the search
stops early. -/
theorem C31_depth (ind : Nat → Nat → List Nat → Bool) (n depth : Nat) :
    ∃ F, ∀ (ci : CITest) (g cap : Nat) (order : List Nat) (sched : Nat → Schedule) (fuel : Nat), Answers ci ind n g → 0 < g → 0 < cap →
      order.Perm (List.range (n * (n - 1) / 2)) → (∀ d r l, (sched d r l).Perm l) → F ≤ fuel →
      ∃ k, learnSkeleton ci n depth g cap order sched fuel = .ok k ∧ Represents n (skeletonAt ind n (max depth 1)) k := by
  obtain ⟨F, v, h⟩ := learnSkeleton_eq ind n depth
  refine ⟨F, ?_⟩
  intro ci g cap order sched fuel ha hg hcap hord hs hf
  obtain ⟨k, h1, _, h3, _⟩ := h ci g cap order sched fuel ha hg hcap hord hs hf
  exact ⟨k, h1, h3⟩

/-- C31.  Verdicts on conditioning sets with `depth` or more elements (for `depth ≥ 1`) do not matter. -/
theorem C31_sizes {ind ind' : Nat → Nat → List Nat → Bool} {n : Nat} (d : Nat) (h : ∀ x y S, S.length < d → ind x y S = ind' x y S) :
    skeletonAt ind n d = skeletonAt ind' n d := by
  induction d with
  | zero => rfl
  | succ d ih =>
    show levelGraph _ _ _ = levelGraph _ _ _
    rw [ih (fun x y S hS => h x y S (by omega))]
    have : ∀ x y, Separable ind (skeletonAt ind' n d) d x y ↔ Separable ind' (skeletonAt ind' n d) d x y := by
      intro x y
      unfold Separable
      constructor
      · rintro ⟨S, h1, h2, h3, h4⟩
        exact ⟨S, h1, h2, by rw [← h x y S (by omega)]; exact h3, h4⟩
      · rintro ⟨S, h1, h2, h3, h4⟩
        exact ⟨S, h1, h2, by rw [h x y S (by omega)]; exact h3, h4⟩
    funext x y
    unfold levelGraph
    rw [this]

/-- C34.  Renaming the variables by a permutation of `0, …, n-1` renames the learned skeleton, for every symmetric independence verdict
and whatever the schedules, batch and group sizes of the two runs. -/
theorem C34_rename {ind ind' : Nat → Nat → List Nat → Bool} (hs : SymmetricOracle ind) (n depth : Nat) (π : Equiv.Perm Nat)
    (hπ : ∀ x, π x < n ↔ x < n) (hind : ∀ x y S, ind' x y S = ind (π x) (π y) (S.map π)) :
    ∃ F, ∀ (ci ci' : CITest) (g g' cap cap' : Nat) (order order' : List Nat) (sched sched' : Nat → Schedule) (fuel fuel' : Nat),
      Answers ci ind n g → Answers ci' ind' n g' → 0 < g → 0 < g' → 0 < cap → 0 < cap' →
      order.Perm (List.range (n * (n - 1) / 2)) → order'.Perm (List.range (n * (n - 1) / 2)) →
      (∀ d r l, (sched d r l).Perm l) → (∀ d r l, (sched' d r l).Perm l) → F ≤ fuel → F ≤ fuel' →
      ∃ k k', learnSkeleton ci n depth g cap order sched fuel = .ok k ∧ learnSkeleton ci' n depth g' cap' order' sched' fuel' = .ok k' ∧
        ∀ x y, AdjacentIn k' x y ↔ AdjacentIn k (π x) (π y) := by
  obtain ⟨F, v, h⟩ := learnSkeleton_eq ind n depth
  obtain ⟨F', v', h'⟩ := learnSkeleton_eq ind' n depth
  refine ⟨max F F', ?_⟩
  intro ci ci' g g' cap cap' order order' sched sched' fuel fuel' ha ha' hg hg' hcap hcap' hord hord' hsc hsc' hf hf'
  obtain ⟨k, h1, _, h3, _⟩ := h ci g cap order sched fuel ha hg hcap hord hsc (by omega)
  obtain ⟨k', h1', _, h3', _⟩ := h' ci' g' cap' order' sched' fuel' ha' hg' hcap' hord' hsc' (by omega)
  refine ⟨k, k', h1, h1', ?_⟩
  intro x y
  rw [adjacentIn_iff h3, adjacentIn_iff h3']
  exact skeletonAt_map hs π hπ hind _ x y

/-- C34 for the G² test of the code with group size 1: `cols'` are the columns of `cols` in another order (column `v` of `cols'` is column
`π v` of `cols`). -/
theorem C34_data {K : Type} [Field K] [LinearOrder K] (log : K → K) (pchisq : K → Nat → Option K) (alpha : K) {card : Nat → Nat}
    {dims dims' : List Nat} {cols cols' : List (List Nat)} {rows : List Assignment} {n : Nat} (π : Equiv.Perm Nat) (hπ : ∀ x, π x < n ↔ x < n)
    (hc : Columns card n cols rows) (hdim : ∀ v < n, dims[v]? = some (card v))
    (hcols : ∀ v < n, cols'[v]? = cols[π v]?) (hdims : ∀ v < n, dims'[v]? = dims[π v]?) (depth : Nat) :
    ∃ F, ∀ (cap cap' : Nat) (order order' : List Nat) (sched sched' : Nat → Schedule) (fuel fuel' : Nat), 0 < cap → 0 < cap' →
      order.Perm (List.range (n * (n - 1) / 2)) → order'.Perm (List.range (n * (n - 1) / 2)) →
      (∀ d r l, (sched d r l).Perm l) → (∀ d r l, (sched' d r l).Perm l) → F ≤ fuel → F ≤ fuel' →
      ∃ k k', learnSkeleton (ciTest log pchisq alpha dims cols rows.length) n depth 1 cap order sched fuel = .ok k ∧
        learnSkeleton (ciTest log pchisq alpha dims' cols' rows.length) n depth 1 cap' order' sched' fuel' = .ok k' ∧
        ∀ x y, AdjacentIn k' x y ↔ AdjacentIn k (π x) (π y) := by
  have hc' : Columns (card ∘ π) n cols' (rows.map (fun r => r ∘ π)) := by
    refine ⟨?_, ?_⟩
    · intro v hv
      obtain ⟨col, h1, h2⟩ := hc.get (π v) ((hπ v).2 hv)
      refine ⟨col, by rw [hcols v hv, h1], ?_⟩
      intro j r hr
      rw [List.getElem?_map, Option.map_eq_some_iff] at hr
      obtain ⟨r0, hr0, rfl⟩ := hr
      exact h2 j r0 hr0
    · intro r hr v hv
      obtain ⟨r0, hr0, rfl⟩ := List.mem_map.1 hr
      exact hc.lt r0 hr0 (π v) ((hπ v).2 hv)
  have hdim' : ∀ v < n, dims'[v]? = some ((card ∘ π) v) := by
    intro v hv
    rw [hdims v hv, hdim (π v) ((hπ v).2 hv)]
    rfl
  obtain ⟨F, h⟩ := C34_rename (ind' := verdicts log pchisq alpha (card ∘ π) (rows.map (fun r => r ∘ π)))
    (verdicts_symm log pchisq alpha (card := card) (rows := rows)) n depth π hπ (fun x y S => verdicts_rename log pchisq alpha π x y S)
  refine ⟨F, ?_⟩
  intro cap cap' order order' sched sched' fuel fuel' hcap hcap' hord hord' hsc hsc' hf hf'
  have ha' := C28_gsquare log pchisq alpha hc' hdim'
  rw [List.length_map] at ha'
  exact h _ _ 1 1 cap cap' order order' sched sched' fuel fuel' (C28_gsquare log pchisq alpha hc hdim)
    ha' (by omega) (by omega) hcap hcap' hord hord' hsc hsc' hf hf'

/-! ### A concrete case -/

/-- Verdicts for four variables with the true graph `0 → 1 → 2`, `3` isolated: `0` and `2` are independent given a set containing `1`. -/
private def exampleInd (x y : Nat) (S : List Nat) : Bool := (x == 3 || y == 3) || ((x, y) == (0, 2) || (x, y) == (2, 0)) && S.contains 1

private def exampleCi : CITest := fun x y z size =>
  let sets := if size = 1 then [z] else (List.range size).map (fun i => (z.drop (i * (z.length / size))).take (z.length / size))
  .ok (sets.any (exampleInd x y), if sets.any (exampleInd x y) then some (sets.findIdx (exampleInd x y)) else none)

-- the skeleton 0-1-2, the separating set {1} of (0,2) found at level 1, and the empty sets of the pairs with 3
example : (learnSkeleton exampleCi 4 3 2 2 (List.range 6).reverse (fun _ _ l => l.reverse) 50).map
    (fun k => (k.edges.map (fun e => (e.x, e.y)), k.adj, k.sep 0 2, k.sep 0 3, k.sep 0 1)) =
    .ok ([(0, 1), (1, 2)], [[1], [0, 2], [1], []], some [1], some [], none) := by decide +kernel

-- for group size 1 the example test answers the example verdicts
example : Answers exampleCi exampleInd 4 1 := by
  refine ⟨fun x y _ _ => ⟨_, by simp only [exampleCi, if_true, List.any_cons, List.any_nil, Bool.or_false]; rfl⟩, ?_⟩
  intro x y d sets _ _ _ hne hlen _
  obtain ⟨s, rfl⟩ : ∃ s, sets = [s] := List.length_eq_one_iff.1 (by have := List.length_pos_of_ne_nil hne; omega)
  refine ⟨_, by simp only [exampleCi, List.flatten_cons, List.flatten_nil, List.append_nil, List.length_singleton, if_true]; rfl, ?_⟩
  intro h
  rw [h]
  rfl

-- its verdicts are symmetric
example : SymmetricOracle exampleInd := by
  intro x y S _
  refine ⟨?_, ?_⟩
  · unfold exampleInd
    rw [Bool.eq_iff_iff]
    simp
    tauto
  · intro T hT
    unfold exampleInd
    have : S.contains 1 = T.contains 1 := by
      rw [Bool.eq_iff_iff, List.contains_iff_mem, List.contains_iff_mem, hT.mem_iff]
    rw [this]

end FastPGM
