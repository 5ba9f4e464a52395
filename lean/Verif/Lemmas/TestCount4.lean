import Verif.Lemmas.TestCount3
import Verif.Lemmas.SkeletonThreads3

/-!
The number of tests: the levels and the whole skeleton phase with one thread.
-/

namespace FastPGM

open Spec

section
variable {ci : CITest} {ind : Nat → Nat → List Nat → Bool} {n g d cap : Nat} {G : Nat → Nat → Prop} {k : Skeleton}

theorem otherNeighbours_sorted (G : Nat → Nat → Prop) (n x y : Nat) : (otherNeighbours G n x y).Pairwise (· < ·) :=
  List.pairwise_lt_range.sublist List.filter_sublist

theorem mem_otherNeighbours (hk : Represents n G k) {x y z : Nat} : z ∈ otherNeighbours G n x y ↔ G x z ∧ z ≠ y := by
  unfold otherNeighbours
  simp only [List.mem_filter, List.mem_range, decide_eq_true_iff]
  exact ⟨fun h => h.2, fun h => ⟨(hk.range z x (hk.symm _ _ h.1)).1, h⟩⟩

theorem others_eq (hk : Represents n G k) {x : Nat} (hx : x < n) (y : Nat) : others k.adj x y = otherNeighbours G n x y := by
  have h1 := others_sorted hk.goodAdj hx y
  have h2 := otherNeighbours_sorted G n x y
  refine ((List.perm_ext_iff_of_nodup (nodup_of_sorted h1) (nodup_of_sorted h2)).2 fun z => ?_).eq_of_pairwise (le := (· < ·))
    (fun a b _ _ h1 h2 => absurd (lt_trans h1 h2) (lt_irrefl _)) h1 h2
  rw [mem_others hk.goodAdj hx, mem_otherNeighbours hk, hk.mem_adj hx]

theorem mem_adjacentPairs (hk : Represents n G k) (x y : Nat) : (x, y) ∈ adjacentPairs G n ↔ x < y ∧ G x y := by
  unfold adjacentPairs
  simp only [List.mem_flatMap, List.mem_range, List.mem_map, List.mem_filter, decide_eq_true_iff, Prod.mk.injEq]
  constructor
  · rintro ⟨a, _, b, ⟨_, h⟩, rfl, rfl⟩
    exact h
  · intro h
    exact ⟨x, (hk.range _ _ h.2).1, y, ⟨(hk.range _ _ (hk.symm _ _ h.2)).1, h⟩, rfl, rfl⟩

theorem adjacentPairs_nodup (G : Nat → Nat → Prop) (n : Nat) : (adjacentPairs G n).Nodup := by
  unfold adjacentPairs
  rw [List.nodup_flatMap]
  refine ⟨fun x _ => (List.nodup_range.filter _).map (fun a b h => (Prod.mk.inj h).2), ?_⟩
  refine (List.nodup_range (n := n)).imp ?_
  intro a b hab
  rintro ⟨x, y⟩ h1 h2
  obtain ⟨_, _, h1⟩ := List.mem_map.1 h1
  obtain ⟨_, _, h2⟩ := List.mem_map.1 h2
  exact hab ((Prod.mk.inj h1).1.trans (Prod.mk.inj h2).1.symm)

theorem pairs_perm (hk : Represents n G k) : (k.edges.map (fun e => (e.x, e.y))).Perm (adjacentPairs G n) :=
  (List.perm_ext_iff_of_nodup hk.nodup (adjacentPairs_nodup G n)).2 fun p => by
    obtain ⟨x, y⟩ := p
    rw [hk.edge, mem_adjacentPairs hk]

/-- One level. -/
theorem searchAtDepthP_count (hk : Represents n G k) (ha : Answers ci ind n g) (hg : 0 < g) (hd : 0 < d) (hcap : 0 < cap) {fuel c c' : Nat}
    {k' : Skeleton} {more : Bool} (h : searchAtDepthP 1 ci d g cap fuel k c (.ok (k', c', more))) :
    c' = c + ((adjacentPairs G n).map (fun p => pairTests ind G n d g p.1 p.2)).sum := by
  unfold searchAtDepthP at h
  rcases h with ⟨e, _, h⟩ | ⟨⟨st, c1⟩, h, ho⟩
  · cases h
  have ho' : (Par.lift (removeMarked st.edges k.adj) >>= fun q => Par.lift
    (.ok ((⟨q.1, q.2, st.sep⟩ : Skeleton), c1, decide (freeDegree q.2 > d)))) (.ok (k', c', more)) := ho
  have hc : c' = c1 := by
    rcases ho' with ⟨e, _, h⟩ | ⟨q, _, h⟩
    · cases h
    · have := Except.ok.inj h
      exact (Prod.mk.inj (Prod.mk.inj this).2).1
  have hps : ∀ p ∈ k.edges.map (fun e => (e.x, e.y)), p.1 < p.2 ∧ p.2 < n := by
    rintro ⟨x, y⟩ hp
    obtain ⟨h1, h2⟩ := (hk.edge x y).1 hp
    exact ⟨h1, (hk.range y x (hk.symm _ _ h2)).1⟩
  let τ : Nat → Nat := fun i => ((k.edges[i]?).map (fun e => pairTests ind G n d g e.x e.y)).getD 0
  have hlen : (k.edges.map (fun e => { e with process := .no })).length = k.edges.length := List.length_map _
  have key := levelLoopP_count ha hg hd hk.goodAdj hcap fuel _ c _ τ List.nodup_range (by
    intro i hi
    rw [List.mem_range, hlen] at hi
    have h0 := hps (k.edges[i].x, k.edges[i].y) (List.mem_map_of_mem (f := fun e : WorkEdge => (e.x, e.y)) (List.getElem_mem hi))
    have h0' : k.edges[i].x < k.edges[i].y ∧ k.edges[i].y < n := h0
    refine ⟨{ k.edges[i] with process := .no }, by simp [hi], h0'.1, h0'.2, Or.inl ⟨rfl, ?_⟩⟩
    dsimp only [τ]
    rw [List.getElem?_eq_getElem hi, Option.map_some, Option.getD_some]
    rw [others_eq hk (by omega), others_eq hk h0'.2, combos_eq (otherNeighbours_sorted _ _ _ _), combos_eq (otherNeighbours_sorted _ _ _ _)]
    rfl) st c1 h
  rw [hc, key, hlen]
  congr 1
  have e1 : (List.range k.edges.length).map τ = (k.edges.map (fun e => (e.x, e.y))).map (fun p => pairTests ind G n d g p.1 p.2) := by
    rw [List.map_map]
    refine List.ext_getElem (by simp) fun i h1 h2 => ?_
    simp only [List.length_map, List.length_range] at h1
    simp [τ, h1]
  rw [e1]
  exact ((pairs_perm hk).map _).sum_eq

/-- Beyond the largest degree there is nothing to test. -/
theorem levelTests_stable (hk : Represents n (skeletonAt ind n (d + 1)) k) (hf : ¬ freeDegree k.adj > d) (j : Nat) :
    levelTests ind n (d + 1 + j) g = 0 := by
  unfold levelTests
  rw [skeletonAt_stable hk hf j]
  refine List.sum_eq_zero fun t ht => ?_
  obtain ⟨⟨x, y⟩, hp, rfl⟩ := List.mem_map.1 ht
  obtain ⟨hxy, hG⟩ := (mem_adjacentPairs hk x y).1 hp
  have short : ∀ a b, skeletonAt ind n (d + 1) a b → subsetsOf (d + 1 + j) (otherNeighbours (skeletonAt ind n (d + 1)) n a b) = [] := by
    intro a b hab
    rw [← List.length_eq_zero_iff, subsetsOf_length]
    apply Nat.choose_eq_zero_of_lt
    have ha := (hk.range a b hab).1
    have ha' : a < k.adj.length := by rw [hk.adjLength]; exact ha
    have hsub : (b :: otherNeighbours (skeletonAt ind n (d + 1)) n a b).Subperm k.adj[a] := by
      apply List.subperm_of_subset
      · rw [List.nodup_cons]
        exact ⟨fun h => ((mem_otherNeighbours hk).1 h).2 rfl, nodup_of_sorted (otherNeighbours_sorted _ _ _ _)⟩
      · intro z hz
        rw [(hk.adj a _ (List.getElem?_eq_getElem ha')).2 z]
        rcases List.mem_cons.1 hz with rfl | hz
        · exact hab
        · exact ((mem_otherNeighbours hk).1 hz).1
    have h1 := hsub.length_le
    have h2 := freeDegree_ge (List.getElem_mem ha')
    rw [List.length_cons] at h1
    omega
  dsimp only
  unfold pairTests
  rw [short x y hG, short y x (hk.symm _ _ hG)]
  rfl

end

/-- The levels. -/
theorem levelsP_count (ind : Nat → Nat → List Nat → Bool) (n : Nat) (count : Nat) : ∀ (d : Nat) (v : List (Nat × Nat) × List (List Nat) × Sepset), 0 < d →
    ∃ F, ∀ (ci : CITest) (g cap : Nat) (fuel c : Nat) (k : Skeleton), Answers ci ind n g → 0 < g → 0 < cap →
      F ≤ fuel → k.view = v → Represents n (skeletonAt ind n d) k → SepInv ind n d k.sep →
      ∀ o, levelsP 1 ci g cap fuel d count k c o → ∃ k', o = .ok (k', c + ((List.range count).map (fun i => levelTests ind n (d + i) g)).sum) ∧
        Represents n (skeletonAt ind n (d + count)) k' := by
  induction count with
  | zero =>
    intro d v _
    refine ⟨0, ?_⟩
    intro ci g cap fuel c k _ _ _ _ hv hk hs o ho
    exact ⟨k, ho, hk⟩
  | succ count ih =>
    rintro d ⟨ps, adj, sep⟩ hd
    obtain ⟨F, hF⟩ := ih (d + 1) (keptPairs ind d adj ps, levelAdj ind d adj ps, levelSep ind d adj ps sep) (by omega)
    refine ⟨max (levelFuel d adj ps) F, ?_⟩
    intro ci g cap fuel c k ha hg hcap hfuel hv hk hs o ho
    unfold Skeleton.view at hv
    simp only [Prod.mk.injEq] at hv
    obtain ⟨hv1, hv2, hv3⟩ := hv
    have hsplit : ((List.range (count + 1)).map (fun i => levelTests ind n (d + i) g)).sum =
        levelTests ind n d g + ((List.range count).map (fun i => levelTests ind n (d + 1 + i) g)).sum := by
      rw [List.range_succ_eq_map, List.map_cons, List.sum_cons, List.map_map]
      congr 3
      funext i
      show levelTests ind n (d + (i + 1)) g = _
      rw [show d + (i + 1) = d + 1 + i by omega]
    have hone : ∀ o', searchAtDepthP 1 ci d g cap fuel k c o' → ∃ es, o' = .ok ((⟨es, levelAdj ind d adj ps, levelSep ind d adj ps sep⟩ : Skeleton),
        c + levelTests ind n d g, decide (freeDegree (levelAdj ind d adj ps) > d)) ∧ es.map (fun e => (e.x, e.y)) = keptPairs ind d adj ps ∧
        ∀ e ∈ es, e.needRemove = false := by
      intro o' ho'
      obtain ⟨sched, c', hsched, rfl⟩ := searchAtDepthP_one hcap ho'
      obtain ⟨es, he, hes, hun⟩ := searchAtDepth_eq hk ha hg hd hcap (fun x y => hs.none_of_adj x y) hsched
        (fuel := fuel) (by rw [hv1, hv2]; omega)
      rw [he] at ho' ⊢
      have hc : c' = c + levelTests ind n d g := searchAtDepthP_count hk ha hg hd hcap ho'
      refine ⟨es, ?_, ?_, hun⟩
      · simp only [Except.map, hv1, hv2, hv3, hc]
      · rw [hes, hv1, hv2]
    unfold levelsP at ho
    rcases ho with ⟨e, h, rfl⟩ | ⟨⟨k1, c1, more⟩, h, ho⟩
    · obtain ⟨es, h, _⟩ := hone _ h
      cases h
    obtain ⟨es, h, hes, hun⟩ := hone _ h
    simp only [Except.ok.injEq, Prod.mk.injEq] at h
    obtain ⟨rfl, rfl, rfl⟩ := h
    have hrep := represents_level (sep := levelSep ind d k.adj (k.edges.map (fun e => (e.x, e.y))) k.sep) hk (es := es) (by rw [hes, hv1, hv2]) hun
    have hsep := sepInv_level hk hs
    simp only [hv1, hv2, hv3] at hrep hsep
    rw [hsplit, show d + (count + 1) = d + 1 + count by omega, ← Nat.add_assoc]
    by_cases hmore : freeDegree (levelAdj ind d adj ps) > d
    · rw [decide_eq_true hmore] at ho
      exact hF ci g cap fuel _ _ ha hg hcap (by omega) (by unfold Skeleton.view; simp only; rw [hes]) hrep hsep o ho
    · rw [decide_eq_false hmore] at ho
      refine ⟨⟨es, levelAdj ind d adj ps, levelSep ind d adj ps sep⟩, ?_, ?_⟩
      · have : ((List.range count).map (fun i => levelTests ind n (d + 1 + i) g)).sum = 0 := by
          refine List.sum_eq_zero fun t ht => ?_
          obtain ⟨i, _, rfl⟩ := List.mem_map.1 ht
          exact levelTests_stable hrep hmore i
        rw [this]
        exact ho
      · rw [skeletonAt_stable hrep hmore count]
        exact hrep

/-- The skeleton phase with one thread. -/
theorem learnSkeletonP_count (ind : Nat → Nat → List Nat → Bool) (n depth : Nat) : ∃ F, ∀ (ci : CITest) (g cap : Nat) (fuel : Nat),
    Answers ci ind n g → 0 < g → 0 < cap → F ≤ fuel → ∀ o, learnSkeletonP 1 ci n depth g cap fuel o →
      ∃ k, o = .ok (k, totalTests ind n depth g) ∧ Represents n (skeletonAt ind n (max depth 1)) k := by
  obtain ⟨v0, h0⟩ := level0_eq ind n
  obtain ⟨F, h⟩ := levelsP_count ind n (depth - 1) 1 v0 (by omega)
  refine ⟨F, ?_⟩
  intro ci g cap fuel ha hg hcap hfuel o ho
  unfold learnSkeletonP at ho
  rcases ho with ⟨e, h1, rfl⟩ | ⟨⟨k0, c0⟩, h1, ho⟩
  · obtain ⟨order, hord, h1⟩ := level0P_one.1 h1
    obtain ⟨k, hk, _⟩ := h0 ci g order ha hord
    rw [hk] at h1
    cases h1
  · obtain ⟨order, hord, h1⟩ := level0P_one.1 h1
    obtain ⟨k, hk, hv, hr, hs⟩ := h0 ci g order ha hord
    rw [hk] at h1
    simp only [Except.map, Except.ok.injEq, Prod.mk.injEq] at h1
    obtain ⟨rfl, rfl⟩ := h1
    obtain ⟨k', h2, h3⟩ := h ci g cap fuel _ k0 ha hg hcap hfuel hv hr hs o ho
    refine ⟨k', ?_, ?_⟩
    · rw [h2]
      unfold totalTests
      simp only [Nat.add_comm 1]
    · rw [show max depth 1 = 1 + (depth - 1) by omega]; exact h3

end FastPGM
