import Verif.Lemmas.Skeleton3

/-!
Lemmas about the skeleton phase: the result of a level as a function, and what it means for the graph.
-/

namespace FastPGM

open Spec

/-- Remove the pairs in `R` from the adjacency lists. -/
def cutAdj (R : List (Nat × Nat)) (adj : List (List Nat)) : List (List Nat) :=
  tab adj.length (fun v => (adj.getD v []).filter (fun w => decide ((v, w) ∉ R ∧ (w, v) ∉ R)))

theorem cutAdj_nil (adj : List (List Nat)) : cutAdj [] adj = adj := by
  unfold cutAdj
  conv_rhs => rw [eq_tab_getD (l := adj) []]
  apply tab_congr
  intro v _
  simp

theorem cutAdj_cut (R R' : List (Nat × Nat)) (adj : List (List Nat)) : cutAdj R' (cutAdj R adj) = cutAdj (R ++ R') adj := by
  unfold cutAdj
  rw [tab_length]
  apply tab_congr
  intro v hv
  rw [getD_tab hv, List.filter_filter]
  apply List.filter_congr
  intro w _
  simp only [List.mem_append, ← Bool.decide_and]
  congr 1
  rw [eq_iff_iff]
  tauto

theorem eraseAdj_eq {adj : List (List Nat)} {a : Nat} (ha : a < adj.length) (hn : ∀ (v : Nat) l, adj[v]? = some l → l.Nodup) (b : Nat) :
    eraseAdj adj a b = .ok (tab adj.length (fun v => (adj.getD v []).filter (fun w => decide (¬ (v = a ∧ w = b))))) := by
  unfold eraseAdj rdAt
  rw [List.getElem?_eq_getElem ha]
  simp only [ok_bind]
  rw [wr_ok ha]
  congr 1
  apply tab_ext (by simp)
  intro v hv
  rw [List.getElem?_set]
  by_cases h : a = v
  · subst h
    rw [if_pos rfl, if_pos hv, (hn a _ (List.getElem?_eq_getElem ha)).erase_eq_filter b, List.getD_eq_getElem?_getD,
      List.getElem?_eq_getElem ha, Option.getD_some]
    congr 1
    apply List.filter_congr
    intro w _
    by_cases hw : w = b <;> simp [hw]
  · rw [if_neg h, List.getElem?_eq_getElem hv, List.getD_eq_getElem?_getD, List.getElem?_eq_getElem hv, Option.getD_some]
    congr 1
    symm
    rw [List.filter_eq_self]
    intro w _
    rw [decide_eq_true_iff]
    exact fun h' => h h'.1.symm

theorem eraseAdj_both {adj : List (List Nat)} {a b : Nat} (ha : a < adj.length) (hb : b < adj.length)
    (hn : ∀ (v : Nat) l, adj[v]? = some l → l.Nodup) :
    (do let adj ← eraseAdj adj a b; eraseAdj adj b a) = .ok (cutAdj [(a, b)] adj) := by
  rw [eraseAdj_eq ha hn, ok_bind, eraseAdj_eq (by simpa using hb)]
  · congr 1
    unfold cutAdj
    rw [tab_length]
    apply tab_congr
    intro v hv
    rw [getD_tab hv, List.filter_filter]
    apply List.filter_congr
    intro w _
    simp only [List.mem_singleton, Prod.mk.injEq, ← Bool.decide_and]
    congr 1
    rw [eq_iff_iff]
    tauto
  · intro v l hl
    rw [tab_get?] at hl
    split at hl
    · rename_i hv
      cases hl
      apply List.Nodup.filter
      rw [List.getD_eq_getElem?_getD, List.getElem?_eq_getElem hv, Option.getD_some]
      exact hn v _ (List.getElem?_eq_getElem hv)
    · cases hl

theorem cutAdj_nodup {R : List (Nat × Nat)} {adj : List (List Nat)} (hn : ∀ (v : Nat) l, adj[v]? = some l → l.Nodup) :
    ∀ (v : Nat) l, (cutAdj R adj)[v]? = some l → l.Nodup := by
  intro v l hl
  unfold cutAdj at hl
  rw [tab_get?] at hl
  split at hl
  · rename_i hv
    cases hl
    apply List.Nodup.filter
    rw [List.getD_eq_getElem?_getD, List.getElem?_eq_getElem hv, Option.getD_some]
    exact hn v _ (List.getElem?_eq_getElem hv)
  · cases hl

theorem removeMarked_eq (es : List WorkEdge) {adj : List (List Nat)} (hr : ∀ e ∈ es, e.x < adj.length ∧ e.y < adj.length)
    (hn : ∀ (v : Nat) l, adj[v]? = some l → l.Nodup) :
    removeMarked es adj = .ok (es.filter (fun e => !e.needRemove),
      cutAdj ((es.filter (fun e => e.needRemove)).map (fun e => (e.x, e.y))) adj) := by
  induction es generalizing adj with
  | nil => rw [List.filter_nil, List.filter_nil, List.map_nil, cutAdj_nil]; rfl
  | cons e es ih =>
    unfold removeMarked
    have he := hr e (by simp)
    by_cases h : e.needRemove = true
    · rw [if_pos h]
      have key := eraseAdj_both he.1 he.2 hn
      have hlen : (cutAdj [(e.x, e.y)] adj).length = adj.length := by simp [cutAdj]
      have ih' := ih (adj := cutAdj [(e.x, e.y)] adj) (fun f hf => by rw [hlen]; exact hr f (by simp [hf])) (cutAdj_nodup hn)
      cases h1 : eraseAdj adj e.x e.y with
      | error _ => rw [h1] at key; cases key
      | ok a1 =>
        rw [h1, ok_bind] at key
        rw [ok_bind, key, ok_bind, ih', cutAdj_cut]
        simp [h]
    · have h' : e.needRemove = false := by simpa using h
      rw [if_neg h, ih (fun f hf => hr f (by simp [hf])) hn, ok_bind]
      show Except.ok _ = Except.ok _
      simp [h']

theorem mem_cutAdj {R : List (Nat × Nat)} {adj : List (List Nat)} {v : Nat} {l : List Nat} (h : (cutAdj R adj)[v]? = some l) :
    ∃ l0, adj[v]? = some l0 ∧ l.Sublist l0 ∧ ∀ w, w ∈ l ↔ w ∈ l0 ∧ (v, w) ∉ R ∧ (w, v) ∉ R := by
  unfold cutAdj at h
  rw [tab_get?] at h
  split at h
  · rename_i hv
    cases h
    refine ⟨adj[v], List.getElem?_eq_getElem hv, ?_, ?_⟩
    · rw [List.getD_eq_getElem?_getD, List.getElem?_eq_getElem hv, Option.getD_some]
      exact List.filter_sublist
    · intro w
      rw [List.mem_filter, List.getD_eq_getElem?_getD, List.getElem?_eq_getElem hv, Option.getD_some, decide_eq_true_iff]
  · cases h

theorem Spec.Represents.goodAdj {n : Nat} {G : Nat → Nat → Prop} {k : Skeleton} (h : Represents n G k) : GoodAdj n k.adj := by
  refine ⟨h.adjLength, fun v l hl => (h.adj v l hl).1, ?_⟩
  intro v l hl z hz
  have := ((h.adj v l hl).2 z).1 hz
  have h1 := h.range z v (h.symm v z this)
  exact h1

theorem Spec.Represents.mem_adj {n : Nat} {G : Nat → Nat → Prop} {k : Skeleton} (h : Represents n G k) {v : Nat} (hv : v < n) {z : Nat} :
    z ∈ k.adj.getD v [] ↔ G v z := by
  have hv' : v < k.adj.length := by rw [h.adjLength]; exact hv
  rw [List.getD_eq_getElem?_getD, List.getElem?_eq_getElem hv', Option.getD_some]
  exact (h.adj v _ (List.getElem?_eq_getElem hv')).2 z

/-- A pair has a recorded separator exactly if it is separable. -/
theorem separator_spec {ind : Nat → Nat → List Nat → Bool} {n : Nat} {G : Nat → Nat → Prop} {k : Skeleton} (h : Represents n G k) {d x y : Nat}
    (hx : x < n) (hy : y < n) :
    ((separator ind k.adj d x y).isSome ↔ Separable ind G d x y) ∧
      ∀ S, separator ind k.adj d x y = some S → S.Pairwise (· < ·) ∧ S.length = d ∧ ind x y S = true ∧
        ((∀ z ∈ S, G x z ∧ z ≠ y) ∨ (∀ z ∈ S, G y z ∧ z ≠ x)) := by
  have hmem : ∀ S, S ∈ allSets k.adj d x y ↔ S.Pairwise (· < ·) ∧ S.length = d ∧
      ((∀ z ∈ S, G x z ∧ z ≠ y) ∨ (∀ z ∈ S, G y z ∧ z ≠ x)) := by
    intro S
    unfold allSets
    rw [List.mem_append, mem_combos (others_sorted h.goodAdj hx y), mem_combos (others_sorted h.goodAdj hy x)]
    have e1 : ∀ z, z ∈ others k.adj x y ↔ G x z ∧ z ≠ y := fun z => by
      rw [mem_others h.goodAdj hx, h.mem_adj hx]
    have e2 : ∀ z, z ∈ others k.adj y x ↔ G y z ∧ z ≠ x := fun z => by
      rw [mem_others h.goodAdj hy, h.mem_adj hy]
    simp only [e1, e2]
    tauto
  constructor
  · unfold separator Separable
    rw [List.find?_isSome]
    constructor
    · rintro ⟨S, hS, hi⟩
      obtain ⟨h1, h2, h3⟩ := (hmem S).1 hS
      exact ⟨S, h1, h2, hi, h3⟩
    · rintro ⟨S, h1, h2, hi, h3⟩
      exact ⟨S, (hmem S).2 ⟨h1, h2, h3⟩, hi⟩
  · intro S hS
    unfold separator at hS
    obtain ⟨h1, h2, h3⟩ := (hmem S).1 (List.mem_of_find?_eq_some hS)
    exact ⟨h1, h2, List.find?_some hS, h3⟩

/-- The edges that a level keeps. -/
def keptPairs (ind : Nat → Nat → List Nat → Bool) (d : Nat) (adj : List (List Nat)) (ps : List (Nat × Nat)) : List (Nat × Nat) :=
  ps.filter (fun p => !(separator ind adj d p.1 p.2).isSome)

/-- The adjacency lists after a level. -/
def levelAdj (ind : Nat → Nat → List Nat → Bool) (d : Nat) (adj : List (List Nat)) (ps : List (Nat × Nat)) : List (List Nat) :=
  cutAdj (ps.filter (fun p => (separator ind adj d p.1 p.2).isSome)) adj

/-- The separating sets after a level. -/
def levelSep (ind : Nat → Nat → List Nat → Bool) (d : Nat) (adj : List (List Nat)) (ps : List (Nat × Nat)) (sep : Sepset) : Sepset :=
  fun a b => if (a, b) ∈ ps then (separator ind adj d a b).or (sep a b) else sep a b

theorem filter_map_pairs {es : List WorkEdge} {q : Nat × Nat → Bool} {m : WorkEdge → Bool} (h : ∀ e ∈ es, m e = q (e.x, e.y)) :
    (es.filter m).map (fun e => (e.x, e.y)) = (es.map (fun e => (e.x, e.y))).filter q := by
  rw [List.filter_map]
  congr 1
  apply List.filter_congr
  intro e he
  exact h e he

/-- A bound on the number of rounds of a level. -/
def levelFuel (d : Nat) (adj : List (List Nat)) (ps : List (Nat × Nat)) : Nat :=
  (ps.map (fun p => (combos (others adj p.1 p.2) d).length + (combos (others adj p.2 p.1) d).length + 5)).sum

theorem searchAtDepth_eq {ci : CITest} {ind : Nat → Nat → List Nat → Bool} {n g d cap : Nat} {G : Nat → Nat → Prop} {k : Skeleton}
    (hk : Represents n G k) (ha : Answers ci ind n g) (hg : 0 < g) (hd : 0 < d) (hcap : 0 < cap)
    (hs0 : ∀ x y, x < y → G x y → k.sep x y = none)
    {sched : Schedule} (hsched : ∀ r l, (sched r l).Perm l) {fuel : Nat} (hfuel : levelFuel d k.adj (k.edges.map (fun e => (e.x, e.y))) ≤ fuel) :
    ∃ es, searchAtDepth ci d g cap sched fuel k = .ok
        (⟨es, levelAdj ind d k.adj (k.edges.map (fun e => (e.x, e.y))), levelSep ind d k.adj (k.edges.map (fun e => (e.x, e.y))) k.sep⟩,
          decide (freeDegree (levelAdj ind d k.adj (k.edges.map (fun e => (e.x, e.y)))) > d)) ∧
      es.map (fun e => (e.x, e.y)) = keptPairs ind d k.adj (k.edges.map (fun e => (e.x, e.y))) ∧
      ∀ e ∈ es, e.needRemove = false := by
  unfold searchAtDepth
  simp only
  have hgood := hk.goodAdj
  have hps : ∀ p ∈ k.edges.map (fun e => (e.x, e.y)), p.1 < p.2 ∧ p.2 < n := by
    rintro ⟨x, y⟩ hp
    obtain ⟨h1, h2⟩ := (hk.edge x y).1 hp
    exact ⟨h1, (hk.range y x (hk.symm _ _ h2)).1⟩
  have hs0' : ∀ p ∈ k.edges.map (fun e => (e.x, e.y)), k.sep p.1 p.2 = none := by
    rintro ⟨x, y⟩ hp
    obtain ⟨h1, h2⟩ := (hk.edge x y).1 hp
    exact hs0 x y h1 h2
  have hpairs : (k.edges.map (fun e => ({ e with process := .no } : WorkEdge))).map (fun e => (e.x, e.y)) = k.edges.map (fun e => (e.x, e.y)) := by
    rw [List.map_map]; rfl
  have hlen : (k.edges.map (fun e => ({ e with process := .no } : WorkEdge))).length = (k.edges.map (fun e => (e.x, e.y))).length := by simp
  let μ : Nat → Nat := fun i => (combos (others k.adj ((k.edges.map (fun e => (e.x, e.y))).getD i (0, 0)).1 ((k.edges.map (fun e => (e.x, e.y))).getD i (0, 0)).2) d).length +
    (combos (others k.adj ((k.edges.map (fun e => (e.x, e.y))).getD i (0, 0)).2 ((k.edges.map (fun e => (e.x, e.y))).getD i (0, 0)).1) d).length + 4
  have hμ : ∀ i e, k.edges[i]? = some e → μ i = (combos (others k.adj e.x e.y) d).length + (combos (others k.adj e.y e.x) d).length + 4 := by
    intro i e he
    have hget : (k.edges.map (fun e => (e.x, e.y))).getD i (0, 0) = (e.x, e.y) := by
      rw [List.getD_eq_getElem?_getD, List.getElem?_map, he]; rfl
    simp only [μ, hget]
  have hinit : LevelInv ind k.adj d (k.edges.map (fun e => (e.x, e.y))) k.sep
      ⟨k.edges.map (fun e => ({ e with process := .no } : WorkEdge)), k.sep⟩
      (fun j => j ∈ List.range (k.edges.map (fun e => ({ e with process := .no } : WorkEdge))).length) μ := by
    refine ⟨hpairs, ?_, ?_, ?_, ?_⟩
    · intro i e _ he
      simp only [List.getElem?_map, Option.map_eq_some_iff] at he
      obtain ⟨e0, he0, rfl⟩ := he
      exact ⟨_, Or.inl ⟨rfl, rfl, hμ i e0 he0⟩, rfl⟩
    · intro i e hi he
      have := (List.getElem?_eq_some_iff.1 he).1
      simp at hi this
      omega
    · intro i e S hi he
      have := (List.getElem?_eq_some_iff.1 he).1
      simp at hi this
      omega
    · intro a b _
      rfl
  obtain ⟨st', μ', hloop, hinv⟩ := levelLoop_inv ha hg hd hgood hk.nodup hps hs0' hcap hsched fuel hinit List.nodup_range
    (by intro i hi; rw [hlen] at hi; simpa using hi) (by
      refine le_trans (le_of_eq ?_) hfuel
      unfold levelFuel
      rw [hlen, show k.edges.map (fun e => (e.x, e.y)) = tab (k.edges.map (fun e => (e.x, e.y))).length
        (fun i => (k.edges.map (fun e => (e.x, e.y))).getD i (0, 0)) from eq_tab_getD _]
      unfold tab
      rw [List.map_map]
      simp only [μ, List.length_map, List.length_range]
      congr 1)
  rw [hloop, ok_bind]
  have hrange : ∀ e ∈ st'.edges, e.x < k.adj.length ∧ e.y < k.adj.length := by
    intro e he
    have : (e.x, e.y) ∈ k.edges.map (fun e => (e.x, e.y)) := by rw [← hinv.pairs]; exact List.mem_map.2 ⟨e, he, rfl⟩
    have := hps _ this
    rw [hk.adjLength]
    simp only at this
    omega
  rw [removeMarked_eq st'.edges hrange (fun v l hl => nodup_of_sorted (hgood.sorted v l hl)), ok_bind]
  have hmark : ∀ e ∈ st'.edges, e.needRemove = (separator ind k.adj d e.x e.y).isSome := by
    intro e he
    obtain ⟨i, hi, rfl⟩ := List.getElem_of_mem he
    exact hinv.done i _ (fun h => h) (List.getElem?_eq_getElem hi)
  have hcut : (st'.edges.filter (fun e => e.needRemove)).map (fun e => (e.x, e.y)) =
      (k.edges.map (fun e => (e.x, e.y))).filter (fun p => (separator ind k.adj d p.1 p.2).isSome) := by
    rw [← hinv.pairs]
    exact filter_map_pairs hmark
  refine ⟨st'.edges.filter (fun e => !e.needRemove), ?_, ?_, ?_⟩
  · show Except.ok _ = Except.ok _
    rw [hcut]
    have hsep : st'.sep = levelSep ind d k.adj (k.edges.map (fun e => (e.x, e.y))) k.sep := by
      funext a b
      unfold levelSep
      by_cases hab : (a, b) ∈ k.edges.map (fun e => (e.x, e.y))
      · rw [if_pos hab]
        rw [← hinv.pairs] at hab
        obtain ⟨e, he, heq⟩ := List.mem_map.1 hab
        obtain ⟨rfl, rfl⟩ := Prod.mk.injEq _ _ _ _ ▸ heq
        obtain ⟨i, hi, rfl⟩ := List.getElem_of_mem he
        cases hs : separator ind k.adj d st'.edges[i].x st'.edges[i].y with
        | none =>
          rw [Option.none_or]
          apply hinv.sepOther
          intro j f _ hf hfe
          rw [hs]
        | some S =>
          rw [Option.some_or]
          exact hinv.sepDone i _ S (fun h => h) (List.getElem?_eq_getElem hi) hs
      · rw [if_neg hab]
        apply hinv.sepOther
        intro j f _ hf hfe
        exact absurd (by rw [← hinv.pairs, ← hfe]; exact List.mem_map.2 ⟨f, List.mem_of_getElem? hf, rfl⟩) hab
    rw [hsep]
    rfl
  · rw [filter_map_pairs (q := fun p => !(separator ind k.adj d p.1 p.2).isSome) (fun e he => by rw [hmark e he]), hinv.pairs]
    rfl
  · intro e he
    simpa using (List.mem_filter.1 he).2

/-- A level turns a representation of `G` into one of the graph the level leaves. -/
theorem represents_level {ind : Nat → Nat → List Nat → Bool} {n d : Nat} {G : Nat → Nat → Prop} {k : Skeleton} (hk : Represents n G k)
    {es : List WorkEdge} {sep : Sepset} (hes : es.map (fun e => (e.x, e.y)) = keptPairs ind d k.adj (k.edges.map (fun e => (e.x, e.y))))
    (hun : ∀ e ∈ es, e.needRemove = false) :
    Represents n (levelGraph ind d G) ⟨es, levelAdj ind d k.adj (k.edges.map (fun e => (e.x, e.y))), sep⟩ := by
  have hsep : ∀ x y, x < n → y < n → ((separator ind k.adj d x y).isSome = true ↔ Separable ind G d x y) := fun x y hx hy =>
    (separator_spec hk hx hy).1
  refine ⟨?_, ?_, ?_, ?_, hun, ?_, ?_⟩
  · rintro x y ⟨h1, h2⟩
    refine ⟨hk.symm _ _ h1, ?_⟩
    rw [Nat.min_comm, Nat.max_comm]
    exact h2
  · rintro x y ⟨h1, _⟩
    exact hk.range x y h1
  · show (es.map _).Nodup
    rw [hes]
    exact hk.nodup.filter _
  · intro x y
    show (x, y) ∈ es.map _ ↔ _
    rw [hes]
    unfold keptPairs levelGraph
    rw [List.mem_filter, hk.edge]
    simp only [Bool.not_eq_true', Bool.eq_false_iff, ne_eq]
    constructor
    · rintro ⟨⟨h1, h2⟩, h3⟩
      have hx := (hk.range x y h2).1
      have hy := (hk.range y x (hk.symm _ _ h2)).1
      refine ⟨h1, h2, ?_⟩
      rw [Nat.min_eq_left (by omega), Nat.max_eq_right (by omega), ← hsep x y hx hy]
      exact h3
    · rintro ⟨h1, h2, h3⟩
      have hx := (hk.range x y h2).1
      have hy := (hk.range y x (hk.symm _ _ h2)).1
      rw [Nat.min_eq_left (by omega), Nat.max_eq_right (by omega), ← hsep x y hx hy] at h3
      exact ⟨⟨h1, h2⟩, h3⟩
  · show (levelAdj ind d k.adj _).length = n
    unfold levelAdj cutAdj
    rw [tab_length, hk.adjLength]
  · intro v l hl
    obtain ⟨l0, hl0, hsub, hmem⟩ := mem_cutAdj hl
    obtain ⟨hs, hm⟩ := hk.adj v l0 hl0
    refine ⟨hs.sublist hsub, ?_⟩
    intro z
    rw [hmem, hm]
    unfold levelGraph
    have hin : ∀ a b, (a, b) ∈ (k.edges.map (fun e => (e.x, e.y))).filter (fun p => (separator ind k.adj d p.1 p.2).isSome) ↔
        (a < b ∧ G a b) ∧ (separator ind k.adj d a b).isSome = true := by
      intro a b
      rw [List.mem_filter, hk.edge]
    simp only [hin]
    constructor
    · rintro ⟨h1, h2, h3⟩
      refine ⟨h1, ?_⟩
      have hv := hk.range v z h1
      have hz := hk.range z v (hk.symm _ _ h1)
      rcases Nat.lt_or_ge v z with h | h
      · rw [Nat.min_eq_left (by omega), Nat.max_eq_right (by omega), ← hsep v z hv.1 hz.1]
        exact fun h4 => h2 ⟨⟨h, h1⟩, h4⟩
      · have h : z < v := by omega
        rw [Nat.min_eq_right (by omega), Nat.max_eq_left (by omega), ← hsep z v hz.1 hv.1]
        exact fun h4 => h3 ⟨⟨h, hk.symm _ _ h1⟩, h4⟩
    · rintro ⟨h1, h2⟩
      have hv := hk.range v z h1
      have hz := hk.range z v (hk.symm _ _ h1)
      refine ⟨h1, ?_, ?_⟩
      · rintro ⟨⟨h3, _⟩, h4⟩
        rw [Nat.min_eq_left (by omega), Nat.max_eq_right (by omega), ← hsep v z hv.1 hz.1] at h2
        exact h2 h4
      · rintro ⟨⟨h3, _⟩, h4⟩
        rw [Nat.min_eq_right (by omega), Nat.max_eq_left (by omega), ← hsep z v hz.1 hv.1] at h2
        exact h2 h4

end FastPGM
