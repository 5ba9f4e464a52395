import Verif.Lemmas.MessagePassing2

/-!
The order of the messages: what matters is that every clique and separator hears all its downstream neighbours before it speaks.
-/

namespace FastPGM

open Spec

section lists

theorem readBy_flatMap {α β : Type} [DecidableEq α] (B : List β) (S : β → List (α × α)) (x : α) :
    readBy (B.flatMap S) x = B.flatMap (fun b => readBy (S b) x) := by
  induction B with
  | nil => rfl
  | cons b B ih => rw [List.flatMap_cons, List.flatMap_cons, readBy_append, ih]

theorem readBy_map {α : Type} [DecidableEq α] (x : α) (l : List α) (z : α) :
    readBy (l.map (fun y => (x, y))) z = if x = z then l else [] := by
  induction l with
  | nil => simp [readBy_nil]
  | cons y l ih =>
    rw [List.map_cons, readBy_cons, ih]
    by_cases h : x = z <;> simp [h]

/-- The contribution of one element of a list without repetitions. -/
theorem flatMap_single {α β : Type} {B : List α} (hn : B.Nodup) {b : α} (hb : b ∈ B) {S : α → List β} (h : ∀ b' ∈ B, b' ≠ b → S b' = []) :
    B.flatMap S = S b := by
  induction B with
  | nil => simp at hb
  | cons c B ih =>
    obtain ⟨hc, hn'⟩ := List.nodup_cons.1 hn
    rw [List.flatMap_cons]
    by_cases e : c = b
    · subst e
      have : B.flatMap S = [] := by
        rw [List.flatMap_eq_nil_iff]
        intro x hx
        exact h x (by simp [hx]) (fun e => hc (by rw [← e]; exact hx))
      rw [this, List.append_nil]
    · rw [h c (by simp) e, List.nil_append]
      refine ih hn' ?_ (fun b' hb' => h b' (by simp [hb']))
      rcases List.mem_cons.1 hb with rfl | hb
      · exact absurd rfl e
      · exact hb

theorem flatMap_none {α β : Type} {B : List α} {S : α → List β} (h : ∀ b ∈ B, S b = []) : B.flatMap S = [] := by
  rw [List.flatMap_eq_nil_iff]
  exact h

/-- The elements of a list one by one, with room to spare. -/
theorem flatMap_range_getD {α : Type} (l : List α) (d : α) {n : Nat} (hn : l.length ≤ n) :
    (List.range n).flatMap (fun k => if k < l.length then [l.getD k d] else []) = l := by
  induction n generalizing l with
  | zero =>
    have : l = [] := List.length_eq_zero_iff.1 (by omega)
    subst this
    rfl
  | succ n ih =>
    rw [List.range_succ_eq_map, List.flatMap_cons, List.flatMap_map]
    cases l with
    | nil => simp
    | cons a l =>
      rw [if_pos (by simp)]
      have := ih l (by simpa using hn)
      have e : (fun k => if k + 1 < (a :: l).length then [(a :: l).getD (k + 1) d] else []) =
          fun k => if k < l.length then [l.getD k d] else [] := by
        funext k
        simp
      simp only [Nat.succ_eq_add_one]
      rw [e, this]
      simp

theorem pairwise_flatMap_of {α β : Type} {R : β → β → Prop} {B : List α} {S : α → List β} (h1 : ∀ b ∈ B, (S b).Pairwise R)
    (h2 : B.Pairwise (fun b b' => ∀ p ∈ S b, ∀ q ∈ S b', R p q)) : (B.flatMap S).Pairwise R := by
  rw [List.pairwise_flatMap]
  exact ⟨h1, h2⟩

end lists

variable {T : JTShape} {L : Levels} {r : Nat} {lev : JNode → Nat} {par ch : Nat → Nat} {card : Nat → Nat} {VC VS : Nat → List Nat}

/-- The messages of one way of collecting: every node reads every downstream neighbour once, after that one has read its own. -/
structure CollectOrder (T : JTShape) (L : Levels) (l : List (JNode × JNode)) : Prop where
  final : ReadFinal l
  reads : ∀ x, validNode T.cliques.length x → (readBy l x).Perm (L.marks.down x)
  valid : ∀ p ∈ l, validNode T.cliques.length p.1

/-- The messages of one way of distributing: every node but the root reads its upstream neighbour once, after that one has read. -/
structure DistributeOrder (T : JTShape) (L : Levels) (l : List (JNode × JNode)) : Prop where
  final : ReadFinal l
  reads : ∀ x, validNode T.cliques.length x → readBy l x = (L.marks.up x).toList
  valid : ∀ p ∈ l, validNode T.cliques.length p.1

theorem readFinal_of_levels {lev : JNode → Nat} {l : List (JNode × JNode)} (h1 : ∀ p ∈ l, lev p.2 = lev p.1 + 1)
    (h2 : l.Pairwise (fun p q => lev q.1 ≤ lev p.1)) : ReadFinal l := by
  refine ⟨?_, ?_⟩
  · refine h2.imp_of_mem ?_
    intro p q hp _ hpq e
    have := h1 p hp
    rw [e] at hpq
    omega
  · intro p hp e
    have := h1 p hp
    rw [← e] at this
    omega

theorem readFinal_of_levels_down {lev : JNode → Nat} {l : List (JNode × JNode)} (h1 : ∀ p ∈ l, lev p.1 = lev p.2 + 1)
    (h2 : l.Pairwise (fun p q => lev p.1 ≤ lev q.1)) : ReadFinal l := by
  refine ⟨?_, ?_⟩
  · refine h2.imp_of_mem ?_
    intro p q hp _ hpq e
    have := h1 p hp
    rw [e] at hpq
    omega
  · intro p hp e
    have := h1 p hp
    rw [← e] at this
    omega

theorem pairwise_range_reverse (n : Nat) : (List.range n).reverse.Pairwise (fun i j => j < i) := by
  rw [List.pairwise_reverse]
  exact List.pairwise_lt_range

section plan

variable (hp : Plan T L r lev par ch) (h : RepOK card T.cliques.length VC VS par ch)

include hp h

/-- The nodes of the last level have no downstream neighbours. -/
theorem Plan.down_last {x : JNode} (hx : validNode T.cliques.length x) (hl : lev x + 1 = L.nodes.length) : L.marks.down x = [] := by
  rw [List.eq_nil_iff_forall_not_mem]
  intro y hy
  obtain ⟨_, h1, h2, _⟩ := hp.down_facts h hx hy
  have := hp.lt y h2
  omega

omit h in
theorem readBy_collectLevel {i : Nat} (hil : i < L.nodes.length) {x : JNode} (hx : validNode T.cliques.length x) :
    readBy (collectLevelSched L i) x = if lev x = i then L.marks.down x else [] := by
  by_cases hl : lev x = i
  · have hxm : x ∈ L.nodes.getD i [] := (hp.mem i hil x).2 ⟨hx, hl⟩
    rw [if_pos hl]
    unfold collectLevelSched
    split
    · rw [readBy_flatMap, flatMap_single (hp.lnodup i) hxm]
      · rw [readBy_map, if_pos rfl]
      · intro b _ hb
        rw [readBy_map, if_neg hb]
    · rw [readBy_flatMap]
      have e : ∀ k, readBy (((L.nodes.getD i []).filter (fun x => decide (k < (L.marks.down x).length))).map
          (fun x => (x, (L.marks.down x).getD k (.clq 0)))) x =
          if k < (L.marks.down x).length then [(L.marks.down x).getD k (.clq 0)] else [] := by
        intro k
        rw [List.map_eq_flatMap, readBy_flatMap]
        split
        · rename_i hk
          rw [flatMap_single ((hp.lnodup i).filter _) (b := x) (List.mem_filter.2 ⟨hxm, by simpa using hk⟩)]
          · rw [readBy_cons, if_pos rfl, readBy_nil]
          · intro b _ hb
            rw [readBy_cons, if_neg hb, readBy_nil]
        · rename_i hk
          apply flatMap_none
          intro b hb
          rw [readBy_cons, readBy_nil, if_neg]
          rintro rfl
          exact hk (by simpa using (List.mem_filter.1 hb).2)
      simp only [e]
      exact flatMap_range_getD _ _ ((foldl_max_ge (fun x => (L.marks.down x).length) _ 0).1 x hxm)
  · rw [if_neg hl]
    apply readBy_eq_nil
    rintro p hpm rfl
    exact hl ((hp.mem i hil _).1 (mem_collectLevelSched hpm).1).2

/-- Messages from the last level to the first. -/
theorem levels_order {S : Nat → List (JNode × JNode)}
    (hS : ∀ i, i < L.nodes.length → ∀ p ∈ S i, p.1 ∈ L.nodes.getD i [] ∧ p.2 ∈ L.marks.down p.1)
    (hR : ∀ i, i < L.nodes.length → ∀ x, validNode T.cliques.length x → readBy (S i) x = if lev x = i then L.marks.down x else []) :
    CollectOrder T L ((List.range (L.nodes.length - 1)).reverse.flatMap S) := by
  have hlt : ∀ i ∈ (List.range (L.nodes.length - 1)).reverse, i < L.nodes.length := by
    intro i hi
    simp only [List.mem_reverse, List.mem_range] at hi
    omega
  have hfacts : ∀ p ∈ (List.range (L.nodes.length - 1)).reverse.flatMap S,
      validNode T.cliques.length p.1 ∧ lev p.2 = lev p.1 + 1 := by
    intro p hpm
    obtain ⟨i, hi, hpm⟩ := List.mem_flatMap.1 hpm
    obtain ⟨h1, h2⟩ := hS i (hlt i hi) p hpm
    obtain ⟨h3, h4⟩ := (hp.mem i (hlt i hi) _).1 h1
    exact ⟨h3, (hp.down_facts h h3 h2).2.1⟩
  refine ⟨readFinal_of_levels (lev := lev) (fun p hpm => (hfacts p hpm).2) ?_, ?_, fun p hpm => (hfacts p hpm).1⟩
  · refine pairwise_flatMap_of ?_ ?_
    · intro i hi
      refine List.pairwise_of_forall_mem_list ?_
      intro p hpm q hqm
      have h1 := ((hp.mem i (hlt i hi) _).1 (hS i (hlt i hi) p hpm).1).2
      have h2 := ((hp.mem i (hlt i hi) _).1 (hS i (hlt i hi) q hqm).1).2
      omega
    · refine (pairwise_range_reverse _).imp_of_mem ?_
      intro i j hi hj hij p hpm q hqm
      have h1 := ((hp.mem i (hlt i hi) _).1 (hS i (hlt i hi) p hpm).1).2
      have h2 := ((hp.mem j (hlt j hj) _).1 (hS j (hlt j hj) q hqm).1).2
      omega
  · intro x hx
    apply List.Perm.of_eq
    rw [readBy_flatMap]
    have hlx := hp.lt x hx
    by_cases hlast : lev x + 1 = L.nodes.length
    · rw [hp.down_last h hx hlast]
      apply flatMap_none
      intro i hi
      rw [hR i (hlt i hi) x hx, if_neg]
      simp only [List.mem_reverse, List.mem_range] at hi
      omega
    · rw [flatMap_single (List.nodup_reverse.2 List.nodup_range) (b := lev x) (by simp; omega), hR _ hlx x hx, if_pos rfl]
      intro i hi hne
      rw [hR i (hlt i hi) x hx, if_neg (Ne.symm hne)]

theorem collectSched_order : CollectOrder T L (collectSched L) :=
  levels_order hp h (fun _ _ _ hpm => mem_collectLevelSched hpm) (fun _ hi _ hx => readBy_collectLevel hp hi hx)

/-- The messages of `Collect3`. -/
theorem collect3Sched_order : CollectOrder T L ((List.range (L.nodes.length - 1)).reverse.flatMap (fun i =>
    (L.nodes.getD i []).flatMap (fun x => (L.marks.down x).map (fun y => (x, y))))) := by
  refine levels_order hp h ?_ ?_
  · intro i _ p hpm
    simp only [List.mem_flatMap, List.mem_map] at hpm
    obtain ⟨x, hx, y, hy, rfl⟩ := hpm
    exact ⟨hx, hy⟩
  · intro i hi x hx
    rw [readBy_flatMap]
    split
    · rename_i hl
      rw [flatMap_single (hp.lnodup i) ((hp.mem i hi x).2 ⟨hx, hl⟩), readBy_map, if_pos rfl]
      intro b _ hb
      rw [readBy_map, if_neg hb]
    · rename_i hl
      apply flatMap_none
      intro b hb
      rw [readBy_map, if_neg]
      rintro rfl
      exact hl ((hp.mem i hi b).1 hb).2

theorem distributeSched_order : DistributeOrder T L (distributeSched L) := by
  have hlt : ∀ k ∈ List.range (L.nodes.length - 1), k + 1 < L.nodes.length := by
    intro k hk
    rw [List.mem_range] at hk
    omega
  have hmem : ∀ k, k + 1 < L.nodes.length → ∀ p ∈ distributeLevelSched L (k + 1), validNode T.cliques.length p.1 ∧ lev p.1 = k + 1 ∧
      lev p.1 = lev p.2 + 1 := by
    intro k hk p hpm
    obtain ⟨x, hx, rfl⟩ := List.mem_map.1 hpm
    obtain ⟨hv, hl⟩ := (hp.mem _ hk x).1 hx
    obtain ⟨y, e, _, h3, _⟩ := hp.up_facts h hv (by rintro rfl; have := hp.lev_root; omega)
    simp only [e, Option.getD_some]
    exact ⟨hv, hl, h3⟩
  refine ⟨readFinal_of_levels_down (lev := lev) (fun p hpm => ?_) ?_, ?_, fun p hpm => ?_⟩
  · obtain ⟨k, hk, hpm⟩ := List.mem_flatMap.1 hpm
    exact (hmem k (hlt k hk) p hpm).2.2
  · refine pairwise_flatMap_of ?_ ?_
    · intro k hk
      refine List.pairwise_of_forall_mem_list ?_
      intro p hpm q hqm
      have h1 := (hmem k (hlt k hk) p hpm).2.1
      have h2 := (hmem k (hlt k hk) q hqm).2.1
      omega
    · refine List.pairwise_lt_range.imp_of_mem ?_
      intro i j hi hj hij p hpm q hqm
      have h1 := (hmem i (hlt i hi) p hpm).2.1
      have h2 := (hmem j (hlt j hj) q hqm).2.1
      omega
  · intro x hx
    unfold distributeSched
    rw [readBy_flatMap]
    have hlev : ∀ k, k + 1 < L.nodes.length → readBy (distributeLevelSched L (k + 1)) x =
        if lev x = k + 1 then [(L.marks.up x).getD (.clq 0)] else [] := by
      intro k hk
      split
      · rename_i hl
        unfold distributeLevelSched
        rw [List.map_eq_flatMap, readBy_flatMap, flatMap_single (hp.lnodup _) ((hp.mem _ hk x).2 ⟨hx, hl⟩)]
        · rw [readBy_cons, if_pos rfl, readBy_nil]
        · intro b _ hb
          rw [readBy_cons, if_neg hb, readBy_nil]
      · rename_i hl
        apply readBy_eq_nil
        rintro p hpm rfl
        exact hl (hmem k hk p hpm).2.1
    by_cases hr : x = .clq r
    · subst hr
      rw [hp.up_root]
      apply flatMap_none
      intro k hk
      rw [hlev k (hlt k hk), if_neg (by rw [hp.lev_root]; omega)]
    · obtain ⟨y, e, _, h3, _⟩ := hp.up_facts h hx hr
      have := hp.lt x hx
      rw [flatMap_single List.nodup_range (b := lev y) (by rw [List.mem_range]; omega), hlev _ (by omega), if_pos h3, e]
      · rfl
      · intro k hk hne
        rw [hlev k (hlt k hk), if_neg (by omega)]
  · obtain ⟨k, hk, hpm⟩ := List.mem_flatMap.1 hpm
    exact (hmem k (hlt k hk) p hpm).1

end plan

end FastPGM
