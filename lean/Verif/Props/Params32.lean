import Verif.Lemmas.Params32
import Verif.Lemmas.RoundedPipeline
import Verif.Props.JunctionTree32
import Verif.Spec.Params32

/-!
Property C121: the exact limits of parameter learning in 32-bit integers.
-/

namespace FastPGM

open Spec

variable {K : Type} [Field K] [LinearOrder K] [IsStrictOrderedRing K]

omit [IsStrictOrderedRing K] [LinearOrder K] [Field K] in
theorem fits_iff {alpha : Int} (ha : 0 < alpha) (p c : Nat) :
    (p ≤ intMax ∧ -2147483648 ≤ alpha * (c : Int) ∧ alpha * (c : Int) ≤ 2147483647) ↔ p < 2 ^ 31 ∧ alpha * (c : Int) < 2 ^ 31 := by
  have : 0 ≤ alpha * (c : Int) := Int.mul_nonneg ha.le (by omega)
  rw [le_intMax]
  omega

open Classical in
/-- Learning with 32-bit integers gives the exact tables within the limits, and is undefined outside of them. -/
theorem learnParams32_eq {card : Nat → Nat} {N : Net} (hN : NetShape card N) {cols : List (List Nat)} {rows : List Assignment}
    (hc : Columns card N.nodes.length cols rows) (hm : rows.length < 2 ^ 31) (hcard : ∀ i < N.nodes.length, card i < 2 ^ 31)
    {alpha : Int} (ha : 0 < alpha) (rnd : Nat → Nat → Nat) (pts : List (Table K)) :
    learnParams32 N cols N.nodes.length rows.length alpha rnd pts =
      if LearnFits N card alpha then learnParams N cols N.nodes.length rows.length alpha rnd pts else .error .ub := by
  have hrow : ∀ i, (hi : i < N.nodes.length) → RowsFor card cols none (rnd i) rows i N.nodes[i].parents := by
    intro i hi
    have hs := List.getElem?_eq_getElem hi
    refine ⟨fun r hr v hv => hc.lt r hr v (NetShape.lt hN hs v hv), hc.get i hi, Or.inr ⟨by simp, fun p hp => ?_⟩⟩
    exact hc.get p (NetShape.lt hN hs p (by simp [hp]))
  have h1 := mapM_or_ub (l := List.range N.nodes.length)
    (f := fun i => learnNode32 (K := K) N cols rows.length alpha none (rnd i) i)
    (g := fun i => learnNode (K := K) N cols rows.length alpha none (rnd i) i)
    (P := fun i => ∀ s, N.nodes[i]? = some s → ((i :: s.parents).map card).prod < 2 ^ 31 ∧ alpha * (card i : Int) < 2 ^ 31)
    (by
      intro i hi
      have hi' := List.mem_range.1 hi
      have hs := List.getElem?_eq_getElem hi'
      rw [learnNode32_eq hN hs (le_intMax.2 (hcard i hi')) (le_intMax.2 hm) (hrow i hi')]
      simp only [fits_iff ha, hs, Option.some.injEq, forall_eq'])
    (by
      intro i hi
      have hi' := List.mem_range.1 hi
      obtain ⟨T, h, _⟩ := learnNode_spec (K := K) hN (List.getElem?_eq_getElem hi') (hrow i hi') ha.le (fun e => absurd e ha.ne')
      exact ⟨T, h⟩)
  have hP : (∀ i ∈ List.range N.nodes.length, ∀ s, N.nodes[i]? = some s →
      ((i :: s.parents).map card).prod < 2 ^ 31 ∧ alpha * (card i : Int) < 2 ^ 31) ↔ LearnFits N card alpha := by
    refine ⟨fun h i s hs => h i (List.mem_range.2 (List.getElem?_eq_some_iff.1 hs).1) s hs, fun h i _ s hs => h i s hs⟩
  unfold learnParams32 learnParams
  rw [if_pos rfl]
  simp only
  rw [h1]
  by_cases h : LearnFits N card alpha
  · rw [if_pos (hP.2 h), if_pos h]
  · rw [if_neg (fun h' => h (hP.1 h')), if_neg h]
    rfl

/-- C121, without ROOT.  If every table has fewer than 2³¹ entries and the smoothing parameter times each number of values is less than
2³¹, then the tables learned with 32-bit integers are the smoothed frequencies; otherwise the behaviour is undefined. -/
theorem C121_learned {card : Nat → Nat} {N : Net} (hN : NetShape card N) {cols : List (List Nat)} {rows : List Assignment}
    (hc : Columns card N.nodes.length cols rows) (hm : rows.length < 2 ^ 31) (hcard : ∀ i < N.nodes.length, card i < 2 ^ 31)
    {alpha : Int} (ha : 0 < alpha) (rnd : Nat → Nat → Nat) (pts : List (Table K)) :
    (LearnFits N card alpha →
      ∃ new, learnParams32 N cols N.nodes.length rows.length alpha rnd pts = .ok (pts ++ new) ∧ new.length = N.nodes.length ∧
        ∀ (i : Nat) s, N.nodes[i]? = some s → ∃ T, new[i]? = some T ∧ IsFrequencyTable card rows alpha i s.parents T) ∧
    (¬ LearnFits N card alpha →
      learnParams32 N cols N.nodes.length rows.length alpha rnd pts = .error .ub) := by
  classical
  rw [learnParams32_eq hN hc hm hcard ha rnd pts]
  constructor
  · intro h
    rw [if_pos h]
    exact C22_learned (K := K) hN hc ha.le (fun e => absurd e ha.ne') rnd pts
  · intro h
    rw [if_neg h]

/-- C121, with ROOT. -/
theorem C121_learned_root {card : Nat → Nat} {N : Net} (hN : NetShape card N) {cols : List (List Nat)} {rows : List Assignment}
    {n : Nat} (hn : N.nodes.length = n + 1) (hc : Columns card n cols rows) (hroot : card n = 2)
    (hrp : ∀ s, N.nodes[n]? = some s → s.parents = [])
    (hpar : ∀ (i : Nat) s, N.nodes[i]? = some s → n ∈ s.parents → s.parents = [n])
    {rnd : Nat → Nat → Nat} (hrnd : ∀ i j, rnd i j < 2) (hm : rows.length < 2 ^ 31) (hcard : ∀ i < n, card i < 2 ^ 31)
    {alpha : Int} (ha : 0 < alpha) (pts : List (Table K)) :
    (LearnFits N card alpha →
      ∃ new R, learnParams32 N cols n rows.length alpha rnd pts = .ok (pts ++ new ++ [R]) ∧ new.length = n ∧
        (∀ (i : Nat) s, i < n → N.nodes[i]? = some s → ∃ T, new[i]? = some T ∧
          IsFrequencyTable card (rows.mapIdx (fun j r => r.set n (rnd i j))) alpha i s.parents T) ∧
        WellFormed card R ∧ R.vars = [n] ∧
        ∀ a, a n < 2 → value R a = (((rows.length / 2 : Nat) : K) + (alpha : K)) / ((rows.length : K) + (alpha : K) * 2)) ∧
    (¬ LearnFits N card alpha → learnParams32 N cols n rows.length alpha rnd pts = .error .ub) := by
  classical
  have h1 := mapM_or_ub (l := List.range n)
    (f := fun i => learnNode32 (K := K) N cols rows.length alpha (some n) (rnd i) i)
    (g := fun i => learnNode (K := K) N cols rows.length alpha (some n) (rnd i) i)
    (P := fun i => ∀ s, N.nodes[i]? = some s → ((i :: s.parents).map card).prod < 2 ^ 31 ∧ alpha * (card i : Int) < 2 ^ 31)
    (by
      intro i hi
      have hi' := List.mem_range.1 hi
      have hs := List.getElem?_eq_getElem (show i < N.nodes.length by omega)
      have h := learnNode32_eq (K := K) hN hs (le_intMax.2 (hcard i hi')) (by rw [List.length_mapIdx]; exact le_intMax.2 hm)
        (rootRows hN hn hc hroot hpar hrnd hi' hs) alpha
      rw [List.length_mapIdx] at h
      rw [h]
      simp only [fits_iff ha, hs, Option.some.injEq, forall_eq'])
    (by
      intro i hi
      have hi' := List.mem_range.1 hi
      have hs := List.getElem?_eq_getElem (show i < N.nodes.length by omega)
      obtain ⟨T, h, _⟩ := learnNode_spec (K := K) hN hs (rootRows hN hn hc hroot hpar hrnd hi' hs) ha.le (fun e => absurd e ha.ne')
      rw [List.length_mapIdx] at h
      exact ⟨T, h⟩)
  have hs := List.getElem?_eq_getElem (show n < N.nodes.length by omega)
  have h2 := learnRoot32_eq (K := K) (m := rows.length) hN hs (hrp _ hs) (by rw [hroot]; decide) alpha
  have hP : LearnFits N card alpha ↔ (∀ i ∈ List.range n, ∀ s, N.nodes[i]? = some s →
      ((i :: s.parents).map card).prod < 2 ^ 31 ∧ alpha * (card i : Int) < 2 ^ 31) ∧ alpha * (card n : Int) < 2 ^ 31 := by
    refine ⟨fun h => ⟨fun i _ s hs => h i s hs, (h n _ hs).2⟩, fun h i s hs' => ?_⟩
    by_cases e : i < n
    · exact h.1 i (List.mem_range.2 e) s hs'
    · have : i = n := by have := (List.getElem?_eq_some_iff.1 hs').1; omega
      subst this
      rw [hrp s hs']
      refine ⟨?_, h.2⟩
      simp [hroot]
  have h0 : 0 ≤ alpha * (card n : Int) := Int.mul_nonneg ha.le (by omega)
  constructor
  · intro h
    obtain ⟨new, R, e, h3⟩ := C22_learned_root (K := K) hN hn hc hroot hrp hpar hrnd ha pts
    refine ⟨new, R, ?_, h3⟩
    rw [← e]
    obtain ⟨h4, h5⟩ := hP.1 h
    unfold learnParams32 learnParams
    rw [if_neg (by omega)]
    simp only
    rw [h1, if_pos h4, h2, if_pos (by omega)]
  · intro h
    unfold learnParams32
    rw [if_neg (by omega)]
    simp only
    rw [h1]
    by_cases h4 : ∀ i ∈ List.range n, ∀ s, N.nodes[i]? = some s →
      ((i :: s.parents).map card).prod < 2 ^ 31 ∧ alpha * (card i : Int) < 2 ^ 31
    · obtain ⟨new, R, e, _⟩ := C22_learned_root (K := K) hN hn hc hroot hrp hpar hrnd ha pts
      have h5 : ¬ alpha * (card n : Int) < 2 ^ 31 := fun h5 => h (hP.2 ⟨h4, h5⟩)
      rw [if_pos h4, h2, if_neg (by omega)]
      unfold learnParams at e
      rw [if_neg (by omega)] at e
      simp only at e
      cases hl : (List.range n).mapM (fun i => learnNode (K := K) N cols rows.length alpha (some n) (rnd i) i) with
      | error f => rw [hl] at e; cases e
      | ok l => rfl
    · rw [if_neg h4]
      rfl

/-- C121 (finding).  A smoothing parameter of at least 2³⁰ is undefined behaviour, whatever the data, as soon as a variable has two values. -/
theorem C121_large_alpha {card : Nat → Nat} {N : Net} (hN : NetShape card N) {cols : List (List Nat)} {rows : List Assignment}
    (hc : Columns card N.nodes.length cols rows) (hm : rows.length < 2 ^ 31) (hcard : ∀ i < N.nodes.length, card i < 2 ^ 31)
    {i : Nat} (hi : i < N.nodes.length) (h2 : 2 ≤ card i) {alpha : Int} (ha : 2 ^ 30 ≤ alpha) (rnd : Nat → Nat → Nat) (pts : List (Table K)) :
    learnParams32 N cols N.nodes.length rows.length alpha rnd pts = .error .ub := by
  refine (C121_learned hN hc hm hcard (by omega) rnd pts).2 (fun h => ?_)
  have h3 := (h i _ (List.getElem?_eq_getElem hi)).2
  have h4 : (2 : Int) ≤ (card i : Int) := by exact_mod_cast h2
  have h5 : alpha * 2 ≤ alpha * (card i : Int) := Int.mul_le_mul_of_nonneg_left h4 (by omega)
  omega

section network

variable {dims : List Nat} {ops : List EdgeOp} {N : Net} {order : List (Nat × Nat) → List (Nat × Nat)} {cord : Nat → List Nat} {S : JTShape}

/-- C121, learning and inference.  If the cliques are within the limits of C118 and the smoothing parameter times each number of values is
less than 2³¹, then the tables are learned, the junction tree is built and every query is answered without overflow; the tables are the
smoothed frequencies, and the answers their conditional distributions. -/
theorem C121_answers (hpos : ∀ d ∈ dims, 0 < d) (hops : ∀ op ∈ ops, OpInRange dims.length op) (hN : (Net.empty dims).run ops = .ok N)
    (h0 : dims ≠ []) (hw : WeaklyConnected N) (horder : ∀ l, (order l).Perm l) (hcord : ∀ m, (cord m).Perm (List.range m))
    (hS : N.junctionShape order cord = .ok S) {M : Nat}
    (hM : ∀ c ∈ S.cliques, entries (fun i => dims.getD i 0) c ≤ M ∧ entries (fun i => dims.getD i 0) c * c.length < 2 ^ 31)
    (hcl : 2 * S.cliques.length * M < 2 ^ 31)
    {cols : List (List Nat)} {rows : List Assignment} (hc : Columns (fun i => dims.getD i 0) dims.length cols rows)
    (hm : rows.length < 2 ^ 31) {alpha : Int} (ha : 0 < alpha) (had : ∀ d ∈ dims, alpha * (d : Int) < 2 ^ 31) (rnd : Nat → Nat → Nat) :
    ∃ (pts : List (Table K)) (J : JTree K) (total big : Nat),
      learnParams32 N cols dims.length rows.length alpha rnd [] = .ok pts ∧
      (∀ (i : Nat) s, N.nodes[i]? = some s → ∃ T, pts[i]? = some T ∧ IsFrequencyTable (fun i => dims.getD i 0) rows alpha i s.parents T) ∧
      buildJunctionTree32 N (fun i => dims.getD i 0) pts order cord = .ok (J, total, big) ∧
      ∀ E : List (Nat × Nat), (E.map Prod.fst).Nodup → (∀ e ∈ E, e.1 < dims.length ∧ e.2 < dims.getD e.1 0) →
        ∀ q < dims.length, q ∉ E.map Prod.fst →
          (∃ T, J.marginal32 E q = .ok (T, J) ∧ T.vars = [q] ∧ T.pot.length = dims.getD q 0 ∧
            ∀ x < dims.getD q 0, T.pot[x]? = some (posterior (fun i => dims.getD i 0) dims.length (joint pts) E q x)) ∧
          ∃ label, J.predict32 E q = .ok (label, J) ∧ IsMode (fun i => dims.getD i 0) dims.length (joint pts) E q label := by
  classical
  obtain ⟨N', hN', hlen, hshape, hinv⟩ := run_shape hops hpos
  rw [hN] at hN'
  cases hN'
  obtain ⟨pts, h1, h3, hpts, hnn, hwt⟩ := learned_tables (K := K) hpos hops hN hc ha rnd
  obtain ⟨J, T, L, r, lev, par, ch, F, h4, hb⟩ := built_of_run (K := K) hops hN h0 hw horder hcord hpts
  have e : T = S := hb.shape.symm.trans (shape_of_build h4 hS)
  subst e
  obtain ⟨⟨total, big, h5⟩, h6⟩ := built32 h4 hb hpts hM hcl
  obtain ⟨hcp, -, -⟩ := nodeTables_facts hpts
  have hmem : ∀ i < N.nodes.length, dims.getD i 0 ∈ dims := by
    intro i hi
    rw [hlen] at hi
    rw [List.getD_eq_getElem?_getD, List.getElem?_eq_getElem hi]
    exact List.getElem_mem hi
  have hent : ∀ c ∈ T.cliques, entries (fun i => dims.getD i 0) c < 2 ^ 31 := by
    intro c hcm
    have h7 := (hM c hcm).2
    have h8 : 0 < c.length := List.length_pos_iff.2 (hb.facts.nonempty c hcm)
    exact lt_of_le_of_lt (Nat.le_mul_of_pos_right _ h8) h7
  have hfam : ∀ (i : Nat) s, N.nodes[i]? = some s → ((i :: s.parents).map (fun i => dims.getD i 0)).prod < 2 ^ 31 := by
    intro i s hs
    have hi := (List.getElem?_eq_some_iff.1 hs).1
    obtain ⟨c, hcm, hsub⟩ := hb.facts.family hinv hi
    refine lt_of_le_of_lt (prod_subset ?_ ?_ (fun v hv => hcp v (hb.facts.lt c hcm v hv))) (hent c hcm)
    · obtain ⟨h9, -, h10⟩ := hshape.parents i s hs
      exact List.nodup_cons.2 ⟨h10, nodup_of_sorted h9⟩
    · intro v hv
      rcases List.mem_cons.1 hv with rfl | hv
      · exact hsub.1
      · exact hsub.2 _ ⟨s, hs, hv⟩
  have hfit : LearnFits N (fun i => dims.getD i 0) alpha := fun i s hs =>
    ⟨hfam i s hs, had _ (hmem i (List.getElem?_eq_some_iff.1 hs).1)⟩
  have hcard : ∀ i < N.nodes.length, dims.getD i 0 < 2 ^ 31 := by
    intro i hi
    obtain ⟨c, hcm, hsub⟩ := hb.facts.family hinv hi
    have := prod_subset (card := fun i => dims.getD i 0) (l := [i]) (by simp)
      (fun v hv => by rw [List.mem_singleton.1 hv]; exact hsub.1) (fun v hv => hcp v (hb.facts.lt c hcm v hv))
    simp only [List.map_cons, List.map_nil, List.prod_cons, List.prod_nil, mul_one] at this
    exact lt_of_le_of_lt this (hent c hcm)
  refine ⟨pts, J, total, big, ?_, h3, h5, ?_⟩
  · rw [← h1, ← hlen]
    rw [learnParams32_eq hshape (by rw [hlen]; exact hc) hm hcard ha rnd [], if_pos hfit]
  · intro E hEn hE q hq hqE
    have hE' : ∀ e ∈ E, e.1 < dims.length := fun e he => (hE e he).1
    constructor
    · obtain ⟨J', X, g1, g2, g3⟩ := C42_posterior hops hN h0 hw horder hcord hpts hnn hEn hE' (hwt E hEn hE) hq hqE
      rw [h4] at g1
      cases g1
      refine ⟨X, ?_, g3⟩
      unfold JTree.marginal at g2
      obtain ⟨st, g1, g2⟩ := bind_eq_ok g2
      obtain ⟨e1, e2⟩ := h6 E st g1
      unfold JTree.marginal32
      rw [e1, ok_bind, e2 q]
      exact g2
    · obtain ⟨J', label, g1, g2, g3⟩ := C42_predict hops hN h0 hw horder hcord hpts hnn hEn hE' (hwt E hEn hE) hq hqE
      rw [h4] at g1
      cases g1
      refine ⟨label, ?_, g3⟩
      unfold JTree.predict at g2
      obtain ⟨st, g1, g2⟩ := bind_eq_ok g2
      obtain ⟨e1, e2⟩ := h6 E st g1
      unfold JTree.predict32
      rw [e1, ok_bind, e2 q]
      exact g2

end network

/-! Three instances of two variables, within the limits, and with a smoothing parameter of 2³⁰. -/

example : ((Net.empty [2, 2]).run [.addDirected 0 1] >>= fun N =>
    learnParams32 (K := ℚ) N [[0, 0, 1], [0, 1, 1]] 2 3 1 (fun _ _ => 0) []) =
    .ok [⟨[0], [2], [1], 2, [3 / 5, 2 / 5]⟩, ⟨[1, 0], [2, 2], [2, 1], 4, [1 / 2, 1 / 3, 1 / 2, 2 / 3]⟩] ∧
    ((Net.empty [2, 2]).run [.addDirected 0 1] >>= fun N =>
      learnParams32 (K := ℚ) N [[0, 0, 1], [0, 1, 1]] 2 3 1073741824 (fun _ _ => 0) []) = .error .ub ∧
    ((Net.empty [2, 2]).run [.addDirected 0 1] >>= fun N =>
      learnParams (K := ℚ) N [[0, 0, 1], [0, 1, 1]] 2 3 1073741824 (fun _ _ => 0) []) =
    .ok [⟨[0], [2], [1], 2, [1073741826 / 2147483651, 1073741825 / 2147483651]⟩,
      ⟨[1, 0], [2, 2], [2, 1], 4, [1 / 2, 1073741824 / 2147483649, 1 / 2, 1073741825 / 2147483649]⟩] := by
  decide +kernel

example : ∃ N S, (Net.empty [2, 2]).run [.addDirected 0 1] = .ok N ∧ LearnFits N (fun i => [2, 2].getD i 0) 1 ∧
    ¬ LearnFits N (fun i => [2, 2].getD i 0) (2 ^ 30) ∧ N.junctionShape id List.range = .ok S ∧
    (∀ c ∈ S.cliques, entries (fun i => [2, 2].getD i 0) c ≤ 4 ∧ entries (fun i => [2, 2].getD i 0) c * c.length < 2 ^ 31) ∧
    2 * S.cliques.length * 4 < 2 ^ 31 := by
  refine ⟨_, _, rfl, ?_, ?_, rfl, by decide +kernel, by decide +kernel⟩
  · intro i s hs
    match i with
    | 0 => cases hs; decide
    | 1 => cases hs; decide
    | i + 2 => cases hs
  · intro h
    have := (h 0 _ rfl).2
    revert this
    decide

/-- ROOT (node 2) as parent of two unrelated variables. -/
example : ((Net.empty [2, 2, 2]).run [.addDirected 2 0, .addDirected 2 1] >>= fun N =>
    learnParams32 (K := ℚ) N [[0, 0, 1], [0, 1, 1]] 2 3 1 (fun _ j => j % 2) []) =
    .ok [⟨[0, 2], [2, 2], [2, 1], 4, [1 / 2, 2 / 3, 1 / 2, 1 / 3]⟩, ⟨[1, 2], [2, 2], [2, 1], 4, [1 / 2, 1 / 3, 1 / 2, 2 / 3]⟩,
      ⟨[2], [2], [1], 2, [2 / 5, 2 / 5]⟩] := by decide +kernel

end FastPGM
