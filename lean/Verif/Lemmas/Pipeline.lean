import Verif.Spec.Pipeline
import Verif.Model.Pipeline
import Verif.Lemmas.OrientDims
import Verif.Props.RootNode
import Verif.Props.Learn
import Verif.Props.JunctionTreeInference
import Verif.Props.Dataset
import Verif.Props.Inference

/-!
The parts of the commands put together.
-/

namespace FastPGM

open Spec Relation

variable {K : Type}

theorem getD_snoc_lt {l : List Nat} {x i : Nat} (h : i < l.length) : (l ++ [x]).getD i 0 = l.getD i 0 := by
  rw [List.getD_eq_getElem?_getD, List.getD_eq_getElem?_getD, List.getElem?_append_left h]

theorem getD_snoc_eq {l : List Nat} {x : Nat} : (l ++ [x]).getD l.length 0 = x := by
  rw [List.getD_eq_getElem?_getD, List.getElem?_append_right (le_refl _)]
  simp

/-- The network with the additional ROOT, for any acyclic network. -/
theorem rooted_shape {dims : List Nat} {N0 : Net} (h : NetInv N0) (hd : HasDims dims N0) (hpos : ∀ d ∈ dims, 0 < d) :
    ∃ roots N, N0.findRoots = .ok roots ∧ N0.addRootNode roots = .ok N ∧ NetInv N ∧ N.nodes.length = dims.length + 1 ∧
      N.nodes.map NodeS.dim = dims ++ [2] ∧ NetShape N.card N ∧ WeaklyConnected N ∧
      (∀ s, N.nodes[dims.length]? = some s → s.parents = []) ∧
      (∀ (i : Nat) s, N.nodes[i]? = some s → dims.length ∈ s.parents → s.parents = [dims.length]) := by
  have hlen : N0.nodes.length = dims.length := by rw [← hd]; simp
  obtain ⟨roots, h1, h2, h3, h4, -, -⟩ := findRoots_spec h
  have hlt : ∀ r ∈ roots, r < N0.nodes.length := fun r hr => (h3 r hr).1
  obtain ⟨N', root, e, a1, a2, a3, a4, a5, -, -, a8, a9, a10, -⟩ := addRootNode_spec h2 hlt
  obtain ⟨b1, b2, b3⟩ := rooted_inv h hlt a1 a2 a3 a5 a8 a9
  have hpar : ∀ p c, ParentOf N' p c ↔ ParentOf N0 p c ∨ (p = N0.nodes.length ∧ c ∈ roots) := by
    intro p c
    rw [parentOf_iff, parentOf_iff, b2]
  have hdim : N'.nodes.map NodeS.dim = dims ++ [2] := by
    apply List.ext_getElem?
    intro i
    rw [List.getElem?_map]
    by_cases hi : i < dims.length
    · have hi' : i < N0.nodes.length := by omega
      rw [a2 i _ (List.getElem?_eq_getElem hi'), List.getElem?_append_left hi]
      have : (N0.nodes.map NodeS.dim)[i]? = dims[i]? := by rw [hd]
      rw [List.getElem?_map, List.getElem?_eq_getElem hi'] at this
      rw [← this]
      simp only [Option.map_some]
      congr 1
      split
      · unfold NodeS.addParent
        split <;> rfl
      · rfl
    · by_cases hi' : i = dims.length
      · subst hi'
        rw [← hlen, a3, List.getElem?_append_right (by omega), hlen]
        simp [a4]
      · rw [List.getElem?_eq_none (by omega), List.getElem?_eq_none (by simp; omega)]
        rfl
  have hpa : ∀ (i : Nat) s, N'.nodes[i]? = some s → N'.pa i = s.parents := by
    intro i s hs
    simp [Net.pa, hs]
  have htop : ∀ i < N'.nodes.length, ReflTransGen (Linked N') N0.nodes.length i := by
    intro i hi
    by_cases hin : i = N0.nodes.length
    · rw [hin]
    · obtain ⟨r, hr, hri⟩ := h4 i (by omega)
      refine ReflTransGen.head (Or.inl ((hpar _ _).2 (Or.inr ⟨rfl, hr⟩))) ?_
      exact conn_mono (fun x y hxy => hxy.imp (fun h => (hpar x y).2 (Or.inl h)) (fun h => (hpar y x).2 (Or.inl h))) hri
  refine ⟨roots, N', h1, e, b1, by omega, hdim, ⟨?_, ?_⟩, ?_, ?_, ?_⟩
  · intro i s hs
    have h5 : (N'.nodes.map NodeS.dim)[i]? = some s.dim := by rw [List.getElem?_map, hs]; rfl
    have h6 : N'.card i = s.dim := by unfold Net.card; rw [List.getD_eq_getElem?_getD, h5]; rfl
    refine ⟨h6.symm, ?_⟩
    rw [h6]
    rw [hdim] at h5
    rcases List.mem_append.1 (List.mem_of_getElem? h5) with hm | hm
    · exact hpos _ hm
    · rw [List.mem_singleton.1 hm]
      omega
  · intro i s hs
    refine ⟨hpa i s hs ▸ b1.wf.pa_sorted i, fun p hp => ?_, fun hmem => ?_⟩
    · exact (b1.wf.lt ((b1.wf.sym p i).2 (hpa i s hs ▸ hp))).1
    · have : i ∈ N'.ch i := (b1.wf.sym i i).2 (hpa i s hs ▸ hmem)
      exact b1.acyclic ⟨i, TransGen.single (childOf_iff.2 this)⟩
  · exact fun i j hi hj => (reach_symm (htop i hi)).trans (htop j hj)
  · intro s hs
    rw [← hlen, a3] at hs
    cases hs
    exact a5
  · intro i s hs hmem
    rw [← hpa i s hs] at hmem ⊢
    have hi : i ∈ roots := by
      rcases (b2 _ _).1 hmem with h' | h'
      · exact absurd (h.wf.lt ((h.wf.sym _ _).2 h')).1 (by omega)
      · exact h'.2
    refine sorted_unique (b1.wf.pa_sorted i) (by simp) (fun x => ?_)
    rw [b2, (h3 i hi).2]
    simp [hi, hlen]

variable [Field K] [LinearOrder K] [IsStrictOrderedRing K]

theorem Built.mode {N : Net} {card : Nat → Nat} {pts : List (Table K)} {J : JTree K} {T : JTShape} {L : Levels} {r : Nat}
    {lev : JNode → Nat} {par ch : Nat → Nat} {F : Nat → Assignment → K} (hb : Built N card pts J T L r lev par ch F) (hnet : NetInv N)
    (hcard : ∀ i < N.nodes.length, 0 < card i) (hnn : ∀ T ∈ pts, ∀ x ∈ T.pot, 0 ≤ x) {E : List (Nat × Nat)} (hEn : (E.map Prod.fst).Nodup)
    (hE : ∀ e ∈ E, e.1 < N.nodes.length) (hpos : weight card N.nodes.length (joint pts) (Agrees E) ≠ 0) {q : Nat} (hq : q < N.nodes.length)
    (hqE : q ∉ E.map Prod.fst) :
    ∃ label, J.predict E q = .ok (label, J) ∧ IsMode card N.nodes.length (joint pts) E q label := by
  obtain ⟨st, e1, h2, _⟩ := hb.marginal hnet hcard hnn hEn hE hpos
  obtain ⟨h3, h4⟩ := h2 q hq hqE
  have hpot : (fromFn card [q] (fun a => posterior card N.nodes.length (joint pts) E q (a q))).pot =
      tab (card q) (fun x => posterior card N.nodes.length (joint pts) E q x) := by
    simp only [fromFn, List.map_cons, List.map_nil, List.prod_singleton]
    apply tab_congr
    intro x hx
    simp [asgOf_single hx]
  have hex : ∃ x ∈ tab (card q) (fun x => posterior card N.nodes.length (joint pts) E q x), 0 < x := by
    by_contra hcon
    push Not at hcon
    have : ∑ x ∈ Finset.range (card q), posterior card N.nodes.length (joint pts) E q x ≤ 0 :=
      Finset.sum_nonpos (fun x hx => hcon _ (List.mem_map.2 ⟨x, List.mem_range.2 (Finset.mem_range.1 hx), rfl⟩))
    rw [h4] at this
    exact absurd this (not_le.2 zero_lt_one)
  obtain ⟨label, hl, hlt, hmax, hfirst⟩ := C47_argMax _ hex
  have hlt' : label < card q := by simpa [tab] using hlt
  refine ⟨label, ?_, hlt', ?_, ?_⟩
  · unfold JTree.predict
    rw [e1, ok_bind, h3, ok_bind, hpot, hl, ok_bind, hb.reset]
    rfl
  · intro x hx
    have := hmax _ (List.mem_map.2 ⟨x, List.mem_range.2 hx, rfl⟩)
    simpa [tab] using this
  · intro x hx
    have := hfirst x hx
    simpa [tab] using this

/-- The tables learned for a network with ROOT. -/
theorem learned_rooted_tables {N : Net} {n : Nat} (hlen : N.nodes.length = n + 1) (hshape : NetShape N.card N)
    (hroot : N.card n = 2) (hrp : ∀ s, N.nodes[n]? = some s → s.parents = [])
    (hpar : ∀ (i : Nat) s, N.nodes[i]? = some s → n ∈ s.parents → s.parents = [n]) {cols : List (List Nat)} {rows : List Assignment}
    (hc : Columns N.card n cols rows) {rnd : Nat → Nat → Nat} (hrnd : ∀ i j, rnd i j < 2) {alpha : Int} (ha : 0 < alpha) :
    ∃ pts : List (Table K), learnParams N cols n rows.length alpha rnd [] = .ok pts ∧ pts.length = n + 1 ∧
      (∀ (i : Nat) s, i < n → N.nodes[i]? = some s → ∃ T, pts[i]? = some T ∧
        IsFrequencyTable N.card (rows.mapIdx (fun j r => r.set n (rnd i j))) alpha i s.parents T) ∧
      (∃ R, pts[n]? = some R ∧ WellFormed N.card R ∧ R.vars = [n] ∧
        ∀ a, a n < 2 → value R a = (((rows.length / 2 : Nat) : K) + (alpha : K)) / ((rows.length : K) + (alpha : K) * 2)) ∧
      NodeTables N.card N pts ∧ (∀ T ∈ pts, ∀ x ∈ T.pot, 0 ≤ x) ∧
      ∀ E : List (Nat × Nat), (E.map Prod.fst).Nodup → (∀ e ∈ E, e.1 < n + 1 ∧ e.2 < N.card e.1) →
        weight N.card (n + 1) (joint pts) (Agrees E) ≠ 0 := by
  obtain ⟨new, R, h1, h2, h3, h4, h5, h6⟩ := C22_learned_root (K := K) hshape hlen hc hroot hrp hpar hrnd ha []
  rw [List.nil_append] at h1
  have hR : (new ++ [R])[n]? = some R := by rw [← h2, List.getElem?_append_right (le_refl _)]; simp
  have hnew : ∀ i < n, (new ++ [R])[i]? = new[i]? := fun i hi => List.getElem?_append_left (by omega)
  have hget : ∀ (i : Nat) T, (new ++ [R])[i]? = some T → ∃ s, N.nodes[i]? = some s ∧ WellFormed N.card T ∧ T.vars = i :: s.parents ∧
      ∀ a, InRange N.card T.vars a → 0 < value T a := by
    intro i T hT
    have hi : i < n + 1 := by
      have := (List.getElem?_eq_some_iff.1 hT).1
      simpa [h2] using this
    by_cases hin : i = n
    · subst hin
      rw [hR] at hT
      cases hT
      have hs := List.getElem?_eq_getElem (show i < N.nodes.length by omega)
      refine ⟨_, hs, h4, by rw [h5, hrp _ hs], ?_⟩
      intro a har
      have ha2 : a i < 2 := by
        have := har i (by simp [h5])
        omega
      rw [h6 a ha2]
      have ha' : (0 : K) < (alpha : K) := by exact_mod_cast ha
      positivity
    · have hs := List.getElem?_eq_getElem (show i < N.nodes.length by omega)
      obtain ⟨T', h7, h8⟩ := h3 i _ (by omega) hs
      rw [hnew i (by omega), h7] at hT
      cases hT
      refine ⟨_, hs, h8.1, h8.2.1, ?_⟩
      intro a har
      rw [h8.2.1] at har
      refine ((frequencyTable_normalised ha ?_ h8).1 a har).1
      intro r hr
      obtain ⟨j, hj, rfl⟩ := List.getElem_of_mem hr
      rw [List.length_mapIdx] at hj
      rw [List.getElem_mapIdx]
      simp only [Assignment.set]
      rw [if_neg hin]
      exact hc.lt _ (List.getElem_mem hj) i (by omega)
  have hmem : ∀ T ∈ new ++ [R], ∃ (i : Nat) (s : NodeS), N.nodes[i]? = some s ∧ WellFormed N.card T ∧ T.vars = i :: s.parents ∧
      ∀ a, InRange N.card T.vars a → 0 < value T a := by
    intro T hT
    obtain ⟨i, hi, rfl⟩ := List.getElem_of_mem hT
    exact ⟨i, hget i _ (List.getElem?_eq_getElem hi)⟩
  have hpts : NodeTables N.card N (new ++ [R]) := by
    refine ⟨by simp [h2, hlen], ?_, ?_⟩
    · intro T hT
      obtain ⟨i, s, _, h, _⟩ := hmem T hT
      exact h
    · intro i T hT v
      obtain ⟨s, hs, _, h, _⟩ := hget i T hT
      rw [h, List.mem_cons]
      constructor
      · rintro (h | h)
        · exact Or.inl h
        · exact Or.inr ⟨s, hs, h⟩
      · rintro (h | ⟨s', hs', h⟩)
        · exact Or.inl h
        · rw [hs] at hs'
          cases hs'
          exact Or.inr h
  have hnn : ∀ T ∈ new ++ [R], ∀ x ∈ T.pot, 0 ≤ x := by
    intro T hT
    obtain ⟨_, _, _, h, _, h'⟩ := hmem T hT
    exact entries_of_values h (fun a har => (h' a har).le)
  obtain ⟨c1, c2, c3⟩ := nodeTables_facts hpts
  refine ⟨new ++ [R], h1, by simp [h2], ?_, ⟨R, hR, h4, h5, h6⟩, hpts, hnn, ?_⟩
  · intro i s hi hs
    rw [hnew i hi]
    exact h3 i s hi hs
  · intro E hEn hE
    rw [← hlen] at hE ⊢
    refine weight_ne_zero (fun a => List.prod_nonneg (fun x hx => ?_)) (fun a har => List.prod_pos (fun x hx => ?_)) c1 hEn hE
    · obtain ⟨T, hT, rfl⟩ := List.mem_map.1 hx
      exact value_nonneg (hnn T hT) a
    · obtain ⟨T, hT, rfl⟩ := List.mem_map.1 hx
      obtain ⟨i, s, hs, _, h, h'⟩ := hmem T hT
      refine h' a (fun v hv => har v ?_)
      rw [h] at hv
      rw [List.mem_range]
      exact NetShape.lt hshape hs v hv

/-- The tables learned for a network with ROOT, and the tree built from them. -/
theorem learned_rooted {N : Net} {n : Nat} (hinv : NetInv N) (hlen : N.nodes.length = n + 1) (hshape : NetShape N.card N)
    (hw : WeaklyConnected N) (hroot : N.card n = 2) (hrp : ∀ s, N.nodes[n]? = some s → s.parents = [])
    (hpar : ∀ (i : Nat) s, N.nodes[i]? = some s → n ∈ s.parents → s.parents = [n]) {cols : List (List Nat)} {rows : List Assignment}
    (hc : Columns N.card n cols rows) {rnd : Nat → Nat → Nat} (hrnd : ∀ i j, rnd i j < 2) {alpha : Int} (ha : 0 < alpha)
    {order : List (Nat × Nat) → List (Nat × Nat)} (horder : ∀ l, (order l).Perm l) {cord : Nat → List Nat}
    (hcord : ∀ m, (cord m).Perm (List.range m)) :
    ∃ (pts : List (Table K)) (J : JTree K), learnParams N cols n rows.length alpha rnd [] = .ok pts ∧ pts.length = n + 1 ∧
      (∀ (i : Nat) s, i < n → N.nodes[i]? = some s → ∃ T, pts[i]? = some T ∧
        IsFrequencyTable N.card (rows.mapIdx (fun j r => r.set n (rnd i j))) alpha i s.parents T) ∧
      (∃ R, pts[n]? = some R ∧ WellFormed N.card R ∧ R.vars = [n] ∧
        ∀ a, a n < 2 → value R a = (((rows.length / 2 : Nat) : K) + (alpha : K)) / ((rows.length : K) + (alpha : K) * 2)) ∧
      buildJunctionTree N N.card pts order cord = .ok J ∧
      ∀ E : List (Nat × Nat), (E.map Prod.fst).Nodup → (∀ e ∈ E, e.1 < n + 1 ∧ e.2 < N.card e.1) → ∀ q < n + 1, q ∉ E.map Prod.fst →
        ∃ label, J.predict E q = .ok (label, J) ∧ IsMode N.card (n + 1) (joint pts) E q label := by
  obtain ⟨pts, h1, h2, h3, h4, hpts, hnn, hwt⟩ := learned_rooted_tables (K := K) hlen hshape hroot hrp hpar hc hrnd ha
  obtain ⟨c1, c2, c3⟩ := nodeTables_facts hpts
  obtain ⟨J, T0, L, r, lev, par, ch, F, h7, hb⟩ := build_ok (K := K) hinv (by omega) hw horder hcord c1 hpts.wf c2 c3
  refine ⟨pts, J, h1, h2, h3, h4, h7, ?_⟩
  intro E hEn hE q hq hqE
  have hwE := hwt E hEn hE
  rw [← hlen] at hE hq hwE ⊢
  exact hb.mode hinv c1 hnn hEn (fun e he => (hE e he).1) hwE hq hqE

end FastPGM
