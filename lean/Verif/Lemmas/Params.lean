import Verif.Model.Params
import Verif.Spec.Params
import Verif.Lemmas.Table
import Verif.Lemmas.StdSet
import Verif.Lemmas.NaryCount

/-!
Helper lemmas for `Verif.Model.Params`.
-/

namespace FastPGM

open Spec

variable {K : Type}

theorem configInsert_map (a : Assignment) (p : Nat) (l : List Nat) :
    configInsert (p, a p) (l.map (fun q => (q, a q))) = (setInsert p l).map (fun q => (q, a q)) := by
  induction l with
  | nil => rfl
  | cons q l ih =>
    simp only [List.map_cons, configInsert, setInsert]
    by_cases h1 : p < q
    · simp [h1]
    · by_cases h2 : p = q
      · subst h2; simp
      · simp [h1, h2, ih]

theorem parentConfigOf_map (given : List Nat) (a : Assignment) :
    parentConfigOf given (given.map a) = configOf a (sortedSet given) := by
  have key : ∀ (l s : List Nat),
      (List.zip l (l.map a)).foldl (fun c x => configInsert x c) (configOf a s) =
        configOf a (l.foldl (fun s x => setInsert x s) s) := by
    intro l
    induction l with
    | nil => intro s; rfl
    | cons p l ih =>
      intro s
      simp only [List.map_cons, List.zip_cons_cons, List.foldl_cons]
      rw [show configInsert (p, a p) (configOf a s) = configOf a (setInsert p s) from configInsert_map a p s]
      exact ih _
  exact key given []

theorem sorted_unique {l s : List Nat} (hl : l.Pairwise (· < ·)) (hs : s.Pairwise (· < ·)) (h : ∀ x, x ∈ l ↔ x ∈ s) : l = s := by
  induction l generalizing s with
  | nil =>
    cases s with
    | nil => rfl
    | cons y s => exact absurd ((h y).2 (by simp)) (by simp)
  | cons x l ih =>
    cases s with
    | nil => exact absurd ((h x).1 (by simp)) (by simp)
    | cons y s =>
      rw [List.pairwise_cons] at hl hs
      have hxy : x = y := by
        have h1 := (h x).1 (by simp)
        have h2 := (h y).2 (by simp)
        rcases List.mem_cons.1 h1 with h1 | h1
        · exact h1
        · rcases List.mem_cons.1 h2 with h2 | h2
          · exact h2.symm
          · have := hl.1 y h2
            have := hs.1 x h1
            omega
      subst hxy
      congr 1
      apply ih hl.2 hs.2
      intro z
      have hz := h z
      simp only [List.mem_cons] at hz
      constructor
      · intro hzl
        have h0 := hl.1 z hzl
        rcases hz.1 (Or.inr hzl) with e | e
        · omega
        · exact e
      · intro hzl
        have h0 := hs.1 z hzl
        rcases hz.2 (Or.inr hzl) with e | e
        · omega
        · exact e

theorem sortedSet_eq_self {l : List Nat} (h : l.Pairwise (· < ·)) : sortedSet l = l :=
  sorted_unique (sortedSet_sorted l) h (fun _ => mem_sortedSet)

/-- The counting loop. -/
theorem incr_tab {n : Nat} {g : Nat → Nat} {i : Nat} (h : i < n) :
    incr (tab n g) i = .ok (tab n (fun k => g k + if i = k then 1 else 0)) := by
  unfold incr
  rw [rd_tab h, ok_bind, wr_tab h]
  congr 1
  apply tab_congr
  intro k _
  by_cases e : k = i
  · subst e; simp
  · have : ¬ i = k := fun h => e h.symm
    simp [e, this]

theorem countP_range_succ (p : Nat → Bool) (n : Nat) :
    (List.range (n + 1)).countP p = (List.range n).countP p + if p n then 1 else 0 := by
  rw [List.range_succ, List.countP_append, List.countP_singleton]

theorem incr2_loop {n1 n2 m : Nat} {t1 t2 : Nat → Nat} (h1 : ∀ j < m, t1 j < n1) (h2 : ∀ j < m, t2 j < n2)
    {f : List Nat × List Nat → Nat → Except Fault (List Nat × List Nat)}
    (hf : ∀ st, ∀ j < m, f st j = (do
      let a ← incr st.1 (t1 j)
      let b ← incr st.2 (t2 j)
      return (a, b))) :
    (List.range m).foldlM f (List.replicate n1 0, List.replicate n2 0) =
      .ok (tab n1 (fun k => (List.range m).countP (fun j => t1 j = k)),
        tab n2 (fun k => (List.range m).countP (fun j => t2 j = k))) := by
  have := foldlM_range_eq (f := f) (n := m)
    (s := fun i => (tab n1 (fun k => (List.range i).countP (fun j => t1 j = k)),
        tab n2 (fun k => (List.range i).countP (fun j => t2 j = k)))) ?_
  · rw [← this]
    simp [replicate_eq_tab]
  · intro i hi
    rw [hf _ i hi, incr_tab (h1 i hi), ok_bind, incr_tab (h2 i hi), ok_bind]
    congr 2
    · apply tab_congr
      intro k _
      rw [countP_range_succ]; simp
    · apply tab_congr
      intro k _
      rw [countP_range_succ]; simp

theorem emptyTable_eq [Zero K] {card : Nat → Nat} {N : Net} (h : NetShape card N) {i : Nat} {s : NodeS}
    (hi : N.nodes[i]? = some s) :
    emptyTable (K := K) N i = .ok (fromFn card (i :: s.parents) (fun _ => 0)) := by
  unfold emptyTable Net.find
  rw [hi]
  simp only [ok_bind]
  have hd := h.dim i s hi
  by_cases hp : s.parents = []
  · rw [if_pos hp, hp, hd.1]
    simp [fromFn, cumLevels, replicate_eq_tab]
  · rw [if_neg hp]
    rw [mapM_ok (g := card)]
    · rw [ok_bind, construct_first _ (by simp)]
      simp [fromFn, replicate_eq_tab]
    · intro v hv
      rcases List.mem_cons.1 hv with rfl | hv
      · rw [hi]; simp [hd.1]
      · have := (h.parents i s hi).2.1 v hv
        rw [List.getElem?_eq_getElem this]
        simp [(h.dim v _ (List.getElem?_eq_getElem this)).1]

theorem NetShape.nodup {card : Nat → Nat} {N : Net} (h : NetShape card N) {i : Nat} {s : NodeS}
    (hi : N.nodes[i]? = some s) : (i :: s.parents).Nodup :=
  List.nodup_cons.2 ⟨(h.parents i s hi).2.2, nodup_of_sorted (h.parents i s hi).1⟩

theorem NetShape.pos {card : Nat → Nat} {N : Net} (h : NetShape card N) {i : Nat} {s : NodeS}
    (hi : N.nodes[i]? = some s) : ∀ v ∈ i :: s.parents, 0 < card v := by
  intro v hv
  rcases List.mem_cons.1 hv with rfl | hv
  · exact (h.dim _ s hi).2
  · have := (h.parents i s hi).2.1 v hv
    exact (h.dim v _ (List.getElem?_eq_getElem this)).2

theorem NetShape.lt {card : Nat → Nat} {N : Net} (h : NetShape card N) {i : Nat} {s : NodeS}
    (hi : N.nodes[i]? = some s) : ∀ v ∈ i :: s.parents, v < N.nodes.length := by
  intro v hv
  rcases List.mem_cons.1 hv with rfl | hv
  · exact (List.getElem?_eq_some_iff.1 hi).1
  · exact (h.parents i s hi).2.1 v hv

theorem nodeTable_eq [Zero K] {card : Nat → Nat} {N : Net} (h : NetShape card N) {i : Nat} {s : NodeS}
    (hi : N.nodes[i]? = some s) {prob : Nat → Config → Except Fault K} {P : Assignment → K}
    (hP : ∀ a, InRange card (i :: s.parents) a → prob (a i) (configOf a s.parents) = .ok (P a)) :
    nodeTable N i prob = .ok (fromFn card (i :: s.parents) P) := by
  unfold nodeTable
  have hfind : N.find i = .ok s := by unfold Net.find; rw [hi]
  rw [hfind, ok_bind, emptyTable_eq h hi, ok_bind]
  have hn := NetShape.nodup h hi
  by_cases hp : s.parents = []
  · rw [if_pos hp]
    rw [mapM_ok (g := fun k => P (asgOf (i :: s.parents) (digits ((i :: s.parents).map card) k)))]
    · rfl
    · intro k hk
      have hk' : k < ((i :: s.parents).map card).prod := by simpa [fromFn] using hk
      have := hP _ (asgOf_lt hk')
      rw [← this, hp]
      congr 1
      simp [asgOf, digits]
  · rw [if_neg hp]
    rw [mapM_ok (g := fun k => P (asgOf (i :: s.parents) (digits ((i :: s.parents).map card) k)))]
    · rfl
    · intro k hk
      have hk' : k < ((i :: s.parents).map card).prod := by simpa [fromFn] using hk
      have h1 := hP _ (asgOf_lt hk')
      have h2 : getConfig (fromFn card (i :: s.parents) (fun _ => (0 : K))).cum k =
        .ok (digits ((i :: s.parents).map card) k) := getConfig_cumLevels (map_pos (NetShape.pos h hi)) k
      rw [h2, ok_bind, ← h1]
      have h3 : digits ((i :: s.parents).map card) k =
          (i :: s.parents).map (asgOf (i :: s.parents) (digits ((i :: s.parents).map card) k)) :=
        (map_asgOf hn (by simp)).symm
      generalize asgOf (i :: s.parents) (digits ((i :: s.parents).map card) k) = a at h3 ⊢
      rw [h3]
      simp only [List.map_cons, List.tail_cons]
      show prob (a i) _ = _
      rw [parentConfigOf_map, sortedSet_eq_self (h.parents i s hi).1]

end FastPGM
