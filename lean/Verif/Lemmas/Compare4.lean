import Verif.Lemmas.Compare3

/-!
The graph of the equivalence class and `GetSHD`.
-/

namespace FastPGM

open Spec Relation

theorem foldlM_still {ε α β : Type} {f : β → α → Except ε β} {b : β} {l : List α} (h : ∀ x ∈ l, f b x = .ok b) : l.foldlM f b = .ok b := by
  induction l with
  | nil => rfl
  | cons x l ih =>
    rw [List.foldlM_cons, h x (by simp), ok_bind]
    exact ih (fun y hy => h y (by simp [hy]))

/-- What happens to one edge. -/
def classEdge (e : Edge) : Edge := if e.label = .compelled then e else mkUndirected e.node1 e.node2

theorem undirectReversible_eq {es : List Edge} (h : ∀ e ∈ es, e.label ≠ .unset) :
    undirectReversible es es.length = .ok (es.map classEdge) := by
  unfold undirectReversible
  obtain ⟨st, e, hst⟩ := foldlM_range (n := es.length) (b := es) (P := fun k st => st = (es.take k).map classEdge ++ es.drop k) (by simp)
    (f := fun (edges : List Edge) i => (do
      let e ← rdAt edges i
      match e.label with
      | .compelled => return edges
      | .reversible => return edges.set i (mkUndirected e.node1 e.node2)
      | .unset => .error .ub : Except Fault (List Edge)))
    (by
      rintro k hk st rfl
      have hlen : ((es.take k).map classEdge).length = k := by simp; omega
      have hdrop : es.drop k = es[k] :: es.drop (k + 1) := List.drop_eq_getElem_cons hk
      have hget : ((es.take k).map classEdge ++ es.drop k)[k]? = some es[k] := by
        rw [List.getElem?_append_right (by omega), hlen, Nat.sub_self, hdrop]
        rfl
      have hnext : (es.take (k + 1)).map classEdge ++ es.drop (k + 1) = (es.take k).map classEdge ++ classEdge es[k] :: es.drop (k + 1) := by
        rw [List.take_succ_eq_append_getElem hk, List.map_append, List.append_assoc]
        rfl
      refine ⟨_, ?_, rfl⟩
      rw [hnext]
      have hrd : rdAt ((es.take k).map classEdge ++ es.drop k) k = .ok es[k] := by
        unfold rdAt
        rw [hget]
      rw [hrd, ok_bind]
      have hlab := h es[k] (List.getElem_mem hk)
      cases hl : es[k].label with
      | unset => exact absurd hl hlab
      | compelled =>
        simp only []
        rw [hdrop]
        unfold classEdge
        rw [if_pos hl]
        rfl
      | reversible =>
        simp only []
        rw [hdrop, List.set_append_right _ _ (by omega), hlen, Nat.sub_self]
        unfold classEdge
        rw [if_neg (by rw [hl]; simp)]
        rfl)
  refine Eq.trans e ?_
  rw [hst]
  simp

section
open Classical

/-- The edge of the class graph for the pair `k`. -/
noncomputable def classKey (C : Nat → Nat → Prop) (k : Nat × Nat) : Edge :=
  classEdge (keyEdge k true (if C k.1 k.2 then .compelled else .reversible))

theorem classKey_pos {C : Nat → Nat → Prop} {k : Nat × Nat} (h : C k.1 k.2) : classKey C k = keyEdge k true .compelled := by
  unfold classKey classEdge
  rw [if_pos h]
  rfl

theorem classKey_neg {C : Nat → Nat → Prop} {k : Nat × Nat} (h : ¬ C k.1 k.2) : classKey C k = mkUndirected k.1 k.2 := by
  unfold classKey classEdge
  rw [if_neg h]
  rfl

theorem mkUndirected_ends (a b : Nat) : (mkUndirected a b).end1 = .tail ∧ (mkUndirected a b).end2 = .tail ∧
    (((mkUndirected a b).node1 = a ∧ (mkUndirected a b).node2 = b ∧ a < b) ∨ ((mkUndirected a b).node1 = b ∧ (mkUndirected a b).node2 = a ∧ b ≤ a)) := by
  unfold mkUndirected
  split
  · exact ⟨rfl, rfl, Or.inl ⟨rfl, rfl, by assumption⟩⟩
  · exact ⟨rfl, rfl, Or.inr ⟨rfl, rfl, by omega⟩⟩

theorem classKey_ends (C : Nat → Nat → Prop) (k : Nat × Nat) :
    ((classKey C k).node1 = k.1 ∧ (classKey C k).node2 = k.2) ∨ ((classKey C k).node1 = k.2 ∧ (classKey C k).node2 = k.1) := by
  by_cases h : C k.1 k.2
  · rw [classKey_pos h]
    exact Or.inl ⟨rfl, rfl⟩
  · rw [classKey_neg h]
    obtain ⟨_, _, h | h⟩ := mkUndirected_ends k.1 k.2
    · exact Or.inl ⟨h.1, h.2.1⟩
    · exact Or.inr ⟨h.1, h.2.1⟩

variable {keys : List (Nat × Nat)} {D : Nat → Nat → Prop}

theorem class_simple (hkeys : ∀ k, k ∈ keys ↔ D k.1 k.2) (hasym : ∀ x y, D x y → ¬ D y x) (C : Nat → Nat → Prop) :
    SimpleEdges (keys.map (classKey C)) := by
  have hne : ∀ k ∈ keys, k.1 ≠ k.2 := by
    intro k hk he
    have := (hkeys k).1 hk
    exact hasym _ _ this (by rw [← he] at this ⊢; exact this)
  refine ⟨?_, ?_, ?_, ?_⟩
  · intro e he
    obtain ⟨k, hk, rfl⟩ := List.mem_map.1 he
    have := hne k hk
    rcases classKey_ends C k with h | h
    · rw [h.1, h.2]; exact this
    · rw [h.1, h.2]; exact this.symm
  · intro e he
    obtain ⟨k, hk, rfl⟩ := List.mem_map.1 he
    by_cases h : C k.1 k.2
    · rw [classKey_pos h]; rfl
    · rw [classKey_neg h]; exact (mkUndirected_ends _ _).1
  · intro e he h2
    obtain ⟨k, hk, rfl⟩ := List.mem_map.1 he
    by_cases h : C k.1 k.2
    · rw [classKey_pos h] at h2; cases h2
    · rw [classKey_neg h]
      have := hne k hk
      obtain ⟨_, _, h | h⟩ := mkUndirected_ends k.1 k.2 <;> omega
  · intro e he f hf hef
    obtain ⟨k, hk, rfl⟩ := List.mem_map.1 he
    obtain ⟨k', hk', rfl⟩ := List.mem_map.1 hf
    have hkk : k = k' := by
      have : (k.1 = k'.1 ∧ k.2 = k'.2) ∨ (k.1 = k'.2 ∧ k.2 = k'.1) := by
        rcases classKey_ends C k with a | a <;> rcases classKey_ends C k' with b | b <;> omega
      rcases this with h | h
      · exact Prod.ext h.1 h.2
      · have h1 := (hkeys k).1 hk
        have h2 := (hkeys k').1 hk'
        rw [← h.1, ← h.2] at h2
        exact absurd h2 (hasym _ _ h1)
    subst hkk
    exact ⟨rfl, rfl, rfl⟩

theorem class_status (hkeys : ∀ k, k ∈ keys ↔ D k.1 k.2) {i j : Nat} (hij : i < j) :
    pairStatus (keys.map (classKey (Compelled D))) i j = classStatus D i j := by
  have hd : ∀ a b, ((keys.map (classKey (Compelled D))).any (fun e => e.node1 = a && e.node2 = b && e.end2 = .arrow) = true) ↔
      D a b ∧ Compelled D a b := by
    intro a b
    rw [List.any_eq_true]
    constructor
    · rintro ⟨e, he, h⟩
      obtain ⟨k, hk, rfl⟩ := List.mem_map.1 he
      simp only [Bool.and_eq_true, decide_eq_true_eq] at h
      by_cases hc : Compelled D k.1 k.2
      · rw [classKey_pos hc] at h
        obtain ⟨⟨h1, h2⟩, _⟩ := h
        have h1 : k.1 = a := h1
        have h2 : k.2 = b := h2
        have := (hkeys k).1 hk
        rw [h1, h2] at this hc
        exact ⟨this, hc⟩
      · rw [classKey_neg hc, (mkUndirected_ends _ _).2.1] at h
        exact absurd h.2 (by simp)
    · rintro ⟨h1, h2⟩
      refine ⟨classKey (Compelled D) (a, b), List.mem_map.2 ⟨_, (hkeys (a, b)).2 h1, rfl⟩, ?_⟩
      rw [classKey_pos h2]
      simp [keyEdge]
  have hu : ((keys.map (classKey (Compelled D))).any (fun e => e.node1 = i && e.node2 = j) = true) ↔
      (D i j ∨ (D j i ∧ ¬ Compelled D j i)) := by
    rw [List.any_eq_true]
    constructor
    · rintro ⟨e, he, h⟩
      obtain ⟨k, hk, rfl⟩ := List.mem_map.1 he
      simp only [Bool.and_eq_true, decide_eq_true_eq] at h
      have hk' := (hkeys k).1 hk
      rcases classKey_ends (Compelled D) k with a | a
      · rw [a.1, a.2] at h
        rw [h.1, h.2] at hk'
        exact Or.inl hk'
      · rw [a.1, a.2] at h
        rw [h.1, h.2] at hk'
        by_cases hc : Compelled D k.1 k.2
        · rw [classKey_pos hc] at a
          have : k.1 = k.2 := a.1
          omega
        · rw [h.1, h.2] at hc
          exact Or.inr ⟨hk', hc⟩
    · rintro (h | ⟨h, hc⟩)
      · refine ⟨classKey (Compelled D) (i, j), List.mem_map.2 ⟨_, (hkeys (i, j)).2 h, rfl⟩, ?_⟩
        by_cases hc : Compelled D i j
        · rw [classKey_pos hc]; simp [keyEdge]
        · rw [classKey_neg hc]
          simp [mkUndirected, hij]
      · refine ⟨classKey (Compelled D) (j, i), List.mem_map.2 ⟨_, (hkeys (j, i)).2 h, rfl⟩, ?_⟩
        rw [classKey_neg hc]
        simp [mkUndirected, show ¬ j < i by omega]
  unfold pairStatus classStatus
  by_cases h1 : D i j ∧ Compelled D i j
  · rw [if_pos ((hd i j).2 h1), if_pos h1]
  · rw [if_neg (fun h => h1 ((hd i j).1 h)), if_neg h1]
    by_cases h2 : D j i ∧ Compelled D j i
    · rw [if_pos ((hd j i).2 h2), if_pos h2]
    · rw [if_neg (fun h => h2 ((hd j i).1 h)), if_neg h2]
      have : (D i j ∨ (D j i ∧ ¬ Compelled D j i)) ↔ Joined D i j := by
        unfold Joined
        tauto
      by_cases h3 : Joined D i j
      · rw [if_pos (hu.2 (this.2 h3)), if_pos h3]
      · rw [if_neg (fun h => h3 (this.1 (hu.1 h))), if_neg h3]

end

theorem directed_simple {keys : List (Nat × Nat)} {D : Nat → Nat → Prop} (hkeys : ∀ k, k ∈ keys ↔ D k.1 k.2) (hasym : ∀ x y, D x y → ¬ D y x)
    (ord : Nat × Nat → Bool) (lab : Nat × Nat → Label) : SimpleEdges (edgesOf keys ord lab) := by
  have hne : ∀ k ∈ keys, k.1 ≠ k.2 := by
    intro k hk he
    have := (hkeys k).1 hk
    exact hasym _ _ this (by rw [← he] at this ⊢; exact this)
  refine ⟨?_, ?_, ?_, ?_⟩
  · intro e he
    obtain ⟨k, hk, rfl⟩ := List.mem_map.1 he
    exact hne k hk
  · intro e he
    obtain ⟨k, hk, rfl⟩ := List.mem_map.1 he
    rfl
  · intro e he h2
    obtain ⟨k, hk, rfl⟩ := List.mem_map.1 he
    cases h2
  · intro e he f hf hef
    obtain ⟨k, hk, rfl⟩ := List.mem_map.1 he
    obtain ⟨k', hk', rfl⟩ := List.mem_map.1 hf
    rcases hef with h | h
    · exact ⟨h.1, h.2, rfl⟩
    · have h1 := (hkeys k).1 hk
      have h2 := (hkeys k').1 hk'
      have e1 : k.1 = k'.2 := h.1
      have e2 : k.2 = k'.1 := h.2
      rw [← e1, ← e2] at h2
      exact absurd h2 (hasym _ _ h1)

/-- A second call of `OrderEdge`. -/
theorem orderEdge_again {N : Net} (hinv : NetInv N) {keys : List (Nat × Nat)} (hkeys : ∀ k, k ∈ keys ↔ k.1 ∈ N.pa k.2)
    {T : List Nat} (hf : TopoFacts N T) (hne : keys ≠ []) (lab : Nat × Nat → Label) :
    Net.orderEdge { nodes := N.nodes, edges := edgesOf keys (fun _ => true) lab, topo := T } = .error .exit := by
  obtain ⟨k, hk⟩ := List.exists_mem_of_ne_nil _ hne
  have hklt := hinv.wf.lt ((hinv.wf.sym _ _).2 ((hkeys k).1 hk))
  have hTne : T ≠ [] := List.ne_nil_of_mem ((hf.mem _).2 hklt.1)
  unfold Net.orderEdge Net.getTopoOrd
  rw [if_neg hTne, ok_bind]
  simp only []
  set E := edgesOf keys (fun _ => true) lab with hE
  have hstep : ∀ (ps : List Nat) (y x : Nat), (∀ p ∈ ps, (p, y) ∈ keys) → x < N.nodes.length →
      Net.orderStep { nodes := N.nodes, edges := E, topo := T } ps y (E, []) x = .ok (E, []) := by
    intro ps y x hps hx
    unfold Net.orderStep
    by_cases hp : x ∈ ps
    · rw [if_pos hp, find_ok (N := { nodes := N.nodes, edges := E, topo := T }) hx, ok_bind, hE]
      simp only []
      rw [edgeAt_edgesOf (hps x hp), ok_bind, rdAt_edgesOf (hps x hp), ok_bind]
      rfl
    · rw [if_neg hp]
  have hrd : ∀ j < T.length, rdAt T j = .ok (T.getD j 0) := by
    intro j hj
    unfold rdAt
    rw [List.getElem?_eq_getElem hj, getD_of_lt hj]
  have hloop : (List.range T.length).foldlM (fun (st : List Edge × List Edge) j => (do
      let y ← rdAt T j
      let s ← ({ nodes := N.nodes, edges := E, topo := T } : Net).find y
      if s.parents = [] then return st
      else (List.range j).reverse.foldlM (fun st k => do
        let x ← rdAt T k
        ({ nodes := N.nodes, edges := E, topo := T } : Net).orderStep s.parents y st x) st : Except Fault (List Edge × List Edge))) (E, []) =
      .ok (E, []) := by
    apply foldlM_still
    intro j hj
    rw [List.mem_range] at hj
    rw [hrd j hj, ok_bind]
    have hylt := hf.lt hj
    have hfind : ({ nodes := N.nodes, edges := E, topo := T } : Net).find (T.getD j 0) = N.find (T.getD j 0) := rfl
    rw [hfind, find_ok hylt, ok_bind, ← pa_of_lt hylt]
    split
    · rfl
    · apply foldlM_still
      intro i hi
      rw [List.mem_reverse, List.mem_range] at hi
      rw [hrd i (by omega), ok_bind]
      exact hstep _ _ _ (fun p hp => (hkeys _).2 hp) (hf.lt (by omega))
  rw [hloop, ok_bind]
  simp only []
  rw [if_pos]
  rw [hE]
  simp only [edgesOf, List.length_map, List.length_nil]
  exact fun h => hne (List.length_eq_zero_iff.1 h.symm)

end FastPGM
