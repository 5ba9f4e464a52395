import Verif.Lemmas.Compare
import Mathlib.Data.List.Perm.Basic

/-!
`OrderEdge` and the whole of `FindCompelled`.
-/

namespace FastPGM

open Spec Relation

/-! ### Existence of labels that obey the rules -/

section exist
variable (D : Nat → Nat → Prop) (pos : Nat → Nat)

/-- The labels of the edges into the nodes at positions below `m`. -/
def ruleLabels : Nat → Nat → Nat → Prop
  | 0 => fun _ _ => False
  | m + 1 => fun p y => (pos y < m ∧ ruleLabels m p y) ∨ (pos y = m ∧ D p y ∧ ∃ x, LastParent D pos x y ∧
      ((∃ w, ruleLabels m w x ∧ ¬ D w y) ∨ (∃ z, D z y ∧ z ≠ x ∧ ¬ D z x) ∨ ruleLabels m p x))

variable {D pos}

theorem ruleLabels_stable : ∀ (m : Nat) {p y : Nat}, pos y < m → (ruleLabels D pos m p y ↔ ruleLabels D pos (pos y + 1) p y) := by
  intro m
  induction m with
  | zero => intro p y h; omega
  | succ m ih =>
    intro p y h
    by_cases hy : pos y = m
    · rw [hy]
    · rw [← ih (show pos y < m by omega)]
      show (pos y < m ∧ _) ∨ (pos y = m ∧ _) ↔ _
      constructor
      · rintro (h' | h')
        · exact h'.2
        · exact absurd h'.1 hy
      · exact fun h' => Or.inl ⟨by omega, h'⟩

theorem LastParent.unique {x x' y : Nat} (h : LastParent D pos x y) (h' : LastParent D pos x' y) : x = x' := by
  by_contra hne
  have := h.last x' h'.par (Ne.symm hne)
  have := h'.last x h.par hne
  omega

theorem exists_labels (hmono : ∀ x y, D x y → pos x < pos y) (hlast : ∀ y p, D p y → ∃ x, LastParent D pos x y) :
    ∃ L, LabelRules D pos L := by
  refine ⟨fun p y => ruleLabels D pos (pos y + 1) p y, ?_⟩
  have hsub : ∀ p y, ruleLabels D pos (pos y + 1) p y → D p y := by
    intro p y h
    rcases h with h | h
    · exact absurd h.1 (lt_irrefl _)
    · exact h.2.1
  have key : ∀ x y, LastParent D pos x y → ∀ p, (ruleLabels D pos (pos y + 1) p y ↔ D p y ∧ ((∃ w, ruleLabels D pos (pos x + 1) w x ∧ ¬ D w y) ∨
      (∃ z, D z y ∧ z ≠ x ∧ ¬ D z x) ∨ ruleLabels D pos (pos x + 1) p x)) := by
    intro x y hx p
    have hlt := hmono _ _ hx.par
    show (pos y < pos y ∧ _) ∨ (pos y = pos y ∧ _) ↔ _
    constructor
    · rintro (h | ⟨_, h1, x', hx', h2⟩)
      · exact absurd h.1 (lt_irrefl _)
      · rw [hx'.unique hx] at h2
        refine ⟨h1, ?_⟩
        simpa only [ruleLabels_stable (D := D) (pos y) hlt] using h2
    · rintro ⟨h1, h2⟩
      refine Or.inr ⟨rfl, h1, x, hx, ?_⟩
      simpa only [ruleLabels_stable (D := D) (pos y) hlt] using h2
  refine ⟨hmono, hsub, hlast, ?_, ?_, ?_⟩
  · intro x y hx hw p hp
    exact (key x y hx p).2 ⟨hp, Or.inl hw⟩
  · intro x y hx hz p hp
    exact (key x y hx p).2 ⟨hp, Or.inr (Or.inl hz)⟩
  · intro x y hx hA hB p hp
    rw [key x y hx p]
    constructor
    · rintro ⟨_, ⟨w, h1, h2⟩ | ⟨z, h1, h2, h3⟩ | h⟩
      · exact absurd (hA w h1) h2
      · exact absurd (hB z h1 h2) h3
      · exact h
    · exact fun h => ⟨hp, Or.inr (Or.inr h)⟩

end exist

/-! ### The order of the edges -/

/-- The edges into the `j`-th node of the order, by tail from latest to earliest. -/
def orderBlock (N : Net) (T : List Nat) (j : Nat) : List (Nat × Nat) :=
  (((List.range j).reverse.map (fun k => T.getD k 0)).filter (fun x => x ∈ N.pa (T.getD j 0))).map (fun x => (x, T.getD j 0))

/-- The edges in the order of `OrderEdge`. -/
def orderKeys (N : Net) (T : List Nat) : List (Nat × Nat) := (List.range T.length).flatMap (orderBlock N T)

/-- What is used of a topological order. -/
structure TopoFacts (N : Net) (T : List Nat) : Prop where
  nodup : T.Nodup
  mem : ∀ v, v ∈ T ↔ v < N.nodes.length
  before : ∀ x y, x ∈ N.pa y → T.idxOf x < T.idxOf y

theorem topoFacts {N : Net} (h : NetInv N) {T : List Nat} (hT : IsTopologicalOrder N.nodes.length (ChildOf N) T) : TopoFacts N T := by
  obtain ⟨h1, h2, h3⟩ := hT
  refine ⟨h1, h2, fun x y hxy => ?_⟩
  obtain ⟨l1, l2, l3, rfl⟩ := h3 x y (childOf_iff.2 ((h.wf.sym x y).2 hxy))
  rw [List.append_assoc, List.cons_append] at h1 ⊢
  have hx : x ∉ l1 := fun hx => (List.nodup_append.1 h1).2.2 x hx x (by simp) rfl
  have hy1 : y ∉ l1 := fun hy => (List.nodup_append.1 h1).2.2 y hy y (by simp) rfl
  have hxy' : x ≠ y := by
    rintro rfl
    have := (List.nodup_append.1 h1).2.1
    rw [List.nodup_cons] at this
    exact this.1 (by simp)
  rw [List.idxOf_append_of_notMem hx, List.idxOf_append_of_notMem hy1, List.idxOf_cons_self, List.idxOf_cons_ne _ hxy']
  omega

namespace TopoFacts
variable {N : Net} {T : List Nat}

theorem idx (h : TopoFacts N T) {j : Nat} (hj : j < T.length) : T.idxOf (T.getD j 0) = j := by
  rw [getD_of_lt hj]
  exact h.nodup.idxOf_getElem j hj

theorem get (h : TopoFacts N T) {v : Nat} (hv : v < N.nodes.length) : T.idxOf v < T.length ∧ T.getD (T.idxOf v) 0 = v := by
  have hlt := List.idxOf_lt_length_iff.2 ((h.mem v).2 hv)
  exact ⟨hlt, by rw [getD_of_lt hlt, List.getElem_idxOf hlt]⟩

theorem lt (h : TopoFacts N T) {j : Nat} (hj : j < T.length) : T.getD j 0 < N.nodes.length := by
  rw [getD_of_lt hj]
  exact (h.mem _).1 (List.getElem_mem hj)

theorem mem_block (h : TopoFacts N T) (hinv : NetInv N) {j : Nat} (hj : j < T.length) (k : Nat × Nat) :
    k ∈ orderBlock N T j ↔ k.2 = T.getD j 0 ∧ k.1 ∈ N.pa k.2 := by
  unfold orderBlock
  rw [List.mem_map]
  constructor
  · rintro ⟨x, hx, rfl⟩
    rw [List.mem_filter] at hx
    exact ⟨rfl, by simpa using hx.2⟩
  · rintro ⟨h1, h2⟩
    refine ⟨k.1, ?_, by rw [← h1]⟩
    rw [List.mem_filter]
    have hlt := h.before _ _ h2
    rw [h1, h.idx hj] at hlt
    have hk := h.get (hinv.wf.lt ((hinv.wf.sym _ _).2 h2)).1
    refine ⟨List.mem_map.2 ⟨T.idxOf k.1, ?_, hk.2⟩, by rw [← h1]; simpa using h2⟩
    rw [List.mem_reverse, List.mem_range]
    exact hlt

theorem mem_keys (h : TopoFacts N T) (hinv : NetInv N) (k : Nat × Nat) : k ∈ orderKeys N T ↔ k.1 ∈ N.pa k.2 := by
  unfold orderKeys
  rw [List.mem_flatMap]
  constructor
  · rintro ⟨j, hj, hk⟩
    exact ((h.mem_block hinv (List.mem_range.1 hj) k).1 hk).2
  · intro hk
    have hg := h.get (hinv.wf.lt ((hinv.wf.sym _ _).2 hk)).2
    exact ⟨T.idxOf k.2, List.mem_range.2 hg.1, (h.mem_block hinv hg.1 k).2 ⟨hg.2.symm, hk⟩⟩

/-- By head, and for equal heads by tail from latest to earliest. -/
def _root_.FastPGM.EdgeBefore (T : List Nat) (a b : Nat × Nat) : Prop :=
  T.idxOf a.2 < T.idxOf b.2 ∨ (a.2 = b.2 ∧ T.idxOf b.1 < T.idxOf a.1)

theorem block_sorted (h : TopoFacts N T) {j : Nat} (hj : j < T.length) : (orderBlock N T j).Pairwise (EdgeBefore T) := by
  unfold orderBlock
  rw [List.pairwise_map]
  apply List.Pairwise.filter
  rw [List.pairwise_map, List.pairwise_reverse]
  have := List.pairwise_lt_range (n := j)
  refine this.imp_of_mem ?_
  intro a b ha hb hab
  rw [List.mem_range] at ha hb
  refine Or.inr ⟨rfl, ?_⟩
  show T.idxOf (T.getD a 0) < T.idxOf (T.getD b 0)
  rw [h.idx (by omega), h.idx (by omega)]
  exact hab

theorem sorted (h : TopoFacts N T) (hinv : NetInv N) : (orderKeys N T).Pairwise (EdgeBefore T) := by
  unfold orderKeys
  rw [List.pairwise_flatMap]
  refine ⟨fun j hj => h.block_sorted (List.mem_range.1 hj), ?_⟩
  refine (List.pairwise_lt_range (n := T.length)).imp_of_mem ?_
  intro i j hi hj hij a ha b hb
  rw [List.mem_range] at hi hj
  left
  rw [((h.mem_block hinv hi a).1 ha).1, ((h.mem_block hinv hj b).1 hb).1, h.idx hi, h.idx hj]
  exact hij

theorem keys_nodup (h : TopoFacts N T) (hinv : NetInv N) : (orderKeys N T).Nodup := by
  refine (h.sorted hinv).imp ?_
  rintro a b (hab | hab) rfl
  · exact lt_irrefl _ hab
  · exact lt_irrefl _ hab.2

end TopoFacts

theorem edgesOf_congr {keys : List (Nat × Nat)} {ord ord' : Nat × Nat → Bool} {lab lab' : Nat × Nat → Label}
    (h : ∀ k ∈ keys, ord k = ord' k ∧ lab k = lab' k) : edgesOf keys ord lab = edgesOf keys ord' lab' := by
  unfold edgesOf
  apply List.map_congr_left
  intro k hk
  rw [(h k hk).1, (h k hk).2]

theorem orderStep_eq {N : Net} {keys : List (Nat × Nat)} (hn : keys.Nodup) {ps : List Nat} {y x : Nat} (hps : ∀ p ∈ ps, (p, y) ∈ keys)
    (hx : x < N.nodes.length) {done : List (Nat × Nat)} (hd : (x, y) ∉ done) :
    N.orderStep ps y (edgesOf keys (fun k => decide (k ∈ done)) (fun _ => .unset), pending done) x =
      .ok (edgesOf keys (fun k => decide (k ∈ if x ∈ ps then done ++ [(x, y)] else done)) (fun _ => .unset),
        pending (if x ∈ ps then done ++ [(x, y)] else done)) := by
  unfold Net.orderStep
  by_cases hp : x ∈ ps
  · simp only [if_pos hp]
    rw [find_ok hx, ok_bind, edgeAt_edgesOf (hps x hp), ok_bind, rdAt_edgesOf (hps x hp), ok_bind]
    have : (keyEdge (x, y) (decide ((x, y) ∈ done)) Label.unset).ordered = false := by simp [keyEdge, hd]
    rw [this]
    simp only [Bool.false_eq_true, if_false]
    show Except.ok _ = _
    congr 2
    · unfold edgesOf
      rw [set_map_idxOf hn (hps x hp)]
      apply List.map_congr_left
      intro k _
      by_cases hk : k = (x, y)
      · subst hk
        simp [keyEdge]
      · simp [hk]
    · simp [pending, edgesOf, keyEdge]
  · simp only [if_neg hp]

theorem orderEdge_eq {N : Net} (hinv : NetInv N) {keys : List (Nat × Nat)} (hn : keys.Nodup) (hkeys : ∀ k, k ∈ keys ↔ k.1 ∈ N.pa k.2)
    (hedges : N.edges = edgesOf keys (fun _ => false) (fun _ => .unset)) (htopo : N.topo = []) :
    ∃ T, N.genTopoOrd = .ok T ∧ IsTopologicalOrder N.nodes.length (ChildOf N) T ∧
      N.orderEdge = .ok (pending (orderKeys N T),
        { nodes := N.nodes, edges := edgesOf keys (fun _ => true) (fun _ => .unset), topo := T }) := by
  obtain ⟨T, hT, hord⟩ := genTopoOrd_eq hinv.wf hinv.acyclic
  have hf := topoFacts hinv hord
  refine ⟨T, hT, hord, ?_⟩
  unfold Net.orderEdge Net.getTopoOrd
  rw [if_pos htopo, hT, ok_bind]
  simp only [pure_bind]
  have hperm : (orderKeys N T).Perm keys := by
    rw [List.perm_ext_iff_of_nodup (hf.keys_nodup hinv) hn]
    intro k
    rw [hf.mem_keys hinv, hkeys]
  have hloop : (List.range T.length).foldlM (fun (st : List Edge × List Edge) j => (do
      let y ← rdAt T j
      let s ← ({ N with topo := T } : Net).find y
      if s.parents = [] then return st
      else (List.range j).reverse.foldlM (fun st k => do
        let x ← rdAt T k
        ({ N with topo := T } : Net).orderStep s.parents y st x) st : Except Fault (List Edge × List Edge))) (N.edges, []) =
      .ok (edgesOf keys (fun k => decide (k ∈ orderKeys N T)) (fun _ => .unset), pending (orderKeys N T)) := by
    obtain ⟨st, e, hst⟩ := foldlM_prefix (l := List.range T.length) (b := (N.edges, ([] : List Edge)))
      (f := fun (st : List Edge × List Edge) j => (do
        let y ← rdAt T j
        let s ← ({ N with topo := T } : Net).find y
        if s.parents = [] then return st
        else (List.range j).reverse.foldlM (fun st k => do
          let x ← rdAt T k
          ({ N with topo := T } : Net).orderStep s.parents y st x) st : Except Fault (List Edge × List Edge)))
      (P := fun pre st => st = (edgesOf keys (fun k => decide (k ∈ pre.flatMap (orderBlock N T))) (fun _ => .unset),
        pending (pre.flatMap (orderBlock N T)))) (by
        rw [hedges]
        simp [pending, edgesOf]) (by
      rintro pre j rest hl st rfl
      have hj : j < T.length := List.mem_range.1 (by rw [hl]; simp)
      have hpre : ∀ i ∈ pre, i < j := by
        intro i hi
        have := List.pairwise_lt_range (n := T.length)
        rw [hl, List.pairwise_append] at this
        exact this.2.2 i hi j (by simp)
      have hylt := hf.lt hj
      have hrd : rdAt T j = .ok (T.getD j 0) := by
        unfold rdAt
        rw [List.getElem?_eq_getElem hj, getD_of_lt hj]
      refine ⟨_, ?_, rfl⟩
      rw [hrd, ok_bind]
      have hfind : ({ N with topo := T } : Net).find (T.getD j 0) = N.find (T.getD j 0) := rfl
      rw [hfind, find_ok hylt, ok_bind, ← pa_of_lt hylt, List.flatMap_append, List.flatMap_singleton]
      by_cases hpe : N.pa (T.getD j 0) = []
      · rw [if_pos hpe]
        have : orderBlock N T j = [] := by
          rw [List.eq_nil_iff_forall_not_mem]
          intro k hk
          rw [hf.mem_block hinv hj] at hk
          rw [hk.1, hpe] at hk
          simp at hk
        rw [this, List.append_nil]
        rfl
      · rw [if_neg hpe]
        have hdone : ∀ x, (x, T.getD j 0) ∉ pre.flatMap (orderBlock N T) := by
          intro x hx
          obtain ⟨i, hi, hk⟩ := List.mem_flatMap.1 hx
          have hij := hpre i hi
          have := ((hf.mem_block hinv (show i < T.length by omega) _).1 hk).1
          have h1 := hf.idx hj
          have h2 := hf.idx (show i < T.length by omega)
          simp only at this
          rw [this, h2] at h1
          omega
        obtain ⟨st, e, hst⟩ := foldlM_prefix (l := (List.range j).reverse)
          (f := fun st k => do
            let x ← rdAt T k
            ({ N with topo := T } : Net).orderStep (N.pa (T.getD j 0)) (T.getD j 0) st x)
          (P := fun pre' st => st = (edgesOf keys (fun k => decide (k ∈ pre.flatMap (orderBlock N T) ++
              ((pre'.map (fun k => T.getD k 0)).filter (fun x => x ∈ N.pa (T.getD j 0))).map (fun x => (x, T.getD j 0)))) (fun _ => .unset),
            pending (pre.flatMap (orderBlock N T) ++
              ((pre'.map (fun k => T.getD k 0)).filter (fun x => x ∈ N.pa (T.getD j 0))).map (fun x => (x, T.getD j 0)))))
          (b := (edgesOf keys (fun k => decide (k ∈ pre.flatMap (orderBlock N T))) (fun _ => .unset), pending (pre.flatMap (orderBlock N T))))
          (by simp) (by
          rintro pre' k rest' hl' st rfl
          have hk : k < j := List.mem_range.1 (List.mem_reverse.1 (by rw [hl']; simp))
          have hpre' : ∀ i ∈ pre', i < j ∧ i ≠ k := by
            intro i hi
            refine ⟨List.mem_range.1 (List.mem_reverse.1 (by rw [hl']; simp [hi])), ?_⟩
            rintro rfl
            have : (List.range j).reverse.Nodup := List.nodup_reverse.2 List.nodup_range
            rw [hl', List.nodup_append] at this
            exact this.2.2 i hi i (by simp) rfl
          have hrd' : rdAt T k = .ok (T.getD k 0) := by
            unfold rdAt
            rw [List.getElem?_eq_getElem (show k < T.length by omega), getD_of_lt (show k < T.length by omega)]
          refine ⟨_, ?_, rfl⟩
          rw [hrd', ok_bind]
          have hstep := orderStep_eq (N := { N with topo := T }) (ps := N.pa (T.getD j 0)) (y := T.getD j 0) (x := T.getD k 0) hn
            (fun p hp => (hkeys _).2 hp) (hf.lt (by omega)) (done := pre.flatMap (orderBlock N T) ++
              ((pre'.map (fun k => T.getD k 0)).filter (fun x => x ∈ N.pa (T.getD j 0))).map (fun x => (x, T.getD j 0))) (by
              intro hm
              rcases List.mem_append.1 hm with hm | hm
              · exact hdone _ hm
              · obtain ⟨x, hx, hxe⟩ := List.mem_map.1 hm
                obtain ⟨i, hi, rfl⟩ := List.mem_map.1 (List.mem_filter.1 hx).1
                have h1 := hf.idx (show i < T.length by have := hpre' i hi; omega)
                have h2 := hf.idx (show k < T.length by omega)
                rw [show T.getD i 0 = T.getD k 0 from (Prod.ext_iff.1 hxe).1] at h1
                exact (hpre' i hi).2 (h1.symm.trans h2))
          rw [hstep]
          have hlist : (if T.getD k 0 ∈ N.pa (T.getD j 0) then
              (pre.flatMap (orderBlock N T) ++ ((pre'.map (fun k => T.getD k 0)).filter (fun x => x ∈ N.pa (T.getD j 0))).map (fun x => (x, T.getD j 0))) ++
                [(T.getD k 0, T.getD j 0)] else
              pre.flatMap (orderBlock N T) ++ ((pre'.map (fun k => T.getD k 0)).filter (fun x => x ∈ N.pa (T.getD j 0))).map (fun x => (x, T.getD j 0))) =
              pre.flatMap (orderBlock N T) ++ (((pre' ++ [k]).map (fun k => T.getD k 0)).filter (fun x => x ∈ N.pa (T.getD j 0))).map
                (fun x => (x, T.getD j 0)) := by
            rw [List.map_append, List.filter_append, List.map_append]
            by_cases hm : T.getD k 0 ∈ N.pa (T.getD j 0)
            · rw [if_pos hm, List.append_assoc]
              congr 2
              simp only [List.map_cons, List.map_nil]
              rw [List.filter_cons_of_pos (by simpa using hm)]
              rfl
            · rw [if_neg hm]
              simp only [List.map_cons, List.map_nil]
              rw [List.filter_cons_of_neg (by simpa using hm)]
              simp
          rw [hlist])
        rw [e, hst]
        rfl)
    rw [e, hst]
    rfl
  erw [hloop]
  rw [ok_bind]
  simp only []
  rw [if_neg]
  · show Except.ok _ = _
    congr 3
    apply edgesOf_congr
    intro k hk
    refine ⟨?_, rfl⟩
    simp only [decide_eq_true_eq]
    exact hperm.mem_iff.2 hk
  · have := hperm.length_eq
    simp [pending, edgesOf, this]

/-! ### The labels -/

section label
open Classical

/-- The labels once the nodes at the positions below `j` are done. -/
noncomputable def labelsBelow (T : List Nat) (L : Nat → Nat → Prop) (j : Nat) : Nat × Nat → Label :=
  fun k => if T.idxOf k.2 < j then (if L k.1 k.2 then .compelled else .reversible) else .unset

/-- The first `x` erased twice is excluded: either the first loop finds a compelled edge into `x`, or the second loop has at most one hit. -/
def OneHit (D : Nat → Nat → Prop) (C : Nat → Nat → Prop) (pos : Nat → Nat) : Prop :=
  ∀ x y, LastParent D pos x y → (∃ w, C w x ∧ ¬ D w y) ∨
    ∀ z z', D z y → D z' y → z ≠ x → z' ≠ x → ¬ D z x → ¬ D z' x → z = z'

variable {N : Net} {T : List Nat} {keys : List (Nat × Nat)} {L : Nat → Nat → Prop}

theorem compelLoop_eq (hinv : NetInv N) (hf : TopoFacts N T) (hn : keys.Nodup) (hkeys : ∀ k, k ∈ keys ↔ k.1 ∈ N.pa k.2)
    (hL : LabelRules (fun p c => p ∈ N.pa c) T.idxOf L) (hone : OneHit (fun p c => p ∈ N.pa c) L T.idxOf) (ord : Nat × Nat → Bool) :
    ∀ (m j : Nat), j + m = T.length → ∀ fuel, ((List.range' j m).flatMap (orderBlock N T)).length ≤ fuel →
      N.compelLoop fuel (edgesOf keys ord (labelsBelow T L j), pending ((List.range' j m).flatMap (orderBlock N T))) =
        .ok (edgesOf keys ord (labelsBelow T L T.length)) := by
  intro m
  induction m with
  | zero =>
    intro j hj fuel _
    simp only [Nat.add_zero] at hj
    subst hj
    cases fuel <;> rfl
  | succ m ih =>
    intro j hj fuel hfuel
    have hjl : j < T.length := by omega
    rw [List.range'_succ, List.flatMap_cons] at hfuel ⊢
    rcases hb : orderBlock N T j with _ | ⟨⟨x, y'⟩, rest⟩
    · rw [hb] at hfuel
      rw [List.nil_append] at hfuel ⊢
      rw [← ih (j + 1) (by omega) fuel hfuel]
      congr 2
      apply edgesOf_congr
      intro k hk
      refine ⟨rfl, ?_⟩
      have hne : T.idxOf k.2 ≠ j := by
        intro he
        have hk2 := (hkeys k).1 hk
        have := (hf.get (hinv.wf.lt ((hinv.wf.sym _ _).2 hk2)).2).2
        rw [he] at this
        have : k ∈ orderBlock N T j := (hf.mem_block hinv hjl k).2 ⟨this.symm, hk2⟩
        rw [hb] at this
        simp at this
      unfold labelsBelow
      by_cases h1 : T.idxOf k.2 < j
      · rw [if_pos h1, if_pos (show T.idxOf k.2 < j + 1 by omega)]
      · rw [if_neg h1, if_neg (show ¬ T.idxOf k.2 < j + 1 by omega)]
    · have hmem := fun k => hf.mem_block hinv hjl k
      have hxy := (hmem (x, y')).1 (by rw [hb]; simp)
      obtain ⟨hy', hx⟩ := hxy
      simp only at hy' hx
      subst hy'
      set y := T.getD j 0 with hy
      have hyj : T.idxOf y = j := hf.idx hjl
      have hlt := hinv.wf.lt ((hinv.wf.sym _ _).2 hx)
      have hsorted := hf.block_sorted hjl
      rw [hb, List.pairwise_cons] at hsorted
      have hlast : LastParent (fun p c => p ∈ N.pa c) T.idxOf x y := by
        refine ⟨hx, fun p hp hpx => ?_⟩
        have hpb : (p, y) ∈ orderBlock N T j := (hmem (p, y)).2 ⟨rfl, hp⟩
        rw [hb, List.mem_cons] at hpb
        rcases hpb with hpb | hpb
        · exact absurd (Prod.ext_iff.1 hpb).1 hpx
        · rcases hsorted.1 _ hpb with h1 | h1
          · exact absurd h1 (lt_irrefl _)
          · exact h1.2
      have hxj : T.idxOf x < j := by rw [← hyj]; exact hf.before _ _ hx
      set O := rest ++ (List.range' (j + 1) m).flatMap (orderBlock N T) with hO
      have hhead : ∀ k ∈ (List.range' (j + 1) m).flatMap (orderBlock N T), k.2 ≠ y := by
        intro k hk he
        obtain ⟨i, hi, hki⟩ := List.mem_flatMap.1 hk
        rw [List.mem_range'_1] at hi
        have h1 := ((hf.mem_block hinv (show i < T.length by omega) k).1 hki).1
        rw [he] at h1
        have h2 := hf.idx (show i < T.length by omega)
        rw [← h1, hyj] at h2
        omega
      have hsub : ((x, y) :: O).Sublist (orderKeys N T) := by
        have : (x, y) :: O = (List.range' j (m + 1)).flatMap (orderBlock N T) := by
          rw [List.range'_succ, List.flatMap_cons, hb, hO]
          rfl
        rw [this]
        unfold orderKeys
        have h2 : List.range T.length = List.range' 0 j ++ List.range' j (m + 1) := by
          rw [List.range_eq_range', show T.length = j + (m + 1) by omega, List.range'_append_1 |>.symm]
          simp
        rw [h2, List.flatMap_append]
        exact List.sublist_append_right _ _
      have hnd := hsub.nodup (hf.keys_nodup hinv)
      obtain ⟨f, hround, hA, hB, hC⟩ := compelRound_eq (N := N) (ord := ord) hn hlt.1 hlt.2 (x := x) (y := y)
        (by rintro rfl; omega) (fun p hp => (hkeys _).2 hp) hx (nodup_of_sorted (hinv.wf.pa_sorted y)) (lab := labelsBelow T L j) hnd
        (by
          intro p hp
          have hpb : (p, y) ∈ orderBlock N T j := (hmem (p, y)).2 ⟨rfl, hp⟩
          rw [hb, List.mem_cons] at hpb
          rw [hO, List.mem_cons, List.mem_append]
          rcases hpb with h | h
          · exact Or.inl h
          · exact Or.inr (Or.inl h))
        (fun h => hL.irrefl x h)
        (by
          intro w hw
          refine ⟨(hkeys _).2 hw, ?_⟩
          unfold labelsBelow
          rw [if_pos hxj]
          split <;> simp)
        (by
          rcases hone x y hlast with ⟨w, h1, h2⟩ | h
          · left
            refine ⟨w, hL.sub _ _ h1, ?_, h2⟩
            unfold labelsBelow
            rw [if_pos hxj, if_pos h1]
          · right
            intro z hz z' hz' h1 h2 h3 h4
            exact h z z' hz hz' h1 h3 h2 h4)
      have hcomp : ∀ w, labelsBelow T L j (w, x) = .compelled ↔ L w x := by
        intro w
        unfold labelsBelow
        rw [if_pos hxj]
        by_cases h : L w x
        · simp [h]
        · simp [h]
      rcases fuel with _ | fuel
      · simp at hfuel
        rw [hb] at hfuel
        simp at hfuel
      · have hOeq : (x, y) :: rest ++ (List.range' (j + 1) m).flatMap (orderBlock N T) = (x, y) :: O := rfl
        rw [hOeq]
        have hstep : N.compelLoop (fuel + 1) (edgesOf keys ord (labelsBelow T L j), pending ((x, y) :: O)) =
            (N.compelRound x y (edgesOf keys ord (labelsBelow T L j), pending ((x, y) :: O)) >>= N.compelLoop fuel) := rfl
        rw [hstep, hround, ok_bind]
        have hwo : without O (N.pa y) y = (List.range' (j + 1) m).flatMap (orderBlock N T) := by
          unfold without
          rw [hO, List.filter_append]
          have h1 : rest.filter (fun k => !(decide (k.2 = y) && decide (k.1 ∈ N.pa y))) = [] := by
            rw [List.filter_eq_nil_iff]
            intro k hk
            have := (hmem k).1 (by rw [hb]; simp [hk])
            have h2 : k.1 ∈ N.pa y := by rw [← this.1]; exact this.2
            simp [this.1, h2]
          rw [h1, List.nil_append, List.filter_eq_self]
          intro k hk
          simp [hhead k hk]
        rw [hwo]
        have hlab : edgesOf keys ord (relabel (labelsBelow T L j) (N.pa y) y f) = edgesOf keys ord (labelsBelow T L (j + 1)) := by
          apply edgesOf_congr
          intro k hk
          refine ⟨rfl, ?_⟩
          have hk2 := (hkeys k).1 hk
          unfold relabel
          by_cases hky : k.2 = y
          · have hkp : k.1 ∈ N.pa y := by rw [← hky]; exact hk2
            rw [if_pos ⟨hky, hkp⟩]
            have hgoal : labelsBelow T L (j + 1) k = if L k.1 y then .compelled else .reversible := by
              unfold labelsBelow
              rw [hky, hyj, if_pos (by omega)]
            rw [hgoal]
            by_cases c1 : ∃ w ∈ N.pa x, labelsBelow T L j (w, x) = .compelled ∧ w ∉ N.pa y
            · rw [hA c1]
              obtain ⟨w, d1, d2, d3⟩ := c1
              rw [if_pos (hL.ruleA x y hlast ⟨w, (hcomp w).1 d2, d3⟩ _ hkp)]
            · by_cases c2 : ∃ z ∈ N.pa y, z ≠ x ∧ z ∉ N.pa x
              · rw [hB c2]
                obtain ⟨z, d1, d2, d3⟩ := c2
                rw [if_pos (hL.ruleB x y hlast ⟨z, d1, d2, d3⟩ _ hkp)]
              · have c1' : ∀ w ∈ N.pa x, labelsBelow T L j (w, x) = .compelled → w ∈ N.pa y := by
                  intro w d1 d2
                  by_contra d3
                  exact c1 ⟨w, d1, d2, d3⟩
                have c2' : ∀ z ∈ N.pa y, z ≠ x → z ∈ N.pa x := by
                  intro z d1 d2
                  by_contra d3
                  exact c2 ⟨z, d1, d2, d3⟩
                rw [hC c1' c2']
                have hiff := hL.ruleC x y hlast (fun w hw => c1' w (hL.sub _ _ hw) ((hcomp w).2 hw)) c2' k.1 hkp
                by_cases d : L k.1 x
                · rw [if_pos ⟨hL.sub _ _ d, (hcomp _).2 d⟩, if_pos (hiff.2 d)]
                · rw [if_neg (fun hh => d ((hcomp _).1 hh.2)), if_neg (fun hh => d (hiff.1 hh))]
          · rw [if_neg (fun hh => hky hh.1)]
            unfold labelsBelow
            have hne : T.idxOf k.2 ≠ j := by
              intro he
              have := (hf.get (hinv.wf.lt ((hinv.wf.sym _ _).2 hk2)).2).2
              rw [he] at this
              exact hky this.symm
            by_cases h1 : T.idxOf k.2 < j
            · rw [if_pos h1, if_pos (show T.idxOf k.2 < j + 1 by omega)]
            · rw [if_neg h1, if_neg (show ¬ T.idxOf k.2 < j + 1 by omega)]
        rw [hlab]
        apply ih (j + 1) (by omega)
        rw [List.length_append, hb] at hfuel
        simp only [List.length_cons] at hfuel
        omega

end label

end FastPGM
