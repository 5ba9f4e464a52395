import Verif.Model.Graph
import Verif.Spec.Graph
import Verif.Lemmas.Except
import Mathlib.Data.List.Nodup
import Mathlib.Data.Fintype.Card
import Mathlib.Order.WellFounded
import Mathlib.Data.Set.Finite.Basic
import Mathlib.Order.Preorder.Finite

/-!
Kahn's algorithm.
-/

namespace FastPGM

open Spec

section

variable {n : Nat} {e : Nat → Nat → Bool}

/-- Number of predecessors of `j` outside `V`. -/
def indeg (n : Nat) (e : Nat → Nat → Bool) (V : List Nat) (j : Nat) : Nat :=
  ((List.range n).filter (fun i => decide (i ∉ V) && e i j)).length

theorem indeg_eq_zero {V : List Nat} {j : Nat} : indeg n e V j = 0 ↔ ∀ i < n, e i j = true → i ∈ V := by
  unfold indeg
  rw [List.length_eq_zero_iff, List.filter_eq_nil_iff]
  constructor
  · intro h i hi he
    by_contra hn
    exact h i (by simpa using hi) (by simp [hn, he])
  · intro h i hi
    have := h i (by simpa using hi)
    cases he : e i j
    · simp
    · simp [this he]

theorem filter_range_split {f : Nat} (hf : f < n) (p q : Nat → Bool) (hp : p f = true) (hq : q f = false)
    (h : ∀ i, i ≠ f → p i = q i) : ((List.range n).filter p).length = ((List.range n).filter q).length + 1 := by
  induction n with
  | zero => omega
  | succ n ih =>
    rw [List.range_succ, List.filter_append, List.filter_append, List.length_append, List.length_append,
      List.filter_singleton, List.filter_singleton]
    by_cases hfn : f = n
    · subst hfn
      have : (List.range f).filter p = (List.range f).filter q := by
        apply List.filter_congr
        intro i hi
        have hi' : i < f := by simpa using hi
        exact h i (by omega)
      rw [this, hp, hq]; rfl
    · rw [ih (by omega), h n (fun e => hfn e.symm)]
      omega

theorem indeg_snoc {V : List Nat} {f j : Nat} (hf : f < n) (hV : f ∉ V) :
    indeg n e V j = indeg n e (V ++ [f]) j + (if e f j then 1 else 0) := by
  by_cases he : e f j = true
  · rw [if_pos he]
    apply filter_range_split hf
    · simp [hV, he]
    · simp
    · intro i hi
      simp [hi]
  · rw [if_neg he, Nat.add_zero]
    unfold indeg
    congr 1
    apply List.filter_congr
    intro i _
    by_cases hi : i = f
    · subst hi; simp at he; simp [he]
    · simp [hi]

/-- Adjacency matrix of `e`. -/
def matOf (n : Nat) (g : Nat → Nat → Int) : List (List Int) := tab n (fun i => tab n (g i))

theorem relaxSuccessors_eq {g : Nat → Nat → Int} (he : ∀ i j, e i j = decide (g i j = 1)) {f : Nat} (hf : f < n)
    (d : Nat → Int) (que : List Nat) :
    relaxSuccessors (matOf n g) f n (tab n d) que =
      .ok (tab n (fun j => d j - if e f j then 1 else 0),
        que ++ (List.range n).filter (fun j => e f j && decide (d j = 1))) := by
  have key := foldlM_range_eq (f := fun (st : List Int × List Nat) j => do
      let row ← rd (matOf n g) f
      let g ← rd row j
      if g = 1 then
        let d ← rd st.1 j
        let deg ← wr st.1 j (d - 1)
        if d - 1 = 0 then return (deg, st.2 ++ [j]) else return (deg, st.2)
      else (return st : Except Fault _))
    (s := fun k => (tab n (fun j => if j < k then d j - (if e f j then 1 else 0) else d j),
      que ++ (List.range k).filter (fun j => e f j && decide (d j = 1)))) (n := n) ?_
  · unfold relaxSuccessors
    simp only [Nat.not_lt_zero, if_false, List.range_zero, List.filter_nil, List.append_nil] at key
    refine key.trans ?_
    congr 2
    apply tab_congr
    intro j hj
    rw [if_pos hj]
  · intro j hj
    simp only [matOf, rd_tab hf, ok_bind, rd_tab hj]
    have hej : (e f j = true) ↔ g f j = 1 := by rw [he]; simp
    rw [List.range_succ, List.filter_append, List.filter_singleton]
    by_cases h : g f j = 1
    · have h' := hej.2 h
      simp only [if_pos h, lt_irrefl, if_false, wr_tab hj, ok_bind]
      have htab : (tab n fun k => if k = j then d j - 1 else if k < j then d k - (if e f k then 1 else 0) else d k) =
          tab n (fun k => if k < j + 1 then d k - (if e f k then 1 else 0) else d k) := by
        apply tab_congr
        intro k _
        by_cases h1 : k = j
        · subst h1; simp [h']
        · by_cases h2 : k < j
          · rw [if_neg h1, if_pos h2, if_pos (show k < j + 1 by omega)]
          · rw [if_neg h1, if_neg h2, if_neg (show ¬ k < j + 1 by omega)]
      rw [htab]
      by_cases hd : d j = 1
      · rw [if_pos (by omega), h', hd]
        simp [pure_eq_ok]
      · rw [if_neg (by omega), h']
        simp [pure_eq_ok, hd]
    · have h' : e f j = false := by rw [he]; simp [h]
      rw [if_neg h, h']
      simp only [pure_eq_ok, Bool.false_and, cond_false, List.append_nil, Except.ok.injEq, Prod.mk.injEq, and_true]
      apply tab_congr
      intro k _
      by_cases h1 : k = j
      · subst h1; simp [h']
      · by_cases h2 : k < j
        · rw [if_pos h2, if_pos (show k < j + 1 by omega)]
        · rw [if_neg h2, if_neg (show ¬ k < j + 1 by omega)]

/-- Invariant: `V` has been taken from the queue, `Q` is the queue. -/
structure KahnInv (n : Nat) (e : Nat → Nat → Bool) (V Q : List Nat) : Prop where
  nodup : (V ++ Q).Nodup
  lt : ∀ x ∈ V ++ Q, x < n
  mem : ∀ j < n, j ∈ V ++ Q ↔ indeg n e V j = 0
  order : (V ++ Q).Pairwise (fun a b => e b a = false)
  irrefl : ∀ a ∈ V ++ Q, e a a = false

theorem kahnInv_init : KahnInv n e [] ((List.range n).filter (fun j => decide (indeg n e [] j = 0))) := by
  have hm : ∀ j, j ∈ (List.range n).filter (fun j => decide (indeg n e [] j = 0)) ↔ j < n ∧ indeg n e [] j = 0 := by
    intro j; simp
  have hz : ∀ j, indeg n e [] j = 0 → ∀ i < n, e i j = false := by
    intro j h i hi
    have := indeg_eq_zero.1 h i hi
    by_contra hne
    simp at hne
    exact absurd (this hne) (by simp)
  refine ⟨by simpa using List.nodup_range.filter _, ?_, ?_, ?_, ?_⟩
  · intro x hx; rw [List.nil_append, hm] at hx; exact hx.1
  · intro j hj; rw [List.nil_append, hm]; exact ⟨fun h => h.2, fun h => ⟨hj, h⟩⟩
  · rw [List.nil_append]
    apply List.pairwise_of_forall_mem_list
    intro a ha b hb
    rw [hm] at ha hb
    exact hz a ha.2 b hb.1
  · intro a ha; rw [List.nil_append, hm] at ha; exact hz a ha.2 a ha.1

theorem KahnInv.step {V Q : List Nat} {f : Nat} (h : KahnInv n e V (f :: Q)) :
    KahnInv n e (V ++ [f]) (Q ++ (List.range n).filter (fun j => e f j && decide (indeg n e V j = 1))) := by
  generalize hN : (List.range n).filter (fun j => e f j && decide (indeg n e V j = 1)) = N
  have hNm : ∀ j, j ∈ N ↔ j < n ∧ e f j = true ∧ indeg n e V j = 1 := by
    intro j; rw [← hN]; simp
  have hNn : N.Nodup := by rw [← hN]; exact List.nodup_range.filter _
  have hfn : f < n := h.lt f (by simp)
  have hfV : f ∉ V := by
    have := h.nodup
    rw [List.nodup_append] at this
    intro hf
    exact this.2.2 f hf f (by simp) rfl
  have hre : V ++ [f] ++ (Q ++ N) = (V ++ f :: Q) ++ N := by simp
  have hdisj : ∀ x ∈ V ++ f :: Q, x ∉ N := by
    intro x hx hxN
    have h1 := (h.mem x (h.lt x hx)).1 hx
    have h2 := ((hNm x).1 hxN).2.2
    omega
  have hsn : ∀ j, indeg n e V j = indeg n e (V ++ [f]) j + (if e f j then 1 else 0) := fun j => indeg_snoc hfn hfV
  have hnew : ∀ j ∈ N, ∀ i < n, e i j = true → i ∈ V ++ [f] := by
    intro j hj
    obtain ⟨_, h2, h3⟩ := (hNm j).1 hj
    apply indeg_eq_zero.1
    have := hsn j
    rw [if_pos h2] at this
    omega
  refine ⟨?_, ?_, ?_, ?_, ?_⟩
  · rw [hre, List.nodup_append]
    refine ⟨h.nodup, hNn, ?_⟩
    intro a ha b hb hab
    subst hab
    exact hdisj a ha hb
  · intro x hx
    rw [hre, List.mem_append] at hx
    rcases hx with hx | hx
    · exact h.lt x hx
    · exact ((hNm x).1 hx).1
  · intro j hj
    rw [hre, List.mem_append, h.mem j hj, hNm]
    have := hsn j
    split at this
    · rename_i he
      constructor
      · rintro (h1 | ⟨_, _, h1⟩) <;> omega
      · intro h1
        exact Or.inr ⟨hj, he, by omega⟩
    · rename_i he
      constructor
      · rintro (h1 | ⟨_, h2, _⟩)
        · omega
        · exact absurd h2 he
      · intro h1
        exact Or.inl (by omega)
  · rw [hre, List.pairwise_append]
    refine ⟨h.order, ?_, ?_⟩
    · apply List.pairwise_of_forall_mem_list
      intro a ha b hb
      by_contra hne
      have hbV := hnew a ha b ((hNm b).1 hb).1 (by simpa using hne)
      exact hdisj b (by simp at hbV ⊢; tauto) hb
    · intro a ha b hb
      by_contra hne
      have hbV := indeg_eq_zero.1 ((h.mem a (h.lt a ha)).1 ha) b ((hNm b).1 hb).1 (by simpa using hne)
      exact hdisj b (by simp [hbV]) hb
  · intro a ha
    rw [hre, List.mem_append] at ha
    rcases ha with ha | ha
    · exact h.irrefl a ha
    · by_contra hne
      have haV := hnew a ha a ((hNm a).1 ha).1 (by simpa using hne)
      exact hdisj a (by simp at haV ⊢; tauto) ha

theorem KahnInv.length_le {V Q : List Nat} (h : KahnInv n e V Q) : V.length + Q.length ≤ n := by
  have := List.Nodup.length_le_of_subset (l₂ := List.range n) h.nodup (fun x hx => by simpa using h.lt x hx)
  simpa using this

theorem initialQueue_tab (d : Nat → Int) :
    initialQueue (tab n d) n = .ok ((List.range n).filter (fun j => decide (d j = 0))) := by
  have key := foldlM_range_eq (f := fun que i => do
      let d ← rd (tab n d) i
      if d = 0 then return que ++ [i] else (return que : Except Fault (List Nat)))
    (s := fun k => (List.range k).filter (fun j => decide (d j = 0))) (n := n) ?_
  · exact key
  · intro i hi
    rw [rd_tab hi, ok_bind, List.range_succ, List.filter_append, List.filter_singleton]
    by_cases h : d i = 0
    · simp [h, pure_eq_ok]
    · simp [h, pure_eq_ok]

/-- Both loops run to the end; the visited nodes satisfy the invariant with an empty queue. -/
theorem kahnLoop_spec {g : Nat → Nat → Int} (he : ∀ i j, e i j = decide (g i j = 1)) (fuel : Nat) (V Q : List Nat)
    (h : KahnInv n e V Q) (hfuel : n ≤ fuel + V.length) :
    ∃ L, KahnInv n e L [] ∧
      topoLoop (matOf n g) n fuel (tab n (fun j => (indeg n e V j : Int))) Q V = .ok L ∧
      circleLoop (matOf n g) n fuel (tab n (fun j => (indeg n e V j : Int))) Q V.length = .ok L.length := by
  induction fuel generalizing V Q with
  | zero =>
    have := h.length_le
    have hQ : Q = [] := List.length_eq_zero_iff.1 (by omega)
    subst hQ
    exact ⟨V, h, rfl, rfl⟩
  | succ fuel ih =>
    cases Q with
    | nil => exact ⟨V, h, rfl, rfl⟩
    | cons f Q =>
      have hs := h.step
      obtain ⟨L, hL, h1, h2⟩ := ih _ _ hs (by simp; omega)
      have hfn : f < n := h.lt f (by simp)
      have hfV : f ∉ V := by
        have := h.nodup
        rw [List.nodup_append] at this
        intro hf
        exact this.2.2 f hf f (by simp) rfl
      have hr := relaxSuccessors_eq he hfn (fun j => (indeg n e V j : Int)) (f :: Q)
      have hd : (tab n fun j => (indeg n e V j : Int) - if e f j then 1 else 0) =
          tab n (fun j => (indeg n e (V ++ [f]) j : Int)) := by
        apply tab_congr
        intro j _
        have := indeg_snoc (e := e) (j := j) hfn hfV
        split <;> rename_i hh <;> simp [hh] at this <;> omega
      have hq : ((List.range n).filter (fun j => e f j && decide ((indeg n e V j : Int) = 1))) =
          (List.range n).filter (fun j => e f j && decide (indeg n e V j = 1)) := by
        apply List.filter_congr
        intro j _
        have hiff : ((indeg n e V j : Int) = 1) ↔ (indeg n e V j = 1) := by omega
        simp only [hiff]
      rw [hd, hq] at hr
      refine ⟨L, hL, ?_, ?_⟩
      · rw [topoLoop, hr, ok_bind]
        exact h1
      · rw [circleLoop, hr, ok_bind]
        rw [List.length_append] at h2
        exact h2

theorem KahnInv.complete_iff {L : List Nat} (h : KahnInv n e L []) :
    L.length = n ↔ ∀ v, v ∈ L ↔ v < n := by
  have hn : L.Nodup := by simpa using h.nodup
  have hlt : ∀ x ∈ L, x < n := by simpa using h.lt
  constructor
  · intro hl v
    refine ⟨hlt v, fun hv => ?_⟩
    have hsub : L ⊆ List.range n := fun x hx => by simpa using hlt x hx
    have hp : L.Perm (List.range n) :=
      List.Subperm.perm_of_length_le (List.subperm_of_subset hn hsub) (by simp [hl])
    rw [hp.mem_iff]
    simpa using hv
  · intro hm
    have hp : L.Perm (List.range n) := by
      rw [List.perm_ext_iff_of_nodup hn List.nodup_range]
      intro a
      rw [hm]; simp
    simpa using hp.length_eq

/-- If `b` has no edge to an earlier element and the order is complete, edges go forward. -/
theorem KahnInv.topological {L : List Nat} (h : KahnInv n e L []) (hm : ∀ v, v ∈ L ↔ v < n) {a b : Nat}
    (ha : a < n) (hb : b < n) (he : e a b = true) : ∃ l1 l2 l3, L = l1 ++ a :: l2 ++ b :: l3 := by
  have horder : L.Pairwise (fun a b => e b a = false) := by simpa using h.order
  have hirr : ∀ a ∈ L, e a a = false := by simpa using h.irrefl
  obtain ⟨l1, l2, rfl⟩ := List.append_of_mem ((hm a).2 ha)
  have hbm := (hm b).2 hb
  rw [List.mem_append, List.mem_cons] at hbm
  rcases hbm with hbm | rfl | hbm
  · rw [List.pairwise_append] at horder
    have := horder.2.2 b hbm a (by simp)
    rw [he] at this
    cases this
  · have := hirr b (by simp)
    rw [he] at this
    cases this
  · obtain ⟨l3, l4, rfl⟩ := List.append_of_mem hbm
    exact ⟨l1, l3, l4, by simp⟩

end

/-- A graph with a complete order in which all edges go forward has no cycle. -/
theorem not_cyclic_of_order {n : Nat} {E : Nat → Nat → Prop} {L : List Nat} (h : IsTopologicalOrder n E L) : ¬ Cyclic E := by
  obtain ⟨hn, _, hE⟩ := h
  have hidx : ∀ a b, E a b → L.idxOf a < L.idxOf b := by
    intro a b hab
    obtain ⟨l1, l2, l3, rfl⟩ := hE a b hab
    rw [List.append_assoc, List.cons_append] at hn ⊢
    rw [List.nodup_append] at hn
    obtain ⟨h1, h2, h3⟩ := hn
    have ha : a ∉ l1 := fun h => h3 a h a (by simp) rfl
    have hb : b ∉ l1 := fun h => h3 b h b (by simp) rfl
    rw [List.idxOf_append_of_notMem ha, List.idxOf_append_of_notMem hb, List.idxOf_cons_self]
    have hab' : a ≠ b := by
      rintro rfl
      have := (List.nodup_cons.1 h2).1
      exact this (by simp)
    rw [List.idxOf_cons_ne _ hab']
    omega
  have htrans : ∀ a b, Relation.TransGen E a b → L.idxOf a < L.idxOf b := by
    intro a b hab
    induction hab with
    | single h => exact hidx _ _ h
    | tail _ h ih => exact lt_trans ih (hidx _ _ h)
  rintro ⟨i, hi⟩
  exact lt_irrefl _ (htrans i i hi)

/-- A non-empty set of nodes below `n`, each with a predecessor in the set, contains a cycle. -/
theorem cyclic_of_pred {n : Nat} {E : Nat → Nat → Prop} {S : Nat → Prop} (hS : ∀ j, S j → j < n ∧ ∃ i, S i ∧ E i j)
    {j : Nat} (hj : S j) : Cyclic E := by
  by_contra hc
  let R : {j // S j} → {j // S j} → Prop := fun a b => Relation.TransGen E a.1 b.1
  have hfin : Finite {j // S j} :=
    Set.Finite.subset (Set.finite_lt_nat n) (fun j hj => (hS j hj).1)
  have : IsTrans {j // S j} R := ⟨fun _ _ _ h1 h2 => Relation.TransGen.trans h1 h2⟩
  have : Std.Irrefl R := ⟨fun a h => hc ⟨a.1, h⟩⟩
  have hwf : WellFounded R := Finite.wellFounded_of_trans_of_irrefl R
  obtain ⟨m, _, hm⟩ := hwf.has_min Set.univ ⟨⟨j, hj⟩, trivial⟩
  obtain ⟨_, i, hi, hE⟩ := hS m.1 m.2
  exact hm ⟨i, hi⟩ trivial (Relation.TransGen.single hE)

/-- `E` and the boolean matrix agree; nothing outside `n`. -/
theorem kahn_complete_iff {n : Nat} {e : Nat → Nat → Bool} {E : Nat → Nat → Prop}
    (hE : ∀ i j, E i j ↔ i < n ∧ j < n ∧ e i j = true) {L : List Nat} (h : KahnInv n e L []) :
    L.length = n ↔ ¬ Cyclic E := by
  constructor
  · intro hl
    have hm := h.complete_iff.1 hl
    refine not_cyclic_of_order (n := n) (L := L) ⟨by simpa using h.nodup, hm, ?_⟩
    intro a b hab
    obtain ⟨ha, hb, he⟩ := (hE a b).1 hab
    exact h.topological hm ha hb he
  · intro hc
    by_contra hl
    rw [h.complete_iff] at hl
    push Not at hl
    obtain ⟨v, hv⟩ := hl
    have hlt : ∀ x ∈ L, x < n := by simpa using h.lt
    have hv' : v < n ∧ v ∉ L := by
      rcases hv with ⟨h1, h2⟩ | ⟨h1, h2⟩
      · exact absurd (hlt v h1) (by omega)
      · exact ⟨h2, h1⟩
    refine hc (cyclic_of_pred (n := n) (S := fun v => v < n ∧ v ∉ L) ?_ hv')
    rintro j ⟨hj, hjL⟩
    refine ⟨hj, ?_⟩
    have hne : indeg n e L j ≠ 0 := fun h0 => hjL (by simpa using (h.mem j hj).2 h0)
    have : ¬ ∀ i < n, e i j = true → i ∈ L := fun hh => hne (indeg_eq_zero.2 hh)
    push Not at this
    obtain ⟨i, hi, hij, hiL⟩ := this
    exact ⟨i, ⟨hi, hiL⟩, (hE i j).2 ⟨hi, hj, hij⟩⟩

end FastPGM
