import Verif.Props.ChoiceGenerator
import Verif.Spec.Skeleton
import Verif.Lemmas.StdSet
import Mathlib.Data.List.Sort

/-!
Lemmas about the skeleton phase: the conditioning sets an edge goes through.
-/

namespace FastPGM

open Spec

/-! ### The generator after `k` choices -/

/-- `gen` is a generator for the sequence `L` after `k` calls of `Next`. -/
def GenAt (L : List (List Int)) (gen : ChoiceGen) (k : Nat) : Prop :=
  ∃ g0 : ChoiceGen, (∀ m, ∃ g', g0.nextN m = .ok (L.take m ++ List.replicate (m - L.length) [], g')) ∧ ∃ r, g0.nextN k = .ok (r, gen)

theorem genAt_next {L : List (List Int)} {gen : ChoiceGen} {k : Nat} (h : GenAt L gen k) (m : Nat) :
    ∃ gen', gen.nextN m = .ok ((L.drop k).take m ++ List.replicate (m - (L.drop k).length) [], gen') ∧ GenAt L gen' (k + m) := by
  obtain ⟨g0, hall, r, hr⟩ := h
  obtain ⟨g1, h1⟩ := hall (k + m)
  obtain ⟨g2, h2⟩ := hall k
  have hrk : r = L.take k ++ List.replicate (k - L.length) [] := by
    rw [hr] at h2
    exact (Prod.mk.injEq _ _ _ _ ▸ Except.ok.inj h2).1
  have hadd := C11_nextN_add g0 k m
  rw [h1, hr] at hadd
  simp only [ok_bind] at hadd
  cases hn : gen.nextN m with
  | error e => rw [hn] at hadd; cases hadd
  | ok p =>
    obtain ⟨ys, gen'⟩ := p
    rw [hn] at hadd
    have hadd := Except.ok.inj hadd
    rw [Prod.mk.injEq] at hadd
    simp only at hadd
    refine ⟨gen', ?_, g0, hall, L.take (k + m) ++ List.replicate (k + m - L.length) [], ?_⟩
    · congr 2
      have h3 := hadd.1
      rw [hrk, List.append_assoc] at h3
      by_cases hk : k ≤ L.length
      · rw [Nat.sub_eq_zero_of_le hk, List.replicate_zero, List.nil_append, List.take_add] at h3
        rw [List.append_assoc] at h3
        have := List.append_cancel_left h3
        rw [← this, List.length_drop]
        congr 2
        omega
      · rw [List.take_of_length_le (by omega), List.take_of_length_le (by omega)] at h3
        have := List.append_cancel_left h3
        rw [show k + m - L.length = (k - L.length) + m by omega, List.replicate_add] at this
        have := List.append_cancel_left this
        rw [← this, List.drop_eq_nil_of_le (by omega)]
        simp
    · exact h1.trans (by rw [hadd.2])

theorem eq_of_sorted {L L' : List (List Int)} (h : L.Pairwise (· < ·)) (h' : L'.Pairwise (· < ·)) (hm : ∀ c, c ∈ L ↔ c ∈ L') : L = L' := by
  have n1 : L.Nodup := h.imp (fun hab => ne_of_lt hab)
  have n2 : L'.Nodup := h'.imp (fun hab => ne_of_lt hab)
  exact ((List.perm_ext_iff_of_nodup n1 n2).2 hm).eq_of_pairwise (le := (· < ·)) (fun a b _ _ h1 h2 => absurd (lt_trans h1 h2) (lt_irrefl _)) h h'

theorem genAt_init {a b : Int} (hb : 1 ≤ b) (hab : b ≤ a) :
    ∃ g, choiceGenerator a b = .ok g ∧ GenAt (allChoices (a - b) 0 0 b.toNat) g 0 := by
  obtain ⟨g, hg, L, hs, hm, hn⟩ := C11_choices a b hb hab
  have hL : L = allChoices (a - b) 0 0 b.toNat := by
    apply eq_of_sorted hs (allChoices_sorted _ _ _ _)
    intro c
    rw [hm, mem_allChoices, validAt_iff]
    constructor
    · rintro ⟨h1, h2, h3⟩
      refine ⟨by omega, h2, fun x hx => ?_⟩
      have := h3 x hx
      push_cast
      omega
    · rintro ⟨h1, h2, h3⟩
      refine ⟨by omega, h2, fun x hx => ?_⟩
      have := h3 x hx
      push_cast at this
      omega
  subst hL
  exact ⟨g, hg, g, hn, [], rfl⟩

/-! ### The conditioning sets -/

/-- The conditioning sets of size `d` drawn from the increasing list `l`, in the order in which they are tested. -/
def combos (l : List Nat) (d : Nat) : List (List Nat) :=
  (allChoices ((l.length : Int) - d) 0 0 d).map (fun c => c.map (fun i => l.getD i.toNat 0))

theorem mem_choices {n d : Nat} {c : List Int} :
    c ∈ allChoices ((n : Int) - d) 0 0 d ↔ c.length = d ∧ c.Pairwise (· < ·) ∧ ∀ x ∈ c, 0 ≤ x ∧ x < n := by
  rw [mem_allChoices, validAt_iff]
  constructor
  · rintro ⟨h1, h2, h3⟩
    refine ⟨h1, h2, fun x hx => ?_⟩
    have := h3 x hx
    push_cast at this
    omega
  · rintro ⟨h1, h2, h3⟩
    refine ⟨h1, h2, fun x hx => ?_⟩
    have := h3 x hx
    push_cast
    omega

theorem pickSet_ok {l : List Nat} {c : List Int} {d : Nat} (hl : c.length = d) (hr : ∀ x ∈ c, 0 ≤ x ∧ x < (l.length : Int)) :
    pickSet l c d = .ok (c.map (fun i => l.getD i.toNat 0)) := by
  unfold pickSet
  rw [mapM_ok (g := fun j => l.getD (c.getD j 0).toNat 0)]
  · congr 1
    apply List.ext_getElem?
    intro j
    by_cases hj : j < d
    · simp [hj, hl]
    · rw [List.getElem?_eq_none (by simpa using hj), List.getElem?_eq_none (by simp; omega)]
  · intro j hj
    have hj' : j < c.length := by rw [hl]; simpa using hj
    rw [rd_getElem hj', ok_bind]
    have hx := hr c[j] (List.getElem_mem hj')
    rw [if_neg (by omega), rd_ok]
    have : c[j].toNat < l.length := by omega
    simp [hj', this]

theorem mem_combos {l : List Nat} (hs : l.Pairwise (· < ·)) {d : Nat} {S : List Nat} :
    S ∈ combos l d ↔ S.Pairwise (· < ·) ∧ S.length = d ∧ ∀ z ∈ S, z ∈ l := by
  unfold combos
  rw [List.mem_map]
  constructor
  · rintro ⟨c, hc, rfl⟩
    obtain ⟨h1, h2, h3⟩ := mem_choices.1 hc
    refine ⟨?_, by simpa using h1, ?_⟩
    · rw [List.pairwise_map]
      refine h2.imp_of_mem ?_
      intro a b ha hb hab
      have ha' := h3 a ha
      have hb' := h3 b hb
      have h1 : a.toNat < l.length := by omega
      have h2 : b.toNat < l.length := by omega
      simp only [List.getD_eq_getElem?_getD, List.getElem?_eq_getElem h1, List.getElem?_eq_getElem h2, Option.getD_some]
      exact List.pairwise_iff_getElem.1 hs _ _ h1 h2 (by omega)
    · intro z hz
      obtain ⟨i, hi, rfl⟩ := List.mem_map.1 hz
      have := h3 i hi
      have h1 : i.toNat < l.length := by omega
      simp only [List.getD_eq_getElem?_getD, List.getElem?_eq_getElem h1, Option.getD_some]
      exact List.getElem_mem h1
  · rintro ⟨h1, h2, h3⟩
    refine ⟨S.map (fun z => (l.idxOf z : Int)), mem_choices.2 ⟨by simpa using h2, ?_, ?_⟩, ?_⟩
    · rw [List.pairwise_map]
      refine h1.imp_of_mem ?_
      intro a b ha hb hab
      have hia : l.idxOf a < l.length := List.idxOf_lt_length_iff.2 (h3 a ha)
      have hib : l.idxOf b < l.length := List.idxOf_lt_length_iff.2 (h3 b hb)
      by_contra hcon
      have hle : l.idxOf b ≤ l.idxOf a := by omega
      have ea : l[l.idxOf a] = a := List.getElem_idxOf hia
      have eb : l[l.idxOf b] = b := List.getElem_idxOf hib
      rcases Nat.eq_or_lt_of_le hle with h | h
      · simp only [h] at eb
        omega
      · have := List.pairwise_iff_getElem.1 hs _ _ hib hia h
        omega
    · intro x hx
      obtain ⟨z, hz, rfl⟩ := List.mem_map.1 hx
      have := List.idxOf_lt_length_iff.2 (h3 z hz)
      omega
    · rw [List.map_map]
      conv_rhs => rw [← List.map_id S]
      apply List.map_congr_left
      intro z hz
      have h1 := List.idxOf_lt_length_iff.2 (h3 z hz)
      simp [h1]

theorem combos_short {l : List Nat} (hs : l.Pairwise (· < ·)) {d : Nat} (h : l.length < d) : combos l d = [] := by
  rw [List.eq_nil_iff_forall_not_mem]
  intro S hS
  obtain ⟨h1, h2, h3⟩ := (mem_combos hs).1 hS
  have := (List.subperm_of_subset (nodup_of_sorted h1) h3).length_le
  omega

theorem sortedSet_eq {l : List Nat} (h : l.Pairwise (· < ·)) : sortedSet l = l := by
  have h1 := sortedSet_sorted l
  exact ((List.perm_ext_iff_of_nodup (nodup_of_sorted h1) (nodup_of_sorted h)).2 (fun _ => mem_sortedSet)).eq_of_pairwise
    (le := (· < ·)) (fun a b _ _ h1 h2 => absurd (lt_trans h1 h2) (lt_irrefl _)) h1 h

/-! ### One group of tests -/

/-- The choices for conditioning sets of size `d` from `l`. -/
def choicesOf (l : List Nat) (d : Nat) : List (List Int) := allChoices ((l.length : Int) - d) 0 0 d

theorem testing_eq {ci : CITest} {ind : Nat → Nat → List Nat → Bool} {n g d : Nat} (ha : Answers ci ind n g) (hg : 0 < g) (hd : 0 < d)
    {e : WorkEdge} (hxy : e.x < e.y) (hy : e.y < n) (hs : e.vecAdj.Pairwise (· < ·))
    (hr : ∀ z ∈ e.vecAdj, z < n ∧ z ≠ e.x ∧ z ≠ e.y) {gen : ChoiceGen} {k : Nat} (hcg : e.cg = some gen)
    (hgen : GenAt (choicesOf e.vecAdj d) gen k) :
    ∃ gen', GenAt (choicesOf e.vecAdj d) gen' (k + g) ∧ testing ci d g e = .ok
      (if (((combos e.vecAdj d).drop k).take g).any (ind e.x e.y) then
        (true, { e with cg := some gen' }, (((combos e.vecAdj d).drop k).take g).find? (ind e.x e.y))
      else (false, { e with cg := some gen', finish := decide ((((combos e.vecAdj d).drop k).take g).length ≠ g) }, none)) := by
  obtain ⟨gen', hn, hgen'⟩ := genAt_next hgen g
  refine ⟨gen', hgen', ?_⟩
  unfold testing
  rw [hcg]
  simp only
  rw [hn, ok_bind]
  simp only
  -- the choices of this group
  have hCmem : ∀ c ∈ ((choicesOf e.vecAdj d).drop k).take g, c.length = d ∧ ∀ x ∈ c, 0 ≤ x ∧ x < (e.vecAdj.length : Int) := by
    intro c hc
    have := mem_choices.1 (List.mem_of_mem_drop (List.mem_of_mem_take hc))
    exact ⟨this.1, this.2.2⟩
  have hgrp : ((combos e.vecAdj d).drop k).take g =
      (((choicesOf e.vecAdj d).drop k).take g).map (fun c => c.map (fun i => e.vecAdj.getD i.toNat 0)) := by
    rw [List.map_take, List.map_drop]; rfl
  have hgmem : ∀ s ∈ ((combos e.vecAdj d).drop k).take g, s.length = d ∧ s.Pairwise (· < ·) ∧ ∀ z ∈ s, z < n ∧ z ≠ e.x ∧ z ≠ e.y := by
    intro s hs'
    have := (mem_combos hs).1 (List.mem_of_mem_drop (List.mem_of_mem_take hs'))
    exact ⟨this.2.1, this.1, fun z hz => hr z (this.2.2 z hz)⟩
  have hlenC : (((choicesOf e.vecAdj d).drop k).take g).length + (g - ((choicesOf e.vecAdj d).drop k).length) = g := by
    rw [List.length_take]; omega
  rw [hgrp] at hgmem ⊢
  generalize ((choicesOf e.vecAdj d).drop k).take g = C at hCmem hlenC hgmem ⊢
  generalize g - ((choicesOf e.vecAdj d).drop k).length = r at hlenC ⊢
  have htw : (C ++ List.replicate r []).takeWhile (fun c => decide (c ≠ [])) = C := by
    have hC : ∀ c ∈ C, decide (c ≠ []) = true := by
      intro c hc
      have := (hCmem c hc).1
      have : c ≠ [] := by rintro rfl; simp at this; omega
      simpa using this
    rw [List.takeWhile_append_of_pos hC]
    cases r with
    | zero => simp
    | succ r => simp [List.replicate_succ]
  rw [htw]
  by_cases hC0 : C = []
  · subst hC0
    have hr0 : r = g := by simpa using hlenC
    subst hr0
    rw [List.nil_append, rd_ok (a := []) (by simp [hg]), ok_bind, if_neg (by simp), if_neg (by simp)]
    show Except.ok _ = Except.ok _
    simp only [List.map_nil, List.length_nil]
    rw [show decide (0 ≠ r) = true by simpa using (by omega : ¬ 0 = r)]
  · obtain ⟨c0, C', rfl⟩ := List.exists_cons_of_ne_nil hC0
    have hc0 : c0 ≠ [] := by
      have := (hCmem c0 (by simp)).1
      rintro rfl; simp at this; omega
    rw [rd_ok (a := c0) (by simp), ok_bind, if_pos hc0]
    rw [mapM_ok (g := fun c => c.map (fun i => e.vecAdj.getD i.toNat 0)) (fun c hc => pickSet_ok (hCmem c hc).1 (hCmem c hc).2), ok_bind]
    obtain ⟨f, hf, hfirst⟩ := ha.group e.x e.y d ((c0 :: C').map (fun c => c.map (fun i => e.vecAdj.getD i.toNat 0))) hxy hy hd
      (by simp) (by simp only [List.length_map]; omega) hgmem
    rw [List.length_map] at hf
    rw [hf, ok_bind]
    simp only
    split
    · rename_i hany
      rw [hfirst hany]
      simp only
      have hlt := List.findIdx_lt_length_of_exists (List.any_eq_true.1 hany)
      have hlt' : ((c0 :: C').map (fun c => c.map (fun i => e.vecAdj.getD i.toNat 0))).findIdx (ind e.x e.y) < (c0 :: C').length := by
        simpa using hlt
      have hmem := List.getElem_mem hlt'
      rw [rd_ok (a := (c0 :: C')[((c0 :: C').map (fun c => c.map (fun i => e.vecAdj.getD i.toNat 0))).findIdx (ind e.x e.y)])
        (by rw [List.getElem?_append_left hlt', List.getElem?_eq_getElem hlt']), ok_bind, pickSet_ok (hCmem _ hmem).1 (hCmem _ hmem).2, ok_bind]
      show Except.ok _ = Except.ok _
      have hget : ((c0 :: C').map (fun c => c.map (fun i => e.vecAdj.getD i.toNat 0)))[((c0 :: C').map (fun c => c.map (fun i => e.vecAdj.getD i.toNat 0))).findIdx (ind e.x e.y)] =
        ((c0 :: C')[((c0 :: C').map (fun c => c.map (fun i => e.vecAdj.getD i.toNat 0))).findIdx (ind e.x e.y)]).map (fun i => e.vecAdj.getD i.toNat 0) := by
        rw [List.getElem_map]
      rw [← hget, sortedSet_eq (hgmem _ (List.getElem_mem hlt)).2.1]
      congr 3
      rw [List.find?_eq_getElem?_findIdx, List.getElem?_eq_getElem hlt]
    · show Except.ok _ = Except.ok _
      rw [List.length_map]

end FastPGM
