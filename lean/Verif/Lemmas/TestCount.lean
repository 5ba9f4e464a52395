import Verif.Spec.TestCount
import Verif.Lemmas.SkeletonThreads3
import Mathlib.Data.Nat.Choose.Basic

/-!
The number of tests: the conditioning sets of an edge, group by group.
-/

namespace FastPGM

open Spec

/-! ### Subsets -/

theorem mem_subsetsOf {d : Nat} {l : List Nat} (hs : l.Pairwise (· < ·)) {S : List Nat} :
    S ∈ subsetsOf d l ↔ S.Pairwise (· < ·) ∧ S.length = d ∧ ∀ z ∈ S, z ∈ l := by
  induction l generalizing d S with
  | nil =>
    cases d with
    | zero =>
      simp only [subsetsOf, List.mem_singleton]
      constructor
      · rintro rfl; simp
      · exact fun h => List.length_eq_zero_iff.1 h.2.1
    | succ d =>
      simp only [subsetsOf, List.not_mem_nil, false_iff]
      rintro ⟨-, h2, h3⟩
      cases S with
      | nil => simp at h2
      | cons a S => exact absurd (h3 a (by simp)) (by simp)
  | cons a l ih =>
    obtain ⟨ha, hl⟩ := List.pairwise_cons.1 hs
    cases d with
    | zero =>
      simp only [subsetsOf, List.mem_singleton]
      constructor
      · rintro rfl; simp
      · exact fun h => List.length_eq_zero_iff.1 h.2.1
    | succ d =>
      simp only [subsetsOf, List.mem_append, List.mem_map, ih hl]
      constructor
      · rintro (⟨T, ⟨h1, h2, h3⟩, rfl⟩ | ⟨h1, h2, h3⟩)
        · refine ⟨List.pairwise_cons.2 ⟨fun z hz => ha z (h3 z hz), h1⟩, by simp [h2], ?_⟩
          intro z hz
          rcases List.mem_cons.1 hz with rfl | hz
          · simp
          · exact List.mem_cons_of_mem _ (h3 z hz)
        · exact ⟨h1, h2, fun z hz => List.mem_cons_of_mem _ (h3 z hz)⟩
      · rintro ⟨h1, h2, h3⟩
        cases S with
        | nil => simp at h2
        | cons b T =>
          obtain ⟨hb, hT⟩ := List.pairwise_cons.1 h1
          by_cases hab : b = a
          · subst hab
            refine Or.inl ⟨T, ⟨hT, by simpa using h2, fun z hz => ?_⟩, rfl⟩
            rcases List.mem_cons.1 (h3 z (by simp [hz])) with rfl | h
            · exact absurd (hb z hz) (lt_irrefl _)
            · exact h
          · have hbl : b ∈ l := (List.mem_cons.1 (h3 b (by simp))).resolve_left hab
            refine Or.inr ⟨h1, h2, fun z hz => ?_⟩
            rcases List.mem_cons.1 hz with rfl | hz
            · exact hbl
            · rcases List.mem_cons.1 (h3 z (by simp [hz])) with rfl | h
              · have := hb z hz
                have := ha b hbl
                omega
              · exact h

theorem subsetsOf_sorted {d : Nat} {l : List Nat} (hs : l.Pairwise (· < ·)) : (subsetsOf d l).Pairwise (· < ·) := by
  induction l generalizing d with
  | nil => cases d <;> simp [subsetsOf]
  | cons a l ih =>
    obtain ⟨ha, hl⟩ := List.pairwise_cons.1 hs
    cases d with
    | zero => simp [subsetsOf]
    | succ d =>
      simp only [subsetsOf]
      rw [List.pairwise_append]
      refine ⟨?_, ih hl, ?_⟩
      · rw [List.pairwise_map]
        exact (ih hl).imp (fun h => List.Lex.cons h)
      · intro S hS T hT
        obtain ⟨S, -, rfl⟩ := List.mem_map.1 hS
        obtain ⟨h1, h2, h3⟩ := (mem_subsetsOf hl).1 hT
        cases T with
        | nil => simp at h2
        | cons b T => exact List.Lex.rel (ha b (h3 b (by simp)))

theorem subsetsOf_length (d : Nat) (l : List Nat) : (subsetsOf d l).length = l.length.choose d := by
  induction l generalizing d with
  | nil => cases d <;> simp [subsetsOf]
  | cons a l ih =>
    cases d with
    | zero => simp [subsetsOf]
    | succ d => simp [subsetsOf, ih, Nat.choose_succ_succ]

theorem lex_map {f : Int → Nat} {c c' : List Int} (h : c < c') (hf : ∀ a ∈ c, ∀ b ∈ c', a < b → f a < f b) : c.map f < c'.map f := by
  induction h with
  | nil => exact List.Lex.nil
  | rel h => exact List.Lex.rel (hf _ (by simp) _ (by simp) h)
  | cons h ih => exact List.Lex.cons (ih (fun a ha b hb => hf a (by simp [ha]) b (by simp [hb])))

theorem combos_eq {d : Nat} {l : List Nat} (hs : l.Pairwise (· < ·)) : combos l d = subsetsOf d l := by
  have h1 : (combos l d).Pairwise (· < ·) := by
    unfold combos
    rw [List.pairwise_map]
    refine (allChoices_sorted _ _ _ _).imp_of_mem ?_
    intro c c' hc hc' hlt
    refine lex_map hlt ?_
    intro a ha b hb hab
    have ha' := (mem_choices.1 hc).2.2 a ha
    have hb' := (mem_choices.1 hc').2.2 b hb
    have e1 : a.toNat < l.length := by omega
    have e2 : b.toNat < l.length := by omega
    simp only [List.getD_eq_getElem?_getD, List.getElem?_eq_getElem e1, List.getElem?_eq_getElem e2, Option.getD_some]
    exact List.pairwise_iff_getElem.1 hs _ _ e1 e2 (by omega)
  have h2 := subsetsOf_sorted (d := d) hs
  have n1 : (combos l d).Nodup := h1.imp (fun hab => ne_of_lt hab)
  have n2 : (subsetsOf d l).Nodup := h2.imp (fun hab => ne_of_lt hab)
  exact ((List.perm_ext_iff_of_nodup n1 n2).2 (fun S => by rw [mem_combos hs, mem_subsetsOf hs])).eq_of_pairwise
    (le := (· < ·)) (fun a b _ _ h1 h2 => absurd (lt_trans h1 h2) (lt_irrefl _)) h1 h2

/-! ### Groups -/

theorem tested_nil (g : Nat) (p : List Nat → Bool) : tested g p [] = 0 := rfl

theorem tested_step {g : Nat} (hg : 0 < g) (p : List Nat → Bool) (l : List (List Nat)) :
    tested g p l = (l.take g).length + if (l.take g).any p then 0 else tested g p (l.drop g) := by
  have split : List.range l.length = List.range (min g l.length) ++ (List.range (l.length - g)).map (fun j => g + j) := by
    rcases Nat.le_total g l.length with h | h
    · rw [Nat.min_eq_left h]
      conv_lhs => rw [show l.length = g + (l.length - g) by omega, List.range_add]
    · rw [Nat.min_eq_right h, Nat.sub_eq_zero_of_le h]
      simp
  have first : (List.range (min g l.length)).filter (fun i => !(l.take (i / g * g)).any p) = List.range (min g l.length) := by
    rw [List.filter_eq_self]
    intro i hi
    have : i < g := by have := List.mem_range.1 hi; omega
    rw [Nat.div_eq_of_lt this]
    simp
  have key : ∀ j, (l.take ((g + j) / g * g)).any p = ((l.take g).any p || ((l.drop g).take (j / g * g)).any p) := by
    intro j
    rw [Nat.add_div_left _ hg, Nat.succ_mul, Nat.add_comm (j / g * g) g, List.take_add, List.any_append]
  unfold tested
  rw [split, List.filter_append, List.length_append, first, List.length_range, List.length_take, List.filter_map, List.length_map]
  congr 1
  simp only [Function.comp_def, key]
  cases h : (l.take g).any p with
  | true => simp
  | false => simp

theorem tested_le (g : Nat) (p : List Nat → Bool) (l : List (List Nat)) : tested g p l ≤ l.length := by
  unfold tested
  refine (List.length_filter_le _ _).trans ?_
  rw [List.length_range]

end FastPGM
