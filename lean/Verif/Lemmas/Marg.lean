import Verif.Lemmas.Table3
import Mathlib.Algebra.BigOperators.Ring.Finset
import Mathlib.Algebra.Order.BigOperators.Group.Finset
import Mathlib.Algebra.Order.BigOperators.Ring.Finset
import Mathlib.Algebra.Order.Field.Basic
import Mathlib.Tactic.FieldSimp
import Mathlib.Tactic.Ring

/-!
Sums over the values of variables: order, factors, positivity; marginals of a function.
-/

namespace FastPGM

open Spec

variable {K : Type}

/-! ### Sums -/

theorem sumOut_append_eq [AddCommMonoid K] {card : Nat → Nat} (us vs : List Nat) (f : Assignment → K) (a : Assignment) :
    sumOut card (us ++ vs) f a = sumOut card us (sumOut card vs f) a := by
  induction us generalizing a with
  | nil => rfl
  | cons u us ih =>
    simp only [List.cons_append, sumOut]
    exact Finset.sum_congr rfl (fun x _ => ih _)

theorem sumOut_perm_eq [AddCommMonoid K] {card : Nat → Nat} {us vs : List Nat} (h : us.Perm vs) (f : Assignment → K) (a : Assignment) :
    sumOut card us f a = sumOut card vs f a := by
  induction h generalizing a with
  | nil => rfl
  | cons x _ ih =>
    simp only [sumOut]
    exact Finset.sum_congr rfl (fun y _ => ih _)
  | swap x y l =>
    by_cases hxy : x = y
    · subst hxy; rfl
    · simp only [sumOut]
      rw [Finset.sum_comm]
      refine Finset.sum_congr rfl (fun i _ => Finset.sum_congr rfl (fun j _ => ?_))
      rw [set_set_comm (Ne.symm hxy)]
  | trans _ _ ih1 ih2 => rw [ih1, ih2]

/-- A factor that does not depend on the summed variables. -/
theorem sumOut_mul [CommSemiring K] {card : Nat → Nat} {us ws : List Nat} {f g : Assignment → K} (hg : DependsOn g ws)
    (h : ∀ u ∈ us, u ∉ ws) (a : Assignment) : sumOut card us (fun b => f b * g b) a = sumOut card us f a * g a := by
  induction us generalizing a with
  | nil => rfl
  | cons u us ih =>
    simp only [sumOut]
    rw [Finset.sum_mul]
    refine Finset.sum_congr rfl (fun x _ => ?_)
    rw [ih (fun u hu => h u (by simp [hu]))]
    congr 1
    apply hg
    intro v hv
    unfold Assignment.set
    rw [if_neg]
    rintro rfl
    exact h v (by simp) hv

theorem sumOut_const_mul [CommSemiring K] {card : Nat → Nat} {us : List Nat} {f : Assignment → K} (c : K) (a : Assignment) :
    sumOut card us (fun b => c * f b) a = c * sumOut card us f a := by
  induction us generalizing a with
  | nil => rfl
  | cons u us ih =>
    simp only [sumOut]
    rw [Finset.mul_sum]
    exact Finset.sum_congr rfl (fun x _ => ih _)

theorem sumOut_nonneg [Field K] [LinearOrder K] [IsStrictOrderedRing K] {card : Nat → Nat} {us : List Nat} {f : Assignment → K}
    (h : ∀ a, 0 ≤ f a) (a : Assignment) : 0 ≤ sumOut card us f a := by
  induction us generalizing a with
  | nil => exact h a
  | cons u us ih =>
    simp only [sumOut]
    exact Finset.sum_nonneg (fun x _ => ih _)

/-- A sum of non-negative terms that is zero has only zero terms. -/
theorem sumOut_eq_zero [Field K] [LinearOrder K] [IsStrictOrderedRing K] {card : Nat → Nat} {us : List Nat} {f : Assignment → K}
    (h : ∀ a, 0 ≤ f a) {a b : Assignment} (hz : sumOut card us f a = 0) (hb : InRange card us b) (hab : ∀ v, v ∉ us → b v = a v) :
    f b = 0 := by
  induction us generalizing a with
  | nil =>
    have : b = a := funext fun v => hab v (by simp)
    rw [this]; exact hz
  | cons u us ih =>
    simp only [sumOut] at hz
    have := (Finset.sum_eq_zero_iff_of_nonneg (fun x _ => sumOut_nonneg h _)).1 hz (b u) (Finset.mem_range.2 (hb u (by simp)))
    refine ih this (fun v hv => hb v (by simp [hv])) (fun v hv => ?_)
    unfold Assignment.set
    by_cases hvu : v = u
    · simp [hvu]
    · rw [if_neg hvu]
      exact hab v (by simp [hvu, hv])

/-- Functions that agree on legal assignments have the same sums at legal assignments. -/
theorem sumOut_congr_range [AddCommMonoid K] {card : Nat → Nat} {V us : List Nat} {f g : Assignment → K}
    (h : ∀ b, InRange card V b → f b = g b) {a : Assignment} (ha : InRange card V a) : sumOut card us f a = sumOut card us g a := by
  apply sumOut_congr
  intro b hb hb'
  apply h
  intro v hv
  by_cases hvu : v ∈ us
  · exact hb v hvu
  · rw [hb' v hvu]; exact ha v hv

theorem DependsOn.mul [Mul K] {f g : Assignment → K} {vs : List Nat} (hf : DependsOn f vs) (hg : DependsOn g vs) :
    DependsOn (fun a => f a * g a) vs := fun a b h => by
  show f a * g a = f b * g b
  rw [hf a b h, hg a b h]

theorem DependsOn.finprod [CommMonoid K] {ι : Type} {s : Finset ι} {F : ι → Assignment → K} {vs : List Nat}
    (h : ∀ i ∈ s, DependsOn (F i) vs) : DependsOn (fun a => ∏ i ∈ s, F i a) vs := fun a b hab =>
  Finset.prod_congr rfl (fun i hi => h i hi a b hab)

/-! ### Marginals -/

open Classical in
/-- The marginal of `J` on the variables with `U`: all other variables of `V` are summed out. -/
noncomputable def marg [AddCommMonoid K] (card : Nat → Nat) (V : List Nat) (U : Nat → Prop) (J : Assignment → K) : Assignment → K :=
  sumOut card (V.filter (fun v => ¬ U v)) J

theorem marg_congr [AddCommMonoid K] {card : Nat → Nat} {V : List Nat} {U U' : Nat → Prop} (h : ∀ v ∈ V, (U v ↔ U' v)) (J : Assignment → K) :
    marg card V U J = marg card V U' J := by
  unfold marg
  congr 1
  apply List.filter_congr
  intro v hv
  simp [h v hv]

/-- Marginalising in two steps.  `E` lists the variables that are in `U` but not in `U'`. -/
theorem marg_marg [AddCommMonoid K] {card : Nat → Nat} {V : List Nat} (hV : V.Nodup) {U U' : Nat → Prop} {E : List Nat} (hE : E.Nodup)
    (hmem : ∀ v, v ∈ E ↔ v ∈ V ∧ U v ∧ ¬ U' v) (hsub : ∀ v, U' v → U v) (J : Assignment → K) (a : Assignment) :
    marg card V U' J a = sumOut card E (marg card V U J) a := by
  classical
  unfold marg
  rw [← sumOut_append_eq]
  apply sumOut_perm_eq
  rw [List.perm_ext_iff_of_nodup (hV.filter _)]
  · intro v
    simp only [List.mem_filter, List.mem_append, decide_eq_true_eq, hmem]
    constructor
    · rintro ⟨h1, h2⟩
      by_cases h3 : U v
      · exact Or.inl ⟨h1, h3, h2⟩
      · exact Or.inr ⟨h1, h3⟩
    · rintro (⟨h1, _, h2⟩ | ⟨h1, h2⟩)
      · exact ⟨h1, h2⟩
      · exact ⟨h1, fun h => h2 (hsub v h)⟩
  · rw [List.nodup_append]
    refine ⟨hE, hV.filter _, ?_⟩
    rintro v hv w hw rfl
    simp only [List.mem_filter, decide_eq_true_eq] at hw
    exact hw.2 ((hmem v).1 hv).2.1

end FastPGM
