import Verif.Model.ValueOrder
import Verif.Spec.ValueOrder
import Mathlib.Algebra.Order.Ring.Cast
import Mathlib.Algebra.Order.Ring.Rat
import Mathlib.Order.ConditionallyCompleteLattice.Basic
import Mathlib.Data.Int.ConditionallyCompleteOrder
import Mathlib.Tactic.Linarith

/-!
Property C123: the order of values that sets of values and configurations rely on.
-/

namespace FastPGM

open Spec

section order

variable {K : Type} [LinearOrder K] {conv : Int → K}

/-- The number that is compared with a `float`. -/
def valueKey (conv : Int → K) : MVal (Option K) → Option K
  | .int a => some (conv a)
  | .flt f => f

theorem valueLt_iff (hc : Monotone conv) {x y : MVal (Option K)} {k l : K} (hx : valueKey conv x = some k) (hy : valueKey conv y = some l) :
    valueLt conv x y = true ↔ k < l ∨ k = l ∧ ∃ a b, x = .int a ∧ y = .int b ∧ a < b := by
  cases x with
  | int a =>
    cases hx
    cases y with
    | int b =>
      cases hy
      simp only [valueLt, decide_eq_true_eq, MVal.int.injEq]
      constructor
      · intro h
        rcases (hc h.le).lt_or_eq with h' | h'
        · exact Or.inl h'
        · exact Or.inr ⟨h', a, b, rfl, rfl, h⟩
      · rintro (h | ⟨_, a', b', rfl, rfl, h⟩)
        · exact hc.reflect_lt h
        · exact h
    | flt f => cases hy; simp [valueLt, floatLt]
  | flt f =>
    cases hx
    cases y with
    | int b => cases hy; simp [valueLt, floatLt]
    | flt g => cases hy; simp [valueLt, floatLt]

theorem not_both_ints {x y : MVal (Option K)} {k : K} (hc : Monotone conv) (hx : valueKey conv x = some k) (hy : valueKey conv y = some k)
    (h1 : valueLt conv x y = false) (h2 : valueLt conv y x = false) : x = y ∨ (∃ f, x = .flt f) ∨ ∃ f, y = .flt f := by
  cases x with
  | flt f => exact Or.inr (Or.inl ⟨f, rfl⟩)
  | int a =>
    cases y with
    | flt f => exact Or.inr (Or.inr ⟨f, rfl⟩)
    | int b =>
      simp only [valueLt, decide_eq_false_iff_not] at h1 h2
      exact Or.inl (by congr 1; omega)

/-- C123.  On values that are not NaN the comparison is irreflexive and transitive; it is a strict weak order exactly if no two different
`int`s are converted to the same `float` that is among the values. -/
theorem C123_order (hc : Monotone conv) {S : MVal (Option K) → Prop} (hS : ∀ x, S x → x ≠ .flt none) :
    (∀ x, S x → valueLt conv x x = false) ∧
    (∀ x y z, S x → S y → S z → valueLt conv x y = true → valueLt conv y z = true → valueLt conv x z = true) ∧
    (StrictWeak (valueLt conv) S ↔
      ¬ ∃ a b f, S (.int a) ∧ S (.int b) ∧ S (.flt (some f)) ∧ a < b ∧ conv a = f ∧ conv b = f) := by
  have hk : ∀ x, S x → ∃ k, valueKey conv x = some k := by
    intro x hx
    cases x with
    | int a => exact ⟨_, rfl⟩
    | flt f =>
      cases f with
      | none => exact absurd rfl (hS _ hx)
      | some f => exact ⟨f, rfl⟩
  have hirr : ∀ x, S x → valueLt conv x x = false := by
    intro x hx
    obtain ⟨k, hk⟩ := hk x hx
    rw [Bool.eq_false_iff, ne_eq, valueLt_iff hc hk hk]
    rintro (h | ⟨_, a, b, h1, h2, h3⟩)
    · exact lt_irrefl _ h
    · rw [h1] at h2
      cases h2
      omega
  have htr : ∀ x y z, S x → S y → S z → valueLt conv x y = true → valueLt conv y z = true → valueLt conv x z = true := by
    intro x y z hx hy hz h1 h2
    obtain ⟨k, ek⟩ := hk x hx
    obtain ⟨l, el⟩ := hk y hy
    obtain ⟨m, em⟩ := hk z hz
    rw [valueLt_iff hc ek el] at h1
    rw [valueLt_iff hc el em] at h2
    rw [valueLt_iff hc ek em]
    rcases h1 with h1 | ⟨h1, a, b, e1, e2, h3⟩ <;> rcases h2 with h2 | ⟨h2, c, d, e3, e4, h4⟩
    · exact Or.inl (h1.trans h2)
    · exact Or.inl (h2 ▸ h1)
    · exact Or.inl (h1 ▸ h2)
    · refine Or.inr ⟨h1.trans h2, a, d, e1, e4, ?_⟩
      rw [e2] at e3
      cases e3
      omega
  refine ⟨hirr, htr, fun h => ?_, fun h => ⟨hirr, htr, ?_⟩⟩
  · rintro ⟨a, b, f, h1, h2, h3, h4, h5, h6⟩
    have := (h.incomparable (.int a) (.flt (some f)) (.int b) h1 h3 h2 (by simp [valueLt, floatLt, h5]) (by simp [valueLt, floatLt, h5])
      (by simp [valueLt, floatLt, h6]) (by simp [valueLt, floatLt, h6])).1
    simp only [valueLt, decide_eq_false_iff_not] at this
    exact this h4
  · intro x y z hx hy hz h1 h2 h3 h4
    obtain ⟨k, ek⟩ := hk x hx
    obtain ⟨l, el⟩ := hk y hy
    obtain ⟨m, em⟩ := hk z hz
    have hkl : k = l := by
      rw [Bool.eq_false_iff, ne_eq, valueLt_iff hc ek el] at h1
      rw [Bool.eq_false_iff, ne_eq, valueLt_iff hc el ek] at h2
      exact le_antisymm (not_lt.1 fun h => h2 (Or.inl h)) (not_lt.1 fun h => h1 (Or.inl h))
    have hlm : l = m := by
      rw [Bool.eq_false_iff, ne_eq, valueLt_iff hc el em] at h3
      rw [Bool.eq_false_iff, ne_eq, valueLt_iff hc em el] at h4
      exact le_antisymm (not_lt.1 fun h => h4 (Or.inl h)) (not_lt.1 fun h => h3 (Or.inl h))
    subst hkl
    subst hlm
    have key : ∀ {x z : MVal (Option K)}, S x → S z → valueKey conv x = some k → valueKey conv z = some k → valueLt conv x y = false →
        valueLt conv y x = false → valueLt conv y z = false → valueLt conv z y = false → valueLt conv x z = false := by
      intro x z hx hz ek em h1 h2 h3 h4
      rw [Bool.eq_false_iff, ne_eq, valueLt_iff hc ek em]
      rintro (g | ⟨_, a, b, e1, e2, g⟩)
      · exact lt_irrefl _ g
      · subst e1 e2
        cases y with
        | int c =>
          simp only [valueLt, decide_eq_false_iff_not] at h1 h2 h3 h4
          omega
        | flt f =>
          cases el
          exact h ⟨a, b, k, hx, hz, hy, g, by simpa [valueKey] using ek, by simpa [valueKey] using em⟩
    exact ⟨key hx hz ek em h1 h2 h3 h4, key hz hx em ek h4 h3 h2 h1⟩

/-- C123 (finding).  With a NaN among the values, any two values of which one is less than the other break the order. -/
theorem C123_nan {S : MVal (Option K) → Prop} {x y : MVal (Option K)} (hn : S (.flt none)) (hx : S x) (hy : S y)
    (h : valueLt conv x y = true) : ¬ StrictWeak (valueLt conv) S := by
  intro hw
  have h1 : ∀ z : MVal (Option K), valueLt conv z (.flt none) = false ∧ valueLt conv (.flt none) z = false := by
    intro z
    cases z with
    | int a => exact ⟨rfl, rfl⟩
    | flt f => cases f <;> exact ⟨rfl, rfl⟩
  have := (hw.incomparable x _ y hx hn hy (h1 x).1 (h1 x).2 (h1 y).2 (h1 y).1).1
  rw [h] at this
  cases this

/-- C123, configurations.  If all values of each variable are of one kind and none is NaN, then the order of the pairs is a strict total
order, so that a configuration keeps every pair exactly once. -/
theorem C123_configuration {S : Int × MVal (Option K) → Prop} (hS : ∀ x, S x → x.2 ≠ .flt none) (disc : Int → Prop)
    (hkind : ∀ x, S x → (disc x.1 ↔ ∃ a, x.2 = .int a)) :
    StrictWeak (varValLt conv) S ∧ ∀ x y, S x → S y → varValLt conv x y = false → varValLt conv y x = false → x = y := by
  -- values of one variable are compared as integers or as floats
  have hlt : ∀ x y, S x → S y → (varValLt conv x y = true ↔ x.1 < y.1 ∨ x.1 = y.1 ∧
      ((∃ a b, x.2 = .int a ∧ y.2 = .int b ∧ a < b) ∨ ∃ f g, x.2 = .flt (some f) ∧ y.2 = .flt (some g) ∧ f < g)) := by
    rintro ⟨v, x⟩ ⟨w, y⟩ hx hy
    have k1 := hkind _ hx
    have k2 := hkind _ hy
    have n1 := hS _ hx
    have n2 := hS _ hy
    simp only [varValLt, Bool.or_eq_true, Bool.and_eq_true, Bool.not_eq_true', decide_eq_true_eq, decide_eq_false_iff_not] at *
    by_cases e : v = w
    · subst e
      simp only [lt_irrefl, not_false_eq_true, true_and, false_or]
      cases x with
      | int a =>
        cases y with
        | int b => simp [valueLt]
        | flt g => exact absurd (k2.1 (k1.2 ⟨a, rfl⟩)) (by simp)
      | flt f =>
        cases y with
        | int b => exact absurd (k1.1 (k2.2 ⟨b, rfl⟩)) (by simp)
        | flt g =>
          cases f with
          | none => exact absurd rfl n1
          | some f =>
            cases g with
            | none => exact absurd rfl n2
            | some g => simp [valueLt, floatLt]
    · simp only [e, false_and, or_false]
      constructor
      · rintro (h | ⟨h, _⟩)
        · exact h
        · omega
      · exact Or.inl
  have htot : ∀ x y, S x → S y → varValLt conv x y = false → varValLt conv y x = false → x = y := by
    rintro ⟨v, x⟩ ⟨w, y⟩ hx hy h1 h2
    rw [Bool.eq_false_iff, ne_eq, hlt _ _ hx hy] at h1
    rw [Bool.eq_false_iff, ne_eq, hlt _ _ hy hx] at h2
    simp only [not_or, not_and] at h1 h2
    have e : v = w := by have := h1.1; have := h2.1; omega
    subst e
    have k1 := hkind _ hx
    have k2 := hkind _ hy
    have n1 := hS _ hx
    have n2 := hS _ hy
    have h1 := h1.2 rfl
    have h2 := h2.2 rfl
    cases x with
    | int a =>
      cases y with
      | int b =>
        have e1 : ¬ a < b := fun h => h1.1 ⟨a, b, rfl, rfl, h⟩
        have e2 : ¬ b < a := fun h => h2.1 ⟨b, a, rfl, rfl, h⟩
        rw [show a = b by omega]
      | flt g => exact absurd (k2.1 (k1.2 ⟨a, rfl⟩)) (by simp)
    | flt f =>
      cases y with
      | int b => exact absurd (k1.1 (k2.2 ⟨b, rfl⟩)) (by simp)
      | flt g =>
        cases f with
        | none => exact absurd rfl n1
        | some f =>
          cases g with
          | none => exact absurd rfl n2
          | some g =>
            have e1 : ¬ f < g := fun h => h1.2 ⟨f, g, rfl, rfl, h⟩
            have e2 : ¬ g < f := fun h => h2.2 ⟨g, f, rfl, rfl, h⟩
            rw [le_antisymm (not_lt.1 e2) (not_lt.1 e1)]
  have hirr : ∀ x, S x → varValLt conv x x = false := by
    intro x hx
    rw [Bool.eq_false_iff, ne_eq, hlt _ _ hx hx]
    rintro (h | ⟨_, ⟨a, b, h1, h2, h3⟩ | ⟨f, g, h1, h2, h3⟩⟩)
    · omega
    · rw [h1] at h2; cases h2; omega
    · rw [h1] at h2; cases h2; exact lt_irrefl _ h3
  refine ⟨⟨hirr, ?_, ?_⟩, htot⟩
  · intro x y z hx hy hz h1 h2
    rw [hlt _ _ hx hy] at h1
    rw [hlt _ _ hy hz] at h2
    rw [hlt _ _ hx hz]
    rcases h1 with h1 | ⟨h1, h1'⟩ <;> rcases h2 with h2 | ⟨h2, h2'⟩
    · exact Or.inl (by omega)
    · exact Or.inl (by omega)
    · exact Or.inl (by omega)
    · refine Or.inr ⟨by omega, ?_⟩
      rcases h1' with ⟨a, b, e1, e2, h3⟩ | ⟨a, b, e1, e2, h3⟩ <;> rcases h2' with ⟨c, d, e3, e4, h4⟩ | ⟨c, d, e3, e4, h4⟩
      · rw [e2] at e3; cases e3; exact Or.inl ⟨a, d, e1, e4, by omega⟩
      · rw [e2] at e3; cases e3
      · rw [e2] at e3; cases e3
      · rw [e2] at e3; cases e3; exact Or.inr ⟨a, d, e1, e4, h3.trans h4⟩
  · intro x y z hx hy hz h1 h2 h3 h4
    have e1 := htot x y hx hy h1 h2
    have e2 := htot y z hy hz h3 h4
    subst e1 e2
    exact ⟨hirr _ hx, hirr _ hx⟩

end order

section conversion

variable {K : Type} [Ring K] [LinearOrder K] [IsStrictOrderedRing K] {conv : Int → K}

/-- C123.  Values whose integers have at most 24 bits are strictly weakly ordered. -/
theorem C123_small (hc : Conversion conv) {S : MVal (Option K) → Prop} (hS : ∀ x, S x → x ≠ .flt none)
    (hsmall : ∀ a, S (.int a) → -2 ^ 24 ≤ a ∧ a ≤ 2 ^ 24) : StrictWeak (valueLt conv) S := by
  refine ((C123_order hc.mono hS).2.2).2 ?_
  rintro ⟨a, b, f, h1, h2, -, h4, h5, h6⟩
  rw [hc.exact a ⟨a, 0, (hsmall a h1).1, (hsmall a h1).2, by simp⟩] at h5
  rw [hc.exact b ⟨b, 0, (hsmall b h2).1, (hsmall b h2).2, by simp⟩, ← h5] at h6
  have := Int.cast_injective (α := K) h6
  omega

theorem not_floatInt : ¬ FloatInt (2 ^ 24 + 1) := by
  rintro ⟨m, e, h1, h2, h3⟩
  cases e with
  | zero => omega
  | succ e =>
    have h4 : m * 2 ^ (e + 1) = m * 2 ^ e * 2 := by rw [pow_succ, mul_assoc]
    rw [h4] at h3
    omega

/-- C123 (finding).  In every rounding mode the comparison is no strict weak order on the integers 2²⁴, 2²⁴ + 1, 2²⁴ + 2 and the `float`s
2²⁴ and 2²⁴ + 2. -/
theorem C123_rounding (hc : Conversion conv) : ¬ StrictWeak (valueLt conv) (fun x => x ∈
    [.int (2 ^ 24), .int (2 ^ 24 + 1), .int (2 ^ 24 + 2), .flt (some ((2 ^ 24 : Int) : K)), .flt (some ((2 ^ 24 + 2 : Int) : K))]) := by
  have h1 := hc.exact (2 ^ 24) ⟨2 ^ 24, 0, by omega, by omega, by omega⟩
  have h2 := hc.exact (2 ^ 24 + 2) ⟨2 ^ 23 + 1, 1, by omega, by omega, by omega⟩
  have m1 := hc.mono (show (2 ^ 24 : Int) ≤ 2 ^ 24 + 1 by omega)
  have m2 := hc.mono (show (2 ^ 24 + 1 : Int) ≤ 2 ^ 24 + 2 by omega)
  obtain ⟨j, hj, e⟩ := hc.float (2 ^ 24 + 1)
  rw [h1, e, Int.cast_le] at m1
  rw [h2, e, Int.cast_le] at m2
  have hne : j ≠ 2 ^ 24 + 1 := fun h => not_floatInt (h ▸ hj)
  rw [(C123_order hc.mono (by simp)).2.2, not_not]
  have hj' : j = 2 ^ 24 ∨ j = 2 ^ 24 + 2 := by omega
  rcases hj' with rfl | rfl
  · exact ⟨2 ^ 24, 2 ^ 24 + 1, _, by simp, by simp, List.mem_cons_of_mem _ (List.mem_cons_of_mem _ (List.mem_cons_of_mem _ (List.mem_cons_self ..))),
      by omega, h1, e⟩
  · exact ⟨2 ^ 24 + 1, 2 ^ 24 + 2, _, by simp, by simp,
      List.mem_cons_of_mem _ (List.mem_cons_of_mem _ (List.mem_cons_of_mem _ (List.mem_cons_of_mem _ (List.mem_cons_self ..)))), by omega, e, h2⟩

end conversion

/-! Rounding downwards is such a conversion. -/

/-- The greatest `float` that is at most `i`. -/
noncomputable def roundDown (i : Int) : Int := sSup {j | FloatInt j ∧ j ≤ i}

theorem roundDown_mem (i : Int) : FloatInt (roundDown i) ∧ roundDown i ≤ i := by
  refine Int.csSup_mem (s := {j | FloatInt j ∧ j ≤ i}) ⟨-2 ^ i.natAbs, ⟨-1, i.natAbs, by omega, by omega, by omega⟩, ?_⟩ ⟨i, fun j hj => hj.2⟩
  have h1 : i.natAbs < 2 ^ i.natAbs := Nat.lt_two_pow_self
  have h2 : ((i.natAbs : Int)) < 2 ^ i.natAbs := by exact_mod_cast h1
  omega

theorem le_roundDown {i j : Int} (hj : FloatInt j) (h : j ≤ i) : j ≤ roundDown i := le_csSup ⟨i, fun _ hk => hk.2⟩ ⟨hj, h⟩

example : Conversion (fun i => ((roundDown i : Int) : ℚ)) := by
  refine ⟨fun i j h => ?_, fun i hi => ?_, fun i => ⟨roundDown i, (roundDown_mem i).1, rfl⟩⟩
  · exact_mod_cast le_roundDown (roundDown_mem i).1 ((roundDown_mem i).2.trans h)
  · exact_mod_cast le_antisymm (roundDown_mem i).2 (le_roundDown hi le_rfl)

example : valueLt (fun i : Int => (i : ℚ)) (.int 3) (.flt (some (7 / 2))) = true ∧ valueLt (fun i : Int => (i : ℚ)) (.flt (some (7 / 2))) (.int 4) = true ∧
    varValLt (fun i : Int => (i : ℚ)) (1, .int 9) (2, .int 0) = true := by decide +kernel

end FastPGM
