import Verif.Spec.Rounding
import Verif.Lemmas.Parametric
import Mathlib.Tactic.Ring
import Mathlib.Tactic.FieldSimp

/-!
Exact numbers that carry a bound for the error a machine arithmetic can have made when it computes them.
-/

namespace FastPGM

open Spec

variable {K : Type}

/-- An exact number, with the number of roundings (as factors) a machine may have made to compute it, and bounds for the numbers other than 0
that occurred on the way. -/
@[ext] structure Tracked (K : Type) where
  val : K
  err : Nat
  lo : K
  hi : K
  deriving DecidableEq

namespace Tracked

variable [Field K] [LinearOrder K]

instance : Zero (Tracked K) := ⟨⟨0, 0, 1, 1⟩⟩

instance : One (Tracked K) := ⟨⟨1, 0, 1, 1⟩⟩

/-- The result `z` of an operation. -/
def result (z : K) (e : Nat) (x y : Tracked K) : Tracked K :=
  if z = 0 then 0 else ⟨z, e + 1, min z (min x.lo y.lo), max z (max x.hi y.hi)⟩

instance : Add (Tracked K) := ⟨fun x y => result (x.val + y.val) (max x.err y.err) x y⟩

instance : Mul (Tracked K) := ⟨fun x y => result (x.val * y.val) (x.err + y.err) x y⟩

instance : Div (Tracked K) := ⟨fun x y => result (x.val / y.val) (x.err + y.err) x y⟩

/-- A number of the input, rounded once. -/
def ofInput (x : K) : Tracked K := if x = 0 then 0 else ⟨x, 1, min x 1, max x 1⟩

theorem add_def (x y : Tracked K) : x + y = result (x.val + y.val) (max x.err y.err) x y := rfl

theorem mul_def (x y : Tracked K) : x * y = result (x.val * y.val) (x.err + y.err) x y := rfl

theorem div_def (x y : Tracked K) : x / y = result (x.val / y.val) (x.err + y.err) x y := rfl

theorem result_val (z : K) (e : Nat) (x y : Tracked K) : (result z e x y).val = z := by
  unfold result
  split
  · rename_i h; exact h.symm
  · rfl

theorem result_norm (z : K) (e : Nat) (x y : Tracked K) (h : (result z e x y).val = 0) : result z e x y = 0 := by
  rw [result_val] at h
  unfold result
  rw [if_pos h]

theorem ofInput_val (x : K) : (ofInput x).val = x := by
  unfold ofInput
  split
  · rename_i h; exact h.symm
  · rfl

end Tracked

/-- The tables with their numbers tracked. -/
def Table.track [Field K] [LinearOrder K] (T : Table K) : Table (Tracked K) := ⟨T.vars, T.dims, T.cum, T.size, T.pot.map Tracked.ofInput⟩

variable [Field K] [LinearOrder K]

/-- The number without its error bound. -/
def ExactRel (x : Tracked K) (y : K) : Prop := x.val = y ∧ (x.val = 0 → x = 0)

theorem exactRel_ops : OpsRel (ExactRel (K := K)) where
  zero := ⟨rfl, fun _ => rfl⟩
  one := ⟨rfl, fun h => absurd h one_ne_zero⟩
  add := by
    rintro a _ b _ ⟨rfl, _⟩ ⟨rfl, _⟩
    exact ⟨Tracked.result_val .., Tracked.result_norm _ _ _ _⟩
  mul := by
    rintro a _ b _ ⟨rfl, _⟩ ⟨rfl, _⟩
    exact ⟨Tracked.result_val .., Tracked.result_norm _ _ _ _⟩
  div := by
    rintro a _ b _ ⟨rfl, _⟩ ⟨rfl, _⟩ _
    exact ⟨Tracked.result_val .., Tracked.result_norm _ _ _ _⟩
  eq_zero := by
    rintro a _ ⟨rfl, h⟩
    exact ⟨fun e => e ▸ rfl, h⟩

theorem exactRel_track (T : Table K) : TableRel ExactRel T.track T := by
  refine ⟨rfl, rfl, rfl, rfl, ?_⟩
  show List.Forall₂ _ (T.pot.map _) T.pot
  rw [List.forall₂_map_left_iff, List.forall₂_same]
  intro x _
  refine ⟨Tracked.ofInput_val x, fun h => ?_⟩
  rw [Tracked.ofInput_val] at h
  simp [Tracked.ofInput, h]

variable [IsStrictOrderedRing K] {ar : Arithmetic K} {ρ lo hi : K}

/-- The machine number `y` is as close to `x` as `x` says. -/
structure RoundRel (ρ lo hi : K) (x : Tracked K) (y : Rounded ar) : Prop where
  norm : x.val = 0 → x = 0
  zero : x.val = 0 → y = (some 0 : Option K)
  nonneg : 0 ≤ x.val
  lo_pos : 0 < x.lo
  lo_le : x.val ≠ 0 → x.lo ≤ x.val
  le_hi : x.val ≤ x.hi
  hi_pos : 0 < x.hi
  close : ∀ v, y = (some v : Option K) → v ≤ x.val * ρ ^ x.err ∧ x.val ≤ v * ρ ^ x.err
  isSome : lo * ρ ^ x.err ≤ x.lo → x.hi * ρ ^ x.err ≤ hi → y ≠ (none : Option K)

theorem roundRel_zero : RoundRel (ar := ar) ρ lo hi 0 (some 0 : Option K) where
  norm := fun _ => rfl
  zero := fun _ => rfl
  nonneg := le_refl (0 : K)
  lo_pos := zero_lt_one (α := K)
  lo_le := fun h => absurd rfl h
  le_hi := zero_le_one (α := K)
  hi_pos := zero_lt_one (α := K)
  close := by
    intro v h
    cases h
    show (0 : K) ≤ 0 * ρ ^ 0 ∧ 0 ≤ 0 * ρ ^ 0
    simp
  isSome := fun _ _ h => by cases h

omit [IsStrictOrderedRing K] in
theorem RoundRel.ne_zero {x : Tracked K} {y : Rounded ar} (h : RoundRel ρ lo hi x y) (_hρ : 0 < ρ) (hx : x.val ≠ 0) : y ≠ (some 0 : Option K) := by
  intro e
  have := (h.close 0 e).2
  rw [zero_mul] at this
  exact hx (le_antisymm this h.nonneg)

theorem RoundRel.some_nonneg {x : Tracked K} {v : K} (h : RoundRel (ar := ar) ρ lo hi x (some v : Option K)) (hρ : 0 < ρ) : 0 ≤ v := by
  have h1 := (h.close v rfl).2
  have h2 := h.nonneg.trans h1
  exact nonneg_of_mul_nonneg_left h2 (pow_pos hρ _)

/-- The result of an operation. -/
theorem roundRel_result {x y : Tracked K} {a b : Rounded ar} (hx : RoundRel ρ lo hi x a) (hy : RoundRel ρ lo hi y b) (hρ : 1 ≤ ρ)
    (hlo : 0 ≤ lo) {z : K} (hz : 0 ≤ z) {e : Nat} (hex : x.err ≤ e) (hey : y.err ≤ e) {o : Rounded ar}
    (hz0 : z = 0 → o = (some 0 : Option K)) (hn : z ≠ 0 → a = (none : Option K) ∨ b = (none : Option K) → o = (none : Option K))
    (h : z ≠ 0 → ∀ u v, a = (some u : Option K) → b = (some v : Option K) → ∃ w, RoundsTo ρ lo hi o w ∧ w ≤ z * ρ ^ e ∧ z ≤ w * ρ ^ e) :
    RoundRel ρ lo hi (Tracked.result z e x y) o := by
  by_cases hzz : z = 0
  · rw [hz0 hzz]
    unfold Tracked.result
    rw [if_pos hzz]
    exact roundRel_zero
  have hρ0 : 0 < ρ := lt_of_lt_of_le zero_lt_one hρ
  have hzpos : 0 < z := lt_of_le_of_ne hz (Ne.symm hzz)
  have hpe : ρ ^ e ≤ ρ ^ (e + 1) := pow_le_pow_right₀ hρ (Nat.le_succ e)
  have hl : 0 < min z (min x.lo y.lo) := lt_min hzpos (lt_min hx.lo_pos hy.lo_pos)
  have hh : 0 < max z (max x.hi y.hi) := lt_of_lt_of_le hzpos (le_max_left _ _)
  unfold Tracked.result
  rw [if_neg hzz]
  refine ⟨fun e => absurd e hzz, fun e => absurd e hzz, hz, hl, fun _ => min_le_left _ _, le_max_left _ _, hh, ?_, ?_⟩
  · intro r hr
    show r ≤ z * ρ ^ (e + 1) ∧ z ≤ r * ρ ^ (e + 1)
    cases a with
    | none => exact absurd ((hn hzz (Or.inl rfl)).symm.trans hr) (by simp)
    | some u => cases b with
      | none => exact absurd ((hn hzz (Or.inr rfl)).symm.trans hr) (by simp)
      | some v =>
        obtain ⟨w, h1, h2, h3⟩ := h hzz u v rfl rfl
        obtain ⟨h4, h5⟩ := h1.1 r hr
        rw [pow_succ]
        constructor
        · calc r ≤ w * ρ := h4
            _ ≤ (z * ρ ^ e) * ρ := mul_le_mul_of_nonneg_right h2 hρ0.le
            _ = _ := mul_assoc _ _ _
        · calc z ≤ w * ρ ^ e := h3
            _ ≤ (r * ρ) * ρ ^ e := mul_le_mul_of_nonneg_right h5 (pow_pos hρ0 e).le
            _ = _ := by ring
  · intro g1 g2
    change lo * ρ ^ (e + 1) ≤ min z (min x.lo y.lo) at g1
    change max z (max x.hi y.hi) * ρ ^ (e + 1) ≤ hi at g2
    have key : ∀ t : Tracked K, t.err ≤ e → min z (min x.lo y.lo) ≤ t.lo → t.hi ≤ max z (max x.hi y.hi) → 0 < t.hi →
        lo * ρ ^ t.err ≤ t.lo ∧ t.hi * ρ ^ t.err ≤ hi := by
      intro t ht h1 h2 h3
      have hp : ρ ^ t.err ≤ ρ ^ (e + 1) := pow_le_pow_right₀ hρ (by omega)
      exact ⟨(mul_le_mul_of_nonneg_left hp hlo).trans (g1.trans h1),
        (mul_le_mul h2 hp (pow_pos hρ0 _).le hh.le).trans g2⟩
    obtain ⟨kx1, kx2⟩ := key x hex ((min_le_right _ _).trans (min_le_left _ _)) ((le_max_left _ _).trans (le_max_right _ _)) hx.hi_pos
    obtain ⟨ky1, ky2⟩ := key y hey ((min_le_right _ _).trans (min_le_right _ _)) ((le_max_right _ _).trans (le_max_right _ _)) hy.hi_pos
    cases a with
    | none => exact absurd rfl (hx.isSome kx1 kx2)
    | some u => cases b with
      | none => exact absurd rfl (hy.isSome ky1 ky2)
      | some v =>
        obtain ⟨w, h1, h2, h3⟩ := h hzz u v rfl rfl
        refine h1.2 (Or.inr ⟨?_, ?_⟩)
        · have : lo * ρ ^ e ≤ w * ρ ^ e :=
            (mul_le_mul_of_nonneg_left hpe hlo).trans (g1.trans ((min_le_left _ _).trans h3))
          exact le_of_mul_le_mul_right this (pow_pos hρ0 e)
        · calc w ≤ z * ρ ^ e := h2
            _ ≤ max z (max x.hi y.hi) * ρ ^ (e + 1) := mul_le_mul (le_max_left _ _) hpe (pow_pos hρ0 e).le hh.le
            _ ≤ hi := g2

omit [IsStrictOrderedRing K] in
theorem rounded_mul_zero {a b : Rounded ar} (h : a = (some 0 : Option K) ∨ b = (some 0 : Option K)) : a * b = (some 0 : Option K) := if_pos h

omit [IsStrictOrderedRing K] in
theorem rounded_mul {a b : Rounded ar} (h : ¬ (a = (some 0 : Option K) ∨ b = (some 0 : Option K))) :
    a * b = Option.bind a (fun u => Option.bind b (fun v => ar.mul u v)) := if_neg h

omit [IsStrictOrderedRing K] in
theorem rounded_div_zero {a b : Rounded ar} (h : a = (some 0 : Option K)) : a / b = (some 0 : Option K) := if_pos h

omit [IsStrictOrderedRing K] in
theorem rounded_div {a b : Rounded ar} (h : ¬ a = (some 0 : Option K)) :
    a / b = Option.bind a (fun u => Option.bind b (fun v => ar.div u v)) := if_neg h

theorem roundRel_ops (hρ : 1 ≤ ρ) (hlo : 0 ≤ lo) (har : Accurate ar ρ lo hi) : OpsRel (RoundRel (ar := ar) ρ lo hi) where
  zero := roundRel_zero
  one := by
    refine ⟨fun h => absurd h one_ne_zero, fun h => absurd h one_ne_zero, zero_le_one (α := K), zero_lt_one (α := K), fun _ => le_refl (1 : K),
      le_refl (1 : K), zero_lt_one (α := K), ?_, fun _ _ h => by cases h⟩
    intro v h
    cases h
    show (1 : K) ≤ 1 * ρ ^ 0 ∧ 1 ≤ 1 * ρ ^ 0
    simp
  add := by
    intro x a y b hx hy
    have hρ0 : 0 < ρ := lt_of_lt_of_le zero_lt_one hρ
    rw [Tracked.add_def]
    refine roundRel_result hx hy hρ hlo (add_nonneg hx.nonneg hy.nonneg) (le_max_left _ _) (le_max_right _ _) ?_ ?_ ?_
    · intro h
      have h1 : x.val = 0 := le_antisymm (by rw [← h]; exact le_add_of_nonneg_right hy.nonneg) hx.nonneg
      have h2 : y.val = 0 := le_antisymm (by rw [← h]; exact le_add_of_nonneg_left hx.nonneg) hy.nonneg
      rw [hx.zero h1, hy.zero h2]
      show ar.add 0 0 = _
      obtain ⟨h3, h4⟩ := har.add 0 0 le_rfl le_rfl
      cases e : ar.add 0 0 with
      | none => exact absurd e (h4 (Or.inl (add_zero 0)))
      | some r =>
        obtain ⟨h5, h6⟩ := h3 r e
        rw [add_zero, zero_mul] at h5
        rw [add_zero] at h6
        have : 0 ≤ r := nonneg_of_mul_nonneg_left h6 hρ0
        rw [le_antisymm h5 this]
    · rintro _ (rfl | rfl)
      · rfl
      · cases a <;> rfl
    · rintro _ u v rfl rfl
      obtain ⟨h1, h2⟩ := hx.close u rfl
      obtain ⟨h3, h4⟩ := hy.close v rfl
      have hu := hx.some_nonneg hρ0
      have hv := hy.some_nonneg hρ0
      have p1 : ρ ^ x.err ≤ ρ ^ max x.err y.err := pow_le_pow_right₀ hρ (le_max_left _ _)
      have p2 : ρ ^ y.err ≤ ρ ^ max x.err y.err := pow_le_pow_right₀ hρ (le_max_right _ _)
      refine ⟨u + v, har.add u v hu hv, ?_, ?_⟩
      · rw [add_mul]
        exact add_le_add (h1.trans (mul_le_mul_of_nonneg_left p1 hx.nonneg)) (h3.trans (mul_le_mul_of_nonneg_left p2 hy.nonneg))
      · rw [add_mul]
        exact add_le_add (h2.trans (mul_le_mul_of_nonneg_left p1 hu)) (h4.trans (mul_le_mul_of_nonneg_left p2 hv))
  mul := by
    intro x a y b hx hy
    have hρ0 : 0 < ρ := lt_of_lt_of_le zero_lt_one hρ
    rw [Tracked.mul_def]
    refine roundRel_result hx hy hρ hlo (mul_nonneg hx.nonneg hy.nonneg) (Nat.le_add_right _ _) (Nat.le_add_left _ _) ?_ ?_ ?_
    · intro h
      rcases mul_eq_zero.1 h with h1 | h1
      · exact rounded_mul_zero (Or.inl (hx.zero h1))
      · exact rounded_mul_zero (Or.inr (hy.zero h1))
    · intro hz h
      have h1 := hx.ne_zero hρ0 (left_ne_zero_of_mul hz)
      have h2 := hy.ne_zero hρ0 (right_ne_zero_of_mul hz)
      rw [rounded_mul (not_or.2 ⟨h1, h2⟩)]
      rcases h with rfl | rfl
      · rfl
      · cases a <;> rfl
    · rintro hz u v rfl rfl
      have n1 := hx.ne_zero hρ0 (left_ne_zero_of_mul hz)
      have n2 := hy.ne_zero hρ0 (right_ne_zero_of_mul hz)
      rw [rounded_mul (not_or.2 ⟨n1, n2⟩)]
      obtain ⟨h1, h2⟩ := hx.close u rfl
      obtain ⟨h3, h4⟩ := hy.close v rfl
      have hu := hx.some_nonneg hρ0
      have hv := hy.some_nonneg hρ0
      refine ⟨u * v, har.mul u v hu hv, ?_, ?_⟩
      · refine (mul_le_mul h1 h3 hv (mul_nonneg hx.nonneg (pow_pos hρ0 _).le)).trans (le_of_eq ?_)
        rw [pow_add]; ring
      · refine (mul_le_mul h2 h4 hy.nonneg (mul_nonneg hu (pow_pos hρ0 _).le)).trans (le_of_eq ?_)
        rw [pow_add]; ring
  div := by
    intro x a y b hx hy hy0
    have hρ0 : 0 < ρ := lt_of_lt_of_le zero_lt_one hρ
    have hyv : y.val ≠ 0 := fun h => hy0 (hy.norm h)
    have hyp : 0 < y.val := lt_of_le_of_ne hy.nonneg (Ne.symm hyv)
    rw [Tracked.div_def]
    refine roundRel_result hx hy hρ hlo (div_nonneg hx.nonneg hy.nonneg) (Nat.le_add_right _ _) (Nat.le_add_left _ _) ?_ ?_ ?_
    · intro h
      rcases div_eq_zero_iff.1 h with h1 | h1
      · exact rounded_div_zero (hx.zero h1)
      · exact absurd h1 hyv
    · intro hz h
      have h1 := hx.ne_zero hρ0 (fun e => hz (by rw [e, zero_div]))
      rw [rounded_div h1]
      rcases h with rfl | rfl
      · rfl
      · cases a <;> rfl
    · intro hz u v ea eb
      have n1 := hx.ne_zero hρ0 (fun e => hz (by rw [e, zero_div]))
      rw [rounded_div n1]
      subst ea
      subst eb
      obtain ⟨h1, h2⟩ := hx.close u rfl
      obtain ⟨h3, h4⟩ := hy.close v rfl
      have hu := hx.some_nonneg hρ0
      have hv : 0 < v := by
        refine lt_of_le_of_ne (hy.some_nonneg hρ0) (fun e => hy.ne_zero hρ0 hyv ?_)
        rw [← e]
      refine ⟨u / v, har.div u v hu hv, ?_, ?_⟩
      · rw [div_mul_eq_mul_div, div_le_div_iff₀ hv hyp, pow_add]
        calc u * y.val ≤ (x.val * ρ ^ x.err) * (v * ρ ^ y.err) := mul_le_mul h1 h4 hy.nonneg (mul_nonneg hx.nonneg (pow_pos hρ0 _).le)
          _ = _ := by ring
      · rw [div_mul_eq_mul_div, div_le_div_iff₀ hyp hv, pow_add]
        calc x.val * v ≤ (u * ρ ^ x.err) * (y.val * ρ ^ y.err) := mul_le_mul h2 h3 hv.le (mul_nonneg hu (pow_pos hρ0 _).le)
          _ = _ := by ring
  eq_zero := by
    intro x a h
    constructor
    · rintro rfl
      exact h.zero rfl
    · intro e
      apply h.norm
      by_contra hx
      have := (h.close 0 e).2
      rw [zero_mul] at this
      exact hx (le_antisymm this h.nonneg)

theorem roundRel_input {x : K} (hx : 0 ≤ x) (hρ : 1 ≤ ρ) {y : Rounded ar} (h : StandsFor ρ x y) : RoundRel ρ lo hi (Tracked.ofInput x) y := by
  obtain ⟨v, rfl, h1, h2⟩ := h
  have hρ0 : 0 < ρ := lt_of_lt_of_le zero_lt_one hρ
  unfold Tracked.ofInput
  split
  · rename_i e
    subst e
    rw [zero_mul] at h1
    have := nonneg_of_mul_nonneg_left h2 hρ0
    rw [le_antisymm h1 this]
    exact roundRel_zero
  · rename_i e
    have hp : 0 < x := lt_of_le_of_ne hx (Ne.symm e)
    refine ⟨fun h => absurd h e, fun h => absurd h e, hx, lt_min hp zero_lt_one, fun _ => min_le_left _ _, le_max_left _ _,
      lt_of_lt_of_le hp (le_max_left _ _), ?_, fun _ _ h => by cases h⟩
    intro w hw
    cases hw
    show v ≤ x * ρ ^ 1 ∧ x ≤ v * ρ ^ 1
    rw [pow_one]
    exact ⟨h1, h2⟩

theorem roundRel_tables {pts : List (Table K)} (hnn : ∀ T ∈ pts, ∀ x ∈ T.pot, 0 ≤ x) (hρ : 1 ≤ ρ) {pts' : List (Table (Rounded ar))}
    (h : StandForTables ρ pts pts') : List.Forall₂ (TableRel (RoundRel (ar := ar) ρ lo hi)) (pts.map Table.track) pts' := by
  unfold StandForTables at h
  rw [List.forall₂_map_left_iff]
  induction h with
  | nil => exact List.Forall₂.nil
  | cons hT _ ih =>
    rename_i T T' l l' _
    refine List.Forall₂.cons ?_ (ih (fun T hT => hnn T (List.mem_cons_of_mem _ hT)))
    obtain ⟨h1, h2, h3, h4, h5⟩ := hT
    refine ⟨h1, h2, h3, h4, ?_⟩
    show List.Forall₂ _ (T.pot.map _) T'.pot
    rw [List.forall₂_map_left_iff]
    have hn := hnn T List.mem_cons_self
    clear ih
    generalize T.pot = p at h5 hn
    generalize T'.pot = p' at h5
    induction h5 with
    | nil => exact List.Forall₂.nil
    | cons hx _ ih =>
      exact List.Forall₂.cons (roundRel_input (hn _ List.mem_cons_self) hρ hx) (ih (fun x hx => hn x (List.mem_cons_of_mem _ hx)))

end FastPGM
