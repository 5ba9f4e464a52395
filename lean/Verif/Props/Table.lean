import Verif.Lemmas.Table3
import Mathlib.Data.Rat.Defs
import Mathlib.Algebra.Field.Rat
import Mathlib.Algebra.Order.Ring.Unbundled.Rat
import Mathlib.Algebra.BigOperators.Field
import Mathlib.Tactic.NormNum

/-!
Properties C01–C09: potential tables.

`value T a` (Spec/Factor.lean) is the number the table `T` denotes at the assignment `a`; `WellFormed card T` says that the
bookkeeping fields of `T` agree with each other, `card v` being the number of values of variable `v`.
-/

namespace FastPGM

open Spec

variable {K : Type}

/-! Concrete data for the examples: variable 0 has 2 values, variable 1 has 3, variable 2 has 2. -/

def exCard : Nat → Nat := fun v => if v = 1 then 3 else 2

def exT : Table ℚ := ⟨[0, 1], [2, 3], [3, 1], 6, [1, 2, 3, 4, 5, 6]⟩

def exS : Table ℚ := ⟨[1], [3], [1], 3, [7, 0, 9]⟩

def exU : Table ℚ := ⟨[1, 0], [3, 2], [2, 1], 6, [1, 2, 3, 4, 5, 6]⟩

def exV : Table ℚ := ⟨[2, 1], [2, 3], [3, 1], 6, [1, 2, 3, 4, 5, 6]⟩

theorem exT_wf : WellFormed exCard exT := by constructor <;> decide
theorem exS_wf : WellFormed exCard exS := by constructor <;> decide
theorem exU_wf : WellFormed exCard exU := by constructor <;> decide
theorem exV_wf : WellFormed exCard exV := by constructor <;> decide

/-! ### C01 -/

/-- C01.  For positive dimensions the cumulative levels exist; index ↦ configuration ↦ index is the identity on indices below the
table size, configuration ↦ index ↦ configuration is the identity on in-range configurations, and indices stay below the size. -/
theorem C01_index_bijection (dims : List Nat) (hne : dims ≠ []) (hpos : ∀ d ∈ dims, 0 < d) :
    ∃ cum, constructCumLevels dims = .ok cum ∧
      firstProduct cum dims = .ok dims.prod ∧
      (∀ i < dims.prod, ∃ c, getConfig cum i = .ok c ∧ List.Forall₂ (· < ·) c dims ∧ getIndex c cum = i) ∧
      (∀ c, List.Forall₂ (· < ·) c dims → getIndex c cum < dims.prod ∧ getConfig cum (getIndex c cum) = .ok c) := by
  refine ⟨cumLevels dims, ?_, ?_, ?_, ?_⟩
  · unfold constructCumLevels; rw [if_neg hne]
  · cases dims with
    | nil => exact absurd rfl hne
    | cons d ds =>
      rw [cumLevels_cons, firstProduct, rd_ok (a := ds.prod) (by simp), ok_bind, rd_ok (a := d) (by simp), ok_bind,
        List.prod_cons, mul_comm]
      rfl
  · intro i hi
    exact ⟨digits dims i, getConfig_cumLevels hpos i, digits_in hi, by rw [getIndex_cumLevels, rank_digits hi]⟩
  · intro c hc
    rw [getIndex_cumLevels]
    exact ⟨rank_lt hc, by rw [getConfig_cumLevels hpos, digits_rank hc]⟩

example : ([2, 3, 4] : List Nat) ≠ [] ∧ (∀ d ∈ [2, 3, 4], 0 < d) ∧ 17 < [2, 3, 4].prod ∧
    List.Forall₂ (· < ·) [1, 1, 1] [2, 3, 4] := by
  refine ⟨by decide, by decide, by decide, ?_⟩
  repeat constructor

/-- C01, the index is the row-major position of the configuration. -/
theorem C01_row_major (dims c : List Nat) (hne : dims ≠ []) :
    ∃ cum, constructCumLevels dims = .ok cum ∧ getIndex c cum = rank dims c := by
  refine ⟨cumLevels dims, ?_, getIndex_cumLevels dims c⟩
  unfold constructCumLevels; rw [if_neg hne]

/-! ### C02 -/

/-- C02.  Reducing by the evidence `v = x`: the variable is gone, and the value at `a` is the old value at `a` with `v := x`, or 0 if
`x` is not a legal value of `v`. -/
theorem C02_reduction [Zero K] {card : Nat → Nat} {T : Table K} (hT : WellFormed card T) {v : Nat} (hv : v ∈ T.vars) (x : Nat) :
    ∃ T', tableReduction T v x = .ok T' ∧ WellFormed card T' ∧ T'.vars = T.vars.erase v ∧ v ∉ T'.vars ∧
      ∀ a, InRange card T'.vars a → value T' a = if x < card v then value T (a.set v x) else 0 := by
  have h := tableReduction_fromFn hT.nodup hT.pos hv (x := x) (value_dependsOn T)
  rw [← hT.eq_fromFn] at h
  have hsub : ∀ w ∈ T.vars.erase v, 0 < card w := fun w hw => hT.pos w (List.mem_of_mem_erase hw)
  refine ⟨_, h, fromFn_wf (hT.nodup.erase v) hsub _, rfl, hT.nodup.not_mem_erase, fun a ha => ?_⟩
  refine value_fromFn (hT.nodup.erase v) ?_ ha
  intro b c hbc
  split
  · apply value_dependsOn T
    intro w hw
    unfold Assignment.set
    split
    · rfl
    · rename_i hne
      exact hbc w ((List.mem_erase_of_ne hne).2 hw)
  · rfl

example : WellFormed exCard exT ∧ 1 ∈ exT.vars := ⟨exT_wf, by decide⟩

/-! ### C03 -/

/-- C03.  Marginalising to the variables `vs` (any order) sums the old table over all values of the dropped variables. -/
theorem C03_marginalization [AddCommMonoid K] {card : Nat → Nat} {T : Table K} (hT : WellFormed card T) {vs : List Nat}
    (hsub : ∀ v ∈ vs, v ∈ T.vars) (hn : vs.Nodup) :
    ∃ T', tableMarginalization T vs (vs.map card) = .ok T' ∧ WellFormed card T' ∧ T'.vars = vs ∧
      ∀ a, InRange card vs a → value T' a = sumOut card (T.vars.filter (fun v => v ∉ vs)) (value T) a := by
  have h := tableMarginalization_fromFn hT.nodup hT.pos hsub hn (value_dependsOn T)
  rw [← hT.eq_fromFn] at h
  refine ⟨_, h, fromFn_wf hn (fun v hv => hT.pos v (hsub v hv)) _, rfl, fun a ha => value_fromFn hn ?_ ha⟩
  refine sumOut_dep (value_dependsOn T) ?_
  intro v hv
  by_cases h : v ∈ vs
  · exact Or.inr h
  · exact Or.inl (by simp [hv, h])

/-- C03, one variable: both one-variable versions sum out exactly the given variable and agree with the general version. -/
theorem C03_marginalization_one [AddCommMonoid K] {card : Nat → Nat} {T : Table K} (hT : WellFormed card T) {v : Nat}
    (hv : v ∈ T.vars) :
    ∃ T', tableMarginalizationExt T v = .ok T' ∧ tableMarginalizationOneVariable T v = .ok T' ∧
      tableMarginalization T (T.vars.erase v) ((T.vars.erase v).map card) = .ok T' ∧
      WellFormed card T' ∧ T'.vars = T.vars.erase v ∧
      ∀ a, InRange card T'.vars a → value T' a = ∑ x ∈ Finset.range (card v), value T (a.set v x) := by
  have h1 := tableMarginalizationExt_fromFn hT.nodup hT.pos hv (value_dependsOn T)
  have h2 := tableMarginalizationOneVariable_fromFn hT.nodup hT.pos hv (value_dependsOn T)
  have h3 := tableMarginalization_fromFn hT.nodup hT.pos (fun w hw => List.mem_of_mem_erase hw) (hT.nodup.erase v)
    (value_dependsOn T)
  rw [← hT.eq_fromFn] at h1 h2 h3
  rw [filter_notMem_erase hT.nodup hv] at h3
  refine ⟨_, h1, h2, h3, fromFn_wf (hT.nodup.erase v) (fun w hw => hT.pos w (List.mem_of_mem_erase hw)) _, rfl, ?_⟩
  intro a ha
  refine value_fromFn (hT.nodup.erase v) (F := sumOut card [v] (value T)) ?_ ha
  refine sumOut_dep (value_dependsOn T) ?_
  intro w hw
  by_cases h : w = v
  · exact Or.inl (by simp [h])
  · exact Or.inr ((List.mem_erase_of_ne h).2 hw)

/-- C03, the version that keeps only the first variable. -/
theorem C03_marginalization_simplified [AddCommMonoid K] {card : Nat → Nat} {T : Table K} (hT : WellFormed card T) {v : Nat}
    {vs : List Nat} (hv : T.vars = v :: vs) :
    ∃ T', tableMarginalizationSimplified T = .ok T' ∧ WellFormed card T' ∧ T'.vars = [v] ∧
      ∀ a, a v < card v → value T' a = sumOut card vs (value T) a := by
  have hn := hT.nodup
  have hp := hT.pos
  have hd := value_dependsOn T
  have he := hT.eq_fromFn
  rw [hv] at hn hp hd he
  have h := tableMarginalizationSimplified_fromFn hn hp hd
  rw [← he] at h
  refine ⟨_, h, fromFn_wf (by simp) (fun w hw => hp w (by rw [List.mem_singleton.1 hw]; simp)) _, rfl, fun a ha => ?_⟩
  refine value_fromFn (by simp) (sumOut_dep hd ?_) (by simpa [InRange] using ha)
  intro w hw
  rcases List.mem_cons.1 hw with h | h
  · exact Or.inr (by simp [h])
  · exact Or.inl h

example : WellFormed exCard exT ∧ (∀ v ∈ [1], v ∈ exT.vars) ∧ ([1] : List Nat).Nodup ∧ exT.vars = 0 :: [1] :=
  ⟨exT_wf, by decide, by decide, rfl⟩

/-! ### C04 -/

/-- C04.  Extending a table to more variables does not change the number it denotes. -/
theorem C04_extension [Zero K] {card : Nat → Nat} {T : Table K} (hT : WellFormed card T) {vs : List Nat} (hne : vs ≠ [])
    (hn : vs.Nodup) (hp : ∀ v ∈ vs, 0 < card v) (hsub : ∀ v ∈ T.vars, v ∈ vs) :
    ∃ T', tableExtension T vs (vs.map card) = .ok T' ∧ WellFormed card T' ∧ T'.vars = vs ∧
      ∀ a, InRange card vs a → value T' a = value T a := by
  have h := tableExtension_fromFn hne hp hsub hT.nodup (value_dependsOn T)
  rw [← hT.eq_fromFn] at h
  exact ⟨_, h, fromFn_wf hn hp _, rfl, fun a ha =>
    value_fromFn hn (fun b c hbc => value_dependsOn T b c (fun v hv => hbc v (hsub v hv))) ha⟩

example : WellFormed exCard exT ∧ ([2, 1, 0] : List Nat).Nodup ∧ (∀ v ∈ [2, 1, 0], 0 < exCard v) ∧
    (∀ v ∈ exT.vars, v ∈ [2, 1, 0]) := ⟨exT_wf, by decide, by decide, by decide⟩

/-! ### C05 -/

/-- C05.  Reorganising to the variable order of a reference table keeps the factor. -/
theorem C05_reorganization [Zero K] {card : Nat → Nat} {T ref : Table K} (hT : WellFormed card T) (hR : WellFormed card ref)
    (hperm : T.vars.Perm ref.vars) :
    ∃ T', tableReorganization T ref = .ok T' ∧ WellFormed card T' ∧ T'.vars = ref.vars ∧
      ∀ a, InRange card T.vars a → value T' a = value T a := by
  have h := tableReorganization_fromFn hT.nodup hT.pos hperm (value_dependsOn T) (value ref)
  rw [← hT.eq_fromFn, ← hR.eq_fromFn] at h
  exact ⟨_, h, fromFn_wf hR.nodup hR.pos _, rfl, fun a ha =>
    value_fromFn hR.nodup (fun b c hbc => value_dependsOn T b c (fun v hv => hbc v (hperm.mem_iff.1 hv)))
      (fun v hv => ha v (hperm.mem_iff.2 hv))⟩

/-- C05, storage reorganisation: the variables of the upstream separator move to the end, in order; the factor is unchanged. -/
theorem C05_move_to_end [Zero K] {card : Nat → Nat} {T : Table K} (hT : WellFormed card T) (hne : T.vars ≠ [])
    {common : List Nat} (hs : common.Sublist T.vars) :
    ∃ T', tableMoveToEnd T common = .ok T' ∧ WellFormed card T' ∧
      T'.vars = T.vars.filter (fun v => v ∉ common) ++ common ∧
      ∀ a, InRange card T.vars a → value T' a = value T a := by
  have h := tableMoveToEnd_fromFn hT.nodup hne hT.pos hs (value_dependsOn T)
  rw [← hT.eq_fromFn] at h
  have hperm := filter_append_perm hT.nodup hs
  have hn := hperm.nodup_iff.1 hT.nodup
  exact ⟨_, h, fromFn_wf hn (fun v hv => hT.pos v (hperm.mem_iff.2 hv)) _, rfl, fun a ha =>
    value_fromFn hn (fun b c hbc => value_dependsOn T b c (fun v hv => hbc v (hperm.mem_iff.1 hv)))
      (fun v hv => ha v (hperm.mem_iff.2 hv))⟩

example : WellFormed exCard exT ∧ WellFormed exCard exU ∧ exT.vars.Perm exU.vars ∧ [0].Sublist exT.vars :=
  ⟨exT_wf, exU_wf, by decide, by decide⟩

/-! ### C06 -/

/-- C06.  Multiplying by a table over a subset of the variables is the pointwise product, for every order of the variables. -/
theorem C06_multiplication [MulZeroClass K] {card : Nat → Nat} {T S : Table K} (hT : WellFormed card T) (hS : WellFormed card S)
    (hsub : ∀ v ∈ S.vars, v ∈ T.vars) :
    ∃ T', tableMultiplication T S = .ok T' ∧ WellFormed card T' ∧ T'.vars = T.vars ∧
      ∀ a, InRange card T.vars a → value T' a = value T a * value S a := by
  have h := tableMultiplication_fromFn hT.nodup hT.pos hsub hS.nodup (F := value T) (value_dependsOn S)
  rw [← hT.eq_fromFn, ← hS.eq_fromFn] at h
  refine ⟨_, h, fromFn_wf hT.nodup hT.pos _, rfl, fun a ha => value_fromFn hT.nodup (fun b c hbc => ?_) ha⟩
  rw [value_dependsOn T b c hbc, value_dependsOn S b c (fun v hv => hbc v (hsub v hv))]

example : WellFormed exCard exT ∧ WellFormed exCard exS ∧ (∀ v ∈ exS.vars, v ∈ exT.vars) := ⟨exT_wf, exS_wf, by decide⟩
example : WellFormed exCard exT ∧ WellFormed exCard exU ∧ (∀ v ∈ exU.vars, v ∈ exT.vars) := ⟨exT_wf, exU_wf, by decide⟩

/-! ### C07 -/

/-- The full claim of C07: two-sided multiplication is the pointwise product of the two factors, over the union of the variables. -/
def C07_claim : Prop :=
  ∀ (card : Nat → Nat) (T S : Table ℚ), WellFormed card T → WellFormed card S →
    ∃ T' S', tableMultiplicationTwoExtension T S = .ok (T', S') ∧ (∀ v, v ∈ T'.vars ↔ v ∈ T.vars ∨ v ∈ S.vars) ∧
      ∀ a, InRange card T'.vars a → value T' a = value T a * value S a

/-- C07 fails: a table without variables times `S` gives `S` squared (missing `return` after line 914). -/
theorem C07_counterexample_empty : ¬ C07_claim := by
  intro h
  have hE : WellFormed exCard (⟨[], [], [], 1, [1]⟩ : Table ℚ) := by constructor <;> decide
  obtain ⟨T', S', he, _, hval⟩ := h exCard _ exS hE exS_wf
  have : tableMultiplicationTwoExtension (⟨[], [], [], 1, [1]⟩ : Table ℚ) exS =
      .ok (⟨[1], [3], [1], 3, [49, 0, 81]⟩, exS) := by decide +kernel
  rw [this] at he
  cases he
  have := hval (fun _ => 0) (by intro v _; unfold exCard; split <;> simp)
  revert this
  decide +kernel

/-- C07 fails also for two tables over the same variables listed in a different order: the entries are not aligned. -/
theorem C07_counterexample_order :
    ∃ T' S', tableMultiplicationTwoExtension exT exU = .ok (T', S') ∧ T'.vars = exT.vars ∧
      value T' (fun v => if v = 1 then 1 else 0) ≠
        value exT (fun v => if v = 1 then 1 else 0) * value exU (fun v => if v = 1 then 1 else 0) := by
  refine ⟨⟨[0, 1], [2, 3], [3, 1], 6, [1, 4, 9, 16, 25, 36]⟩, exU, ?_, rfl, ?_⟩
  · decide +kernel
  · decide +kernel

/-- C07, proved part: both tables have a variable, and they do not have the same variables in a different order.
Missing for the full claim: the two cases above, in which the code returns a wrong table. -/
theorem C07_two_extension_partial [MulZeroClass K] {card : Nat → Nat} {T S : Table K} (hT : WellFormed card T)
    (hS : WellFormed card S) (hTne : T.vars ≠ []) (hSne : S.vars ≠ []) (horder : ¬ (T.vars.Perm S.vars ∧ T.vars ≠ S.vars)) :
    ∃ T' S', tableMultiplicationTwoExtension T S = .ok (T', S') ∧ WellFormed card T' ∧
      (∀ v, v ∈ T'.vars ↔ v ∈ T.vars ∨ v ∈ S.vars) ∧
      ∀ a, InRange card T'.vars a → value T' a = value T a * value S a := by
  obtain ⟨us, S', h, hn, hmem⟩ := tableMultiplicationTwoExtension_fromFn hT.nodup hS.nodup hT.pos hS.pos hTne hSne horder
    (value_dependsOn T) (value_dependsOn S)
  rw [← hT.eq_fromFn, ← hS.eq_fromFn] at h
  refine ⟨_, S', h, fromFn_wf hn (fun v hv => ((hmem v).1 hv).elim (hT.pos v) (hS.pos v)) _, hmem, fun a ha =>
    value_fromFn hn (fun b c hbc => ?_) ha⟩
  rw [value_dependsOn T b c (fun v hv => hbc v ((hmem v).2 (Or.inl hv))),
    value_dependsOn S b c (fun v hv => hbc v ((hmem v).2 (Or.inr hv)))]

example : WellFormed exCard exT ∧ WellFormed exCard exV ∧ exT.vars ≠ [] ∧ exV.vars ≠ [] ∧
    ¬ (exT.vars.Perm exV.vars ∧ exT.vars ≠ exV.vars) := ⟨exT_wf, exV_wf, by decide, by decide, by decide⟩

/-- C07, multiplication by a one-variable table, for a first table that has the variable.  Missing: a first table without
variables, which is squared as above, and a first table that lacks the variable. -/
theorem C07_one_variable_partial [MulZeroClass K] {card : Nat → Nat} {T S : Table K} (hT : WellFormed card T)
    (hS : WellFormed card S) {v : Nat} (hSv : S.vars = [v]) (hv : v ∈ T.vars) :
    ∃ T', tableMultiplicationOneVariable T S = .ok T' ∧ WellFormed card T' ∧ T'.vars = T.vars ∧
      ∀ a, InRange card T.vars a → value T' a = value T a * value S a := by
  have he := hS.eq_fromFn
  have hd := value_dependsOn S
  rw [hSv] at he hd
  have h := tableMultiplicationOneVariable_fromFn hT.nodup hT.pos hv (F := value T) hd
  rw [← hT.eq_fromFn, ← he] at h
  refine ⟨_, h, fromFn_wf hT.nodup hT.pos _, rfl, fun a ha => value_fromFn hT.nodup (fun b c hbc => ?_) ha⟩
  rw [value_dependsOn T b c hbc, hd b c (fun w hw => hbc w (by simp at hw; exact hw ▸ hv))]

theorem C07_one_variable_counterexample :
    tableMultiplicationOneVariable (⟨[], [], [], 1, [1]⟩ : Table ℚ) exS = .ok ⟨[1], [3], [1], 3, [49, 0, 81]⟩ := by
  decide +kernel

example : WellFormed exCard exT ∧ WellFormed exCard exS ∧ exS.vars = [1] ∧ 1 ∈ exT.vars :=
  ⟨exT_wf, exS_wf, rfl, by decide⟩

/-! ### C08 -/

/-- C08.  Division is entrywise with `x / 0 = 0`. -/
theorem C08_division [Field K] [DecidableEq K] {card : Nat → Nat} {T S : Table K} (hT : WellFormed card T)
    (hS : WellFormed card S) (hv : S.vars = T.vars) :
    ∃ T', tableDivision T S = .ok T' ∧ WellFormed card T' ∧ T'.vars = T.vars ∧
      ∀ a, InRange card T.vars a → value T' a = if value S a = 0 then 0 else value T a / value S a := by
  have he := hS.eq_fromFn
  have hd := value_dependsOn S
  rw [hv] at he hd
  have h := tableDivision_fromFn (card := card) (vars := T.vars) (F := value T) (G := value S)
  rw [← hT.eq_fromFn, ← he] at h
  refine ⟨_, h, fromFn_wf hT.nodup hT.pos _, rfl, fun a ha => value_fromFn hT.nodup (fun b c hbc => ?_) ha⟩
  rw [value_dependsOn T b c hbc, hd b c hbc]

/-- C08.  Dividing the product by one factor gives back the other factor where the divisor is non-zero, and 0 elsewhere. -/
theorem C08_division_undoes_multiplication [Field K] [DecidableEq K] {card : Nat → Nat} {T S : Table K} (hT : WellFormed card T)
    (hS : WellFormed card S) (hv : S.vars = T.vars) :
    ∃ P Q, tableMultiplication T S = .ok P ∧ tableDivision P S = .ok Q ∧ Q.vars = T.vars ∧
      ∀ a, InRange card T.vars a → value Q a = if value S a = 0 then 0 else value T a := by
  obtain ⟨P, hP, hPw, hPv, hPval⟩ := C06_multiplication hT hS (fun v h => hv ▸ h)
  obtain ⟨Q, hQ, _, hQv, hQval⟩ := C08_division hPw hS (hv.trans hPv.symm)
  refine ⟨P, Q, hP, hQ, hQv.trans hPv, fun a ha => ?_⟩
  rw [hQval a (hPv ▸ ha), hPval a ha]
  split
  · rfl
  · rename_i h
    rw [mul_div_assoc, div_self h, mul_one]

example : WellFormed exCard exT ∧ WellFormed exCard exT ∧ exT.vars = exT.vars := ⟨exT_wf, exT_wf, rfl⟩

/-! ### C09 -/

theorem sumOut_div [Field K] {card : Nat → Nat} (vs : List Nat) (f : Assignment → K) (c : K) (a : Assignment) :
    sumOut card vs (fun b => f b / c) a = sumOut card vs f a / c := by
  induction vs generalizing a with
  | nil => rfl
  | cons v vs ih => simp only [sumOut, ih, Finset.sum_div]

/-- C09.  Normalising a table with non-zero total: every entry is divided by the total, and the entries sum to 1. -/
theorem C09_normalize [Field K] [DecidableEq K] {card : Nat → Nat} {T : Table K} (hT : WellFormed card T) (a0 : Assignment)
    (h0 : sumOut card T.vars (value T) a0 ≠ 0) :
    ∃ T', normalize T = .ok T' ∧ WellFormed card T' ∧ T'.vars = T.vars ∧
      (∀ a, InRange card T.vars a → value T' a = value T a / sumOut card T.vars (value T) a0) ∧
      sumOut card T'.vars (value T') a0 = 1 := by
  have h := normalize_fromFn hT.nodup (value_dependsOn T) a0 h0
  rw [← hT.eq_fromFn] at h
  have hval : ∀ a, InRange card T.vars a → value (fromFn card T.vars
      (fun a => value T a / sumOut card T.vars (value T) a0)) a = value T a / sumOut card T.vars (value T) a0 :=
    fun a ha => value_fromFn hT.nodup (fun b c hbc => by rw [value_dependsOn T b c hbc]) ha
  refine ⟨_, h, fromFn_wf hT.nodup hT.pos _, rfl, hval, ?_⟩
  show sumOut card T.vars _ a0 = 1
  rw [sumOut_congr (g := fun a => value T a / sumOut card T.vars (value T) a0) (fun b hb _ => hval b hb), sumOut_div,
    div_self h0]

/-- C09.  A table with total 0 gives NaN entries. -/
theorem C09_normalize_zero [Field K] [DecidableEq K] {card : Nat → Nat} {T : Table K} (hT : WellFormed card T) (a0 : Assignment)
    (h0 : sumOut card T.vars (value T) a0 = 0) : normalize T = .error .nan := by
  have h := normalize_zero hT.nodup hT.pos (value_dependsOn T) a0 h0
  rwa [← hT.eq_fromFn] at h

/-- C09.  Column normalisation: columns (fixed values of all variables but the first) with positive total are divided by it and
then sum to 1; the other columns do not change. -/
theorem C09_normalizeCPT [Field K] [LinearOrder K] {card : Nat → Nat} {T : Table K} (hT : WellFormed card T)
    {v : Nat} {vs : List Nat} (hv : T.vars = v :: vs) :
    ∃ T', normalizeCPT T = .ok T' ∧ WellFormed card T' ∧ T'.vars = T.vars ∧
      ∀ a, InRange card T.vars a →
        (0 < ∑ x ∈ Finset.range (card v), value T (a.set v x) →
          value T' a = value T a / (∑ x ∈ Finset.range (card v), value T (a.set v x)) ∧
          ∑ x ∈ Finset.range (card v), value T' (a.set v x) = 1) ∧
        (¬ 0 < ∑ x ∈ Finset.range (card v), value T (a.set v x) → value T' a = value T a) := by
  have hn := hT.nodup
  have he := hT.eq_fromFn
  rw [hv] at hn he
  have h := normalizeCPT_fromFn (card := card) hn (F := value T)
  rw [← he, ← hv] at h
  have hval : ∀ a, InRange card T.vars a → value (fromFn card T.vars (fun a =>
        if 0 < sumOut card [v] (value T) a then value T a / sumOut card [v] (value T) a else value T a)) a =
        if 0 < sumOut card [v] (value T) a then value T a / sumOut card [v] (value T) a else value T a := by
    intro a ha
    refine value_fromFn hT.nodup (fun b c hbc => ?_) ha
    have hd : DependsOn (sumOut card [v] (value T)) T.vars := sumOut_dep (value_dependsOn T) (fun w hw => Or.inr hw)
    rw [value_dependsOn T b c hbc, hd b c hbc]
  refine ⟨_, h, fromFn_wf hT.nodup hT.pos _, rfl, fun a ha => ?_⟩
  have hset : ∀ x, sumOut card [v] (value T) (a.set v x) = ∑ x ∈ Finset.range (card v), value T (a.set v x) := by
    intro x
    simp only [sumOut, set_set_same]
  have ha' : sumOut card [v] (value T) a = ∑ x ∈ Finset.range (card v), value T (a.set v x) := rfl
  constructor
  · intro hpos
    constructor
    · rw [hval a ha, ha', if_pos hpos]
    · have : ∀ x ∈ Finset.range (card v), value (fromFn card T.vars (fun a =>
          if 0 < sumOut card [v] (value T) a then value T a / sumOut card [v] (value T) a else value T a)) (a.set v x) =
          value T (a.set v x) / ∑ x ∈ Finset.range (card v), value T (a.set v x) := by
        intro x hx
        rw [hval, hset, if_pos hpos]
        intro w hw
        unfold Assignment.set
        split
        · rename_i e; subst e; simpa using hx
        · exact ha w hw
      rw [Finset.sum_congr rfl this, ← Finset.sum_div, div_self hpos.ne']
  · intro hpos
    rw [hval a ha, ha', if_neg hpos]

example : WellFormed exCard exT ∧ exT.vars = 0 :: [1] ∧
    0 < ∑ x ∈ Finset.range (exCard 0), value exT (Assignment.set (fun _ => 0) 0 x) := by
  refine ⟨exT_wf, rfl, ?_⟩
  decide +kernel

end FastPGM
