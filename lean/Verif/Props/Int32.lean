import Verif.Lemmas.Int32
import Verif.Props.Table
import Verif.Props.CellTable

/-!
Property C80: sizes and 32-bit integers.  `tableMarginalization32`, … are the functions with the index arithmetic of the code, where
an `int` that would exceed 2³¹ - 1 is undefined behaviour.
-/

namespace FastPGM

open Spec

variable {K : Type}

theorem le_intMax {n : Nat} : n ≤ intMax ↔ n < 2 ^ 31 := by
  unfold intMax; omega

/-- C80, cumulative levels.  For positive dimensions the cumulative levels and the table size are computed without overflow exactly if
the number of configurations is less than 2³¹; then every legal configuration is given its row-major position without overflow. -/
theorem C80_index {dims : List Nat} (hpos : ∀ d ∈ dims, 0 < d) :
    (dims.prod < 2 ^ 31 → ∃ cum, shape32 dims = .ok (cum, dims.prod) ∧
      ∀ c, List.Forall₂ (· < ·) c dims → getIndex32 c cum = .ok (rank dims c)) ∧
    (2 ^ 31 ≤ dims.prod → shape32 dims = .error .ub) := by
  constructor
  · intro h
    have h' := le_intMax.2 h
    refine ⟨cumLevels dims, by rw [shape32_eq hpos, if_pos h'], fun c hc => ?_⟩
    have := rank_lt hc
    rw [← getIndex_cumLevels dims c] at this ⊢
    exact getIndex32_eq (by omega)
  · intro h
    rw [shape32_eq hpos, if_neg (by rw [le_intMax]; omega)]

example : shape32 (List.replicate 30 2) = .ok ((List.range 30).reverse.map (2 ^ ·), 1073741824) ∧
    shape32 (List.replicate 31 2) = .error .ub ∧
    getIndex32 (List.replicate 30 1) ((List.range 30).reverse.map (2 ^ ·)) = .ok 1073741823 := by decide +kernel

/-- C80, marginalisation.  Let `n` be the number of entries of the table times the number of its variables (the length of the scratch
array with all configurations).  If `n < 2³¹` the result is the sum over the dropped variables; otherwise the behaviour is undefined. -/
theorem C80_marginalization [AddCommMonoid K] {card : Nat → Nat} {T : Table K} (hT : WellFormed card T) {vs : List Nat}
    (hsub : ∀ v ∈ vs, v ∈ T.vars) (hn : vs.Nodup) :
    (T.pot.length * T.vars.length < 2 ^ 31 → ∃ T', tableMarginalization32 T vs (vs.map card) = .ok T' ∧ WellFormed card T' ∧ T'.vars = vs ∧
      ∀ a, InRange card vs a → value T' a = sumOut card (T.vars.filter (fun v => v ∉ vs)) (value T) a) ∧
    (2 ^ 31 ≤ T.pot.length * T.vars.length → tableMarginalization32 T vs (vs.map card) = .error .ub) := by
  rw [tableMarginalization32_eq hT hn hsub, hT.length]
  constructor
  · intro h
    rw [if_pos (le_intMax.2 h)]
    exact C03_marginalization hT hsub hn
  · intro h
    rw [if_neg (by rw [le_intMax]; omega)]

/-- C80, extension.  The same with the number of entries and of variables of the new table. -/
theorem C80_extension [Zero K] {card : Nat → Nat} {T : Table K} (hT : WellFormed card T) {vs : List Nat} (hne : vs ≠ [])
    (hn : vs.Nodup) (hp : ∀ v ∈ vs, 0 < card v) (hsub : ∀ v ∈ T.vars, v ∈ vs) :
    ((vs.map card).prod * vs.length < 2 ^ 31 → ∃ T', tableExtension32 T vs (vs.map card) = .ok T' ∧ WellFormed card T' ∧ T'.vars = vs ∧
      ∀ a, InRange card vs a → value T' a = value T a) ∧
    (2 ^ 31 ≤ (vs.map card).prod * vs.length → tableExtension32 T vs (vs.map card) = .error .ub) := by
  rw [tableExtension32_eq hT hne hsub hp]
  constructor
  · intro h
    rw [if_pos (le_intMax.2 h)]
    exact C04_extension hT hne hn hp hsub
  · intro h
    rw [if_neg (by rw [le_intMax]; omega)]

/-- C80, evidence.  Loading one observation into the tables of all nodes with the observed variable: if all the scratch arrays and the
total number of entries stay below 2³¹, every table is reduced (as in C02); otherwise the behaviour is undefined. -/
theorem C80_evidence [Zero K] {card : Nat → Nat} {tables : List (Table K)} {v : Nat} (hT : ∀ T ∈ tables, WellFormed card T)
    (hv : ∀ T ∈ tables, v ∈ T.vars) (x : Nat) :
    ((tables.map (fun T => T.pot.length)).sum < 2 ^ 31 → (∀ T ∈ tables, T.pot.length * T.vars.length < 2 ^ 31) →
      ∃ tables', reduceNodes32 tables v x = .ok tables' ∧
        List.Forall₂ (fun T T' => WellFormed card T' ∧ T'.vars = T.vars.erase v ∧
          ∀ a, InRange card T'.vars a → value T' a = if x < card v then value T (a.set v x) else 0) tables tables') ∧
    (2 ^ 31 ≤ (tables.map (fun T => T.pot.length)).sum ∨ (∃ T ∈ tables, 2 ^ 31 ≤ T.pot.length * T.vars.length) →
      reduceNodes32 tables v x = .error .ub) := by
  have e : tables.map (fun T => T.pot.length) = tables.map (·.size) :=
    List.map_congr_left (fun T h => (hT T h).length)
  rw [reduceNodes32_eq hT hv, e]
  constructor
  · intro h1 h2
    rw [if_pos ⟨le_intMax.2 h1, fun T h => by rw [le_intMax, ← (hT T h).length]; exact h2 T h⟩]
    clear e h1 h2
    induction tables with
    | nil => exact ⟨[], rfl, .nil⟩
    | cons T tables ih =>
      obtain ⟨T', h1, h2, h3, _, h4⟩ := C02_reduction (hT T (by simp)) (hv T (by simp)) x
      obtain ⟨ts, h5, h6⟩ := ih (fun S h => hT S (by simp [h])) (fun S h => hv S (by simp [h]))
      refine ⟨T' :: ts, ?_, .cons ⟨h2, h3, h4⟩ h6⟩
      rw [List.mapM_cons, h1, ok_bind, h5]
      rfl
  · intro h
    rw [if_neg]
    rintro ⟨h1, h2⟩
    rcases h with h | ⟨T, hT', h⟩
    · rw [le_intMax] at h1; omega
    · have := h2 T hT'
      rw [le_intMax, ← (hT T hT').length] at this
      omega

example : reduceNodes32 [exT, exS] 1 2 = .ok [⟨[0], [2], [1], 2, [3, 6]⟩, ⟨[], [], [], 1, [9]⟩] ∧
    tableMarginalization32 exT [1] [3] = .ok ⟨[1], [3], [1], 3, [5, 7, 9]⟩ ∧
    tableExtension32 exS [0, 1] [2, 3] = .ok ⟨[0, 1], [2, 3], [3, 1], 6, [7, 0, 9, 7, 0, 9]⟩ := by decide +kernel

/-- C80, violated for tables that would fit: over 27 binary variables a table has 2²⁷ entries, far below 2³¹, and yet neither summing
variables out, nor loading evidence, nor extending a table to these variables is defined. -/
theorem C80_lost [AddCommMonoid K] {card : Nat → Nat} {T : Table K} (hT : WellFormed card T) (h2 : ∀ v, card v = 2)
    (hl : T.vars.length = 27) :
    T.pot.length = 2 ^ 27 ∧
      (∀ vs : List Nat, vs.Nodup → (∀ v ∈ vs, v ∈ T.vars) → tableMarginalization32 T vs (vs.map card) = .error .ub) ∧
      (∀ v ∈ T.vars, ∀ x, reduceNodes32 [T] v x = .error .ub) ∧
      (∀ S : Table K, WellFormed card S → (∀ v ∈ S.vars, v ∈ T.vars) → tableExtension32 S T.vars (T.vars.map card) = .error .ub) := by
  have hd : T.vars.map card = List.replicate 27 2 := by
    rw [← hl]
    exact List.eq_replicate_iff.2 ⟨by simp, fun b hb => by
      obtain ⟨v, _, rfl⟩ := List.mem_map.1 hb; exact h2 v⟩
  have hs : T.pot.length = 2 ^ 27 := by
    rw [hT.length, hT.size, hT.dims, hd]; decide +kernel
  refine ⟨hs, fun vs hn hsub => (C80_marginalization hT hsub hn).2 ?_, fun v hv x => ?_, fun S hS hsub => ?_⟩
  · rw [hs, hl]; decide
  · refine (C80_evidence (card := card) (by simpa using hT) (by simpa using hv) x).2 (Or.inr ⟨T, by simp, ?_⟩)
    rw [hs, hl]; decide
  · refine (C80_extension hS ?_ hT.nodup hT.pos hsub).2 ?_
    · intro e; rw [e] at hl; simp at hl
    · rw [hd, hl]; decide +kernel

example : WellFormed (fun _ => 2) (fromFn (K := ℚ) (fun _ => 2) (List.range 27) (fun a => a 0)) ∧ (List.range 27).length = 27 :=
  ⟨fromFn_wf List.nodup_range (fun _ _ => by decide) _, by simp⟩

/-- C80, contingency tables.  With a non-empty list `z` of conditioning variables: if the number of cells is less than 2³¹, all index
arithmetic stays in range and the cells and marginals are the numbers of instances (as in C25); otherwise the behaviour is undefined. -/
theorem C80_counts {card : Nat → Nat} {numVars : Nat} {cols : List (List Nat)} {rows : List Assignment}
    (hc : Columns card numVars cols rows) {x y : Nat} {z : List Nat} (hz : z ≠ []) (hv : ∀ v ∈ z ++ [x, y], v < numVars)
    (hd : ∀ v ∈ z ++ [x, y], 0 < card v ∧ card v < 2 ^ 31) :
    ((z.map card).prod * card x * card y < 2 ^ 31 →
      ∃ t, counts3D32 cols rows.length (card x) (card y) x y (z.map card) z = .ok (t, (z.map card).prod) ∧
        ∀ a, InRange card (z ++ [x, y]) a →
          t.n[rank (z.map card) (z.map a) * card x * card y + a x * card y + a y]? = some (countSame rows (z ++ [x, y]) a) ∧
          t.ni[rank (z.map card) (z.map a) * card x + a x]? = some (countSame rows (z ++ [x]) a) ∧
          t.nj[rank (z.map card) (z.map a) * card y + a y]? = some (countSame rows (z ++ [y]) a) ∧
          t.nk[rank (z.map card) (z.map a)]? = some (countSame rows z a)) ∧
    (2 ^ 31 ≤ (z.map card).prod * card x * card y →
      counts3D32 cols rows.length (card x) (card y) x y (z.map card) z = .error .ub) := by
  rw [counts3D32_eq hz (fun v hv => ⟨(hd v hv).1, le_intMax.2 (hd v hv).2⟩) (Columns.for hc hv)]
  constructor
  · intro h
    rw [if_pos (le_intMax.2 h)]
    obtain ⟨t, h1, _, _, _, _, h2⟩ := C25_counts hc hz hv
    exact ⟨t, h1, h2⟩
  · intro h
    rw [if_neg (by rw [le_intMax]; omega)]

/-- One instance of ten variables with ten values each: testing the first two given the others is undefined. -/
example : Columns (fun _ => 10) 10 (List.replicate 10 [7]) [fun _ => 7] ∧
    counts3D32 (List.replicate 10 [7]) 1 10 10 0 1 (List.replicate 8 10) [2, 3, 4, 5, 6, 7, 8, 9] = .error .ub := by
  refine ⟨⟨fun v hv => ⟨[7], by rw [List.getElem?_replicate, if_pos hv], fun j r h => ?_⟩, fun r hr v _ => ?_⟩, by decide +kernel⟩
  · match j with
    | 0 => simp at h; simp [← h]
    | j + 1 => simp at h
  · simp at hr; simp [hr]

example : counts3D32 [[0, 0], [1, 1], [1, 0]] 2 2 2 0 1 [2] [2] =
    .ok (⟨[0, 1, 0, 0, 0, 1, 0, 0], [1, 0, 1, 0], [0, 1, 0, 1], [1, 1]⟩, 2) := by decide +kernel

end FastPGM
