import Verif.Lemmas.Sampler
import Verif.Lemmas.Dataset5
import Mathlib.Algebra.Order.BigOperators.Group.Finset

/-!
Sampling by inversion, all samples, and the text of the samples.
-/

namespace FastPGM

open Spec

variable {K ω : Type}

/-! ### Drawing by inversion -/

section draw
variable [Field K] [LinearOrder K] [IsStrictOrderedRing K]

theorem take_sum_le {w : List K} (hw : ∀ p ∈ w, 0 ≤ p) {i j : Nat} (h : i ≤ j) : (w.take i).sum ≤ (w.take j).sum := by
  obtain ⟨d, rfl⟩ := Nat.le.dest h
  induction d with
  | zero => exact le_of_eq rfl
  | succ d ih =>
    refine le_trans (ih (by omega)) ?_
    rw [← Nat.add_assoc, List.take_add_one, List.sum_append]
    have : 0 ≤ (w[i + d]?.toList).sum := by
      cases e : w[i + d]? with
      | none => simp
      | some p => simpa using hw p (List.mem_of_getElem? e)
    linarith

theorem drawInverse_iff {w : List K} (hw : ∀ p ∈ w, 0 ≤ p) (hs : 0 < w.sum) {u : K} (h0 : 0 < u) (h1 : u ≤ 1) {k : Nat} :
    drawInverse w u = .ok k ↔ k < w.length ∧ (w.take k).sum < u * w.sum ∧ u * w.sum ≤ (w.take (k + 1)).sum := by
  have hus : 0 < u * w.sum := mul_pos h0 hs
  have hus1 : u * w.sum ≤ w.sum := by
    calc u * w.sum ≤ 1 * w.sum := mul_le_mul_of_nonneg_right h1 (le_of_lt hs)
      _ = w.sum := one_mul _
  unfold drawInverse
  rw [if_neg]
  swap
  · rintro (⟨p, hp, hlt⟩ | h)
    · exact absurd (hw p hp) (not_le.2 hlt)
    · rw [h] at hs; exact lt_irrefl _ hs
  have hne : 0 < w.length := by
    rcases Nat.eq_zero_or_pos w.length with h | h
    · rw [List.length_eq_zero_iff.1 h] at hs; exact absurd hs (by simp)
    · exact h
  have hlow : ∀ {k : Nat}, (∀ j < k, ¬ u * w.sum ≤ (w.take (j + 1)).sum) → (w.take k).sum < u * w.sum := by
    intro k hk
    cases k with
    | zero => simpa using hus
    | succ k => exact not_le.1 (hk k (by omega))
  cases e : (List.range w.length).find? (fun k => decide (u * w.sum ≤ (w.take (k + 1)).sum)) with
  | none =>
    have := List.find?_eq_none.1 e (w.length - 1) (by simp; omega)
    rw [show w.length - 1 + 1 = w.length by omega, List.take_length] at this
    simp only [decide_eq_true_eq] at this
    exact absurd hus1 this
  | some i =>
    rw [List.find?_range_eq_some] at e
    obtain ⟨e1, e2, e3⟩ := e
    simp only [decide_eq_true_eq] at e1
    have e3' : ∀ j < i, ¬ u * w.sum ≤ (w.take (j + 1)).sum := by
      intro j hj
      have := e3 j hj
      simpa using this
    rw [List.mem_range] at e2
    simp only [Option.getD_some, Except.ok.injEq]
    constructor
    · rintro rfl
      exact ⟨e2, hlow e3', e1⟩
    · rintro ⟨k1, k2, k3⟩
      by_contra hne'
      rcases Nat.lt_or_gt_of_ne (Ne.symm hne') with h | h
      · exact e3' k h k3
      · exact absurd (le_trans e1 (take_sum_le hw (show i + 1 ≤ k by omega))) (not_le.2 k2)

omit [IsStrictOrderedRing K] in
theorem drawInverse_ok {w : List K} (hw : ∀ p ∈ w, 0 ≤ p) (hs : 0 < w.sum) (u : K) : ∃ k, drawInverse w u = .ok k := by
  unfold drawInverse
  rw [if_neg]
  · exact ⟨_, rfl⟩
  · rintro (⟨p, hp, hlt⟩ | h)
    · exact absurd (hw p hp) (not_le.2 hlt)
    · rw [h] at hs; exact lt_irrefl _ hs

theorem sum_pos_of {w : List K} (hw : ∀ p ∈ w, 0 ≤ p) (he : ∃ p ∈ w, 0 < p) : 0 < w.sum := by
  induction w with
  | nil => obtain ⟨p, hp, _⟩ := he; exact absurd hp (by simp)
  | cons q w ih =>
    rw [List.sum_cons]
    have hq := hw q (by simp)
    have hrest : 0 ≤ w.sum := List.sum_nonneg (fun p hp => hw p (by simp [hp]))
    obtain ⟨p, hp, hpos⟩ := he
    rcases List.mem_cons.1 hp with rfl | hp
    · linarith
    · have := ih (fun p hp => hw p (by simp [hp])) ⟨p, hp, hpos⟩
      linarith

omit [LinearOrder K] [IsStrictOrderedRing K] in
theorem tab_take_sum {n k : Nat} (h : k ≤ n) (g : Nat → K) : ((tab n g).take k).sum = ∑ x ∈ Finset.range k, g x := by
  have : (tab n g).take k = tab k g := by
    refine tab_ext (by simp [h]) ?_
    intro i hi
    rw [List.getElem?_take, if_pos hi, tab_get?, if_pos (by omega)]
  rw [this]
  induction k with
  | zero => simp [tab]
  | succ k ih =>
    rw [Finset.sum_range_succ, ← ih (by omega)]
    · simp [tab, List.range_succ]
    · refine tab_ext (by simp; omega) ?_
      intro i hi
      rw [List.getElem?_take, if_pos hi, tab_get?, if_pos (by omega)]

end draw

/-! ### All samples -/

theorem generateSamples_spec [Zero K] [LE K] [LT K] {draw : List K → ω → Except Fault Nat} (hdraw : DrawsPossible draw) {card : Nat → Nat}
    {N N1 : Net} {pa : Nat → List Nat} {cpts : List (Table K)} {prob : Nat → Nat → Config → Except Fault K}
    (hcpts : sampleTables N prob = .ok cpts) (hT : TablesOK card N.nodes.length pa cpts) (rnd : Nat → Nat → ω) {ord : List Nat} (hnd : ord.Nodup)
    (hmem : ∀ v, v ∈ ord ↔ v < N.nodes.length) (hbef : ∀ x y, x ∈ pa y → y < N.nodes.length → ord.idxOf x < ord.idxOf y)
    (ho : N.getTopoOrd = .ok (ord, N1)) (ho1 : N1.getTopoOrd = .ok (ord, N1)) (m : Nat) :
    ∃ samples N', generateSamples draw N prob m rnd = .ok (samples, N') ∧ samples.length = m ∧
      ∀ (i : Nat) s, samples[i]? = some s → Sampled draw card N.nodes.length pa cpts (rnd i) ord ord s := by
  unfold generateSamples
  rw [hcpts, ok_bind]
  obtain ⟨⟨samples, N'⟩, h1, h2, h3, h4⟩ := foldlM_range
    (f := fun (st : List (List Nat) × Net) i => (do
      let (ord, N) ← st.2.getTopoOrd
      let s ← sampleOne draw cpts ord (rnd i) (← rd st.1 i)
      return (← wr st.1 i s, N) : Except Fault _))
    (fun i (st : List (List Nat) × Net) => st.1.length = m ∧ (st.2 = N ∨ st.2 = N1) ∧
      ∀ (j : Nat) s, st.1[j]? = some s → (i ≤ j → s.length = N.nodes.length) ∧
        (j < i → Sampled draw card N.nodes.length pa cpts (rnd j) ord ord s))
    (n := m) (b := (List.replicate m (List.replicate N.nodes.length 0), N))
    (by
      refine ⟨by simp, Or.inl rfl, ?_⟩
      intro j s hs
      refine ⟨fun _ => ?_, fun h => absurd h (by omega)⟩
      have := List.mem_of_getElem? hs
      rw [List.mem_replicate] at this
      rw [this.2]; simp)
    (by
      rintro i hi ⟨ss, M⟩ ⟨g1, g2, g3⟩
      simp only at g1 g2 g3
      have hM : M.getTopoOrd = .ok (ord, N1) := by
        rcases g2 with rfl | rfl
        · exact ho
        · exact ho1
      have hget : ss[i]? = some ss[i] := List.getElem?_eq_getElem (by omega)
      obtain ⟨s', k1, k2⟩ := sampleOne_spec hdraw hT (rnd i) hnd hmem hbef ((g3 i ss[i] hget).1 (Nat.le_refl _))
      refine ⟨(ss.set i s', N1), ?_, ?_, Or.inr rfl, ?_⟩
      · simp only []
        rw [hM, ok_bind]
        simp only []
        rw [rd_ok hget, ok_bind, k1, ok_bind, wr_ok (by omega), ok_bind]
        rfl
      · simp [g1]
      · intro j s hs
        simp only at hs
        rw [List.getElem?_set] at hs
        by_cases hij : i = j
        · subst hij
          rw [if_pos rfl, if_pos (by omega)] at hs
          cases hs
          exact ⟨fun h => absurd h (by omega), fun _ => k2⟩
        · rw [if_neg hij] at hs
          exact ⟨fun h => (g3 j s hs).1 (by omega), fun h => (g3 j s hs).2 (by omega)⟩)
  exact ⟨samples, N', h1, h2, fun i s hs => (h4 i s hs).2 (by
    have := (List.getElem?_eq_some_iff.1 hs).1
    simp only at h2
    omega)⟩

end FastPGM
