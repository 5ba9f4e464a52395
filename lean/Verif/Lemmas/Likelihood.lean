import Verif.Spec.Likelihood
import Verif.Lemmas.Table
import Verif.Lemmas.Dependence

/-!
The smoothed relative frequencies maximise the likelihood.
-/

namespace FastPGM

open Spec

/-! ### One distribution -/

section gibbs

variable {k : Nat} {n : Nat → Nat} {θ : Nat → ℝ}

/-- The relative frequencies give the counts the largest probability, and no other distribution does. -/
theorem gibbs (hS : 0 < ∑ x ∈ Finset.range k, n x) (h0 : ∀ x < k, 0 ≤ θ x) (h1 : ∑ x ∈ Finset.range k, θ x = 1) :
    ∏ x ∈ Finset.range k, θ x ^ n x ≤ ∏ x ∈ Finset.range k, ((n x : ℝ) / (∑ x ∈ Finset.range k, n x : Nat)) ^ n x ∧
      0 < ∏ x ∈ Finset.range k, ((n x : ℝ) / (∑ x ∈ Finset.range k, n x : Nat)) ^ n x ∧
      (∏ x ∈ Finset.range k, θ x ^ n x = ∏ x ∈ Finset.range k, ((n x : ℝ) / (∑ x ∈ Finset.range k, n x : Nat)) ^ n x →
        ∀ x < k, θ x = (n x : ℝ) / (∑ x ∈ Finset.range k, n x : Nat)) := by
  set S := ∑ x ∈ Finset.range k, n x with hSdef
  have S0 : (0 : ℝ) < S := by exact_mod_cast hS
  have hpos : 0 < ∏ x ∈ Finset.range k, ((n x : ℝ) / S) ^ n x := by
    apply Finset.prod_pos
    intro x _
    by_cases h : n x = 0
    · simp [h]
    · have : (0 : ℝ) < n x := by exact_mod_cast Nat.pos_of_ne_zero h
      positivity
  have hSum : ∑ x ∈ Finset.range k, (n x : ℝ) = S := by rw [hSdef]; push_cast; rfl
  by_cases hz : ∃ x < k, n x ≠ 0 ∧ θ x = 0
  · obtain ⟨x, hx, hn, ht⟩ := hz
    have : ∏ x ∈ Finset.range k, θ x ^ n x = 0 := Finset.prod_eq_zero (Finset.mem_range.2 hx) (by rw [ht, zero_pow hn])
    rw [this]
    exact ⟨hpos.le, hpos, fun h => absurd h hpos.ne⟩
  · push Not at hz
    have tpos : ∀ x < k, n x ≠ 0 → 0 < θ x := fun x hx hn => lt_of_le_of_ne (h0 x hx) (Ne.symm (hz x hx hn))
    have tprod : 0 < ∏ x ∈ Finset.range k, θ x ^ n x := by
      apply Finset.prod_pos
      intro x hx
      by_cases h : n x = 0
      · simp [h]
      · exact pow_pos (tpos x (Finset.mem_range.1 hx) h) _
    -- the difference of the logarithms, cell by cell
    have hlog : ∀ x ∈ Finset.range k, Real.log (θ x ^ n x) - Real.log (((n x : ℝ) / S) ^ n x) ≤ S * θ x - n x := by
      intro x hx
      rw [Real.log_pow, Real.log_pow]
      by_cases h : n x = 0
      · rw [h]
        simp only [Nat.cast_zero, zero_mul, sub_zero]
        exact mul_nonneg S0.le (h0 x (Finset.mem_range.1 hx))
      · have n0 : (0 : ℝ) < n x := by exact_mod_cast Nat.pos_of_ne_zero h
        have t0 := tpos x (Finset.mem_range.1 hx) h
        rw [← mul_sub, ← Real.log_div t0.ne' (by positivity)]
        have := mul_le_mul_of_nonneg_left (Real.log_le_sub_one_of_pos (x := θ x / ((n x : ℝ) / S)) (by positivity)) n0.le
        refine this.trans (le_of_eq ?_)
        field_simp
    have hrhs : ∑ x ∈ Finset.range k, ((S : ℝ) * θ x - n x) = 0 := by
      rw [Finset.sum_sub_distrib, ← Finset.mul_sum, h1, hSum]; ring
    have hl : Real.log (∏ x ∈ Finset.range k, θ x ^ n x) - Real.log (∏ x ∈ Finset.range k, ((n x : ℝ) / S) ^ n x) =
        ∑ x ∈ Finset.range k, (Real.log (θ x ^ n x) - Real.log (((n x : ℝ) / S) ^ n x)) := by
      rw [Real.log_prod (fun x hx => (Finset.prod_ne_zero_iff.1 tprod.ne') x hx),
        Real.log_prod (fun x hx => (Finset.prod_ne_zero_iff.1 hpos.ne') x hx), Finset.sum_sub_distrib]
    refine ⟨?_, hpos, ?_⟩
    · rw [← Real.log_le_log_iff tprod hpos]
      have := Finset.sum_le_sum hlog
      rw [hrhs, ← hl] at this
      linarith
    · intro he
      rw [he, sub_self] at hl
      have heq := (Finset.sum_eq_sum_iff_of_le hlog).1 (by rw [← hl, hrhs])
      intro x hx
      have h := heq x (Finset.mem_range.2 hx)
      rw [Real.log_pow, Real.log_pow] at h
      by_cases hn : n x = 0
      · rw [hn] at h ⊢
        simp only [Nat.cast_zero, zero_mul, sub_zero] at h
        rw [Nat.cast_zero, zero_div]
        exact (mul_eq_zero.1 h.symm).resolve_left S0.ne'
      · have n0 : (0 : ℝ) < n x := by exact_mod_cast Nat.pos_of_ne_zero hn
        have t0 := tpos x hx hn
        by_contra hne
        have hne' : θ x / ((n x : ℝ) / S) ≠ 1 := by
          intro h1
          rw [div_eq_one_iff_eq (by positivity)] at h1
          exact hne h1
        have := mul_lt_mul_of_pos_left (Real.log_lt_sub_one_of_pos (x := θ x / ((n x : ℝ) / S)) (by positivity) hne') n0
        rw [Real.log_div t0.ne' (by positivity)] at this
        have h2 : (n x : ℝ) * (θ x / ((n x : ℝ) / S) - 1) = S * θ x - n x := by field_simp
        rw [h2] at this
        linarith

end gibbs

/-! ### Products over assignments -/

section prod

variable {card : Nat → Nat}

theorem prodOver_eq {K : Type} [CommMonoid K] (vs : List Nat) (f : Assignment → K) (a : Assignment) :
    prodOver card vs f a = Additive.toMul (sumOut card vs (fun b => Additive.ofMul (f b)) a) := by
  induction vs generalizing a with
  | nil => rfl
  | cons v vs ih =>
    simp only [prodOver, sumOut, ih]
    rfl

theorem prodOver_append {K : Type} [CommMonoid K] (vs ws : List Nat) (f : Assignment → K) (a : Assignment) :
    prodOver card (vs ++ ws) f a = prodOver card vs (fun b => prodOver card ws f b) a := by
  induction vs generalizing a with
  | nil => rfl
  | cons v vs ih => simp only [List.cons_append, prodOver, ih]

theorem prodOver_mul {K : Type} [CommMonoid K] (vs : List Nat) (f g : Assignment → K) (a : Assignment) :
    prodOver card vs (fun b => f b * g b) a = prodOver card vs f a * prodOver card vs g a := by
  induction vs generalizing a with
  | nil => rfl
  | cons v vs ih => simp only [prodOver, ih, Finset.prod_mul_distrib]

theorem prodOver_one {K : Type} [CommMonoid K] (vs : List Nat) (a : Assignment) : prodOver card vs (fun _ => (1 : K)) a = 1 := by
  induction vs generalizing a with
  | nil => rfl
  | cons v vs ih => simp only [prodOver, ih, Finset.prod_const_one]

theorem prodOver_congr {K : Type} [CommMonoid K] {vs : List Nat} {f g : Assignment → K} {a : Assignment}
    (h : ∀ b : Assignment, (∀ v ∈ vs, b v < card v) → (∀ v, v ∉ vs → b v = a v) → f b = g b) : prodOver card vs f a = prodOver card vs g a := by
  rw [prodOver_eq, prodOver_eq]
  congr 1
  exact sumOut_congr fun b hb hb' => congrArg _ (h b hb hb')

/-- Comparison of products: factor by factor, and equal only if all factors are equal. -/
theorem prodOver_le {vs : List Nat} {f g : Assignment → ℝ} {a : Assignment}
    (h : ∀ b : Assignment, (∀ v ∈ vs, b v < card v) → (∀ v, v ∉ vs → b v = a v) → 0 ≤ f b ∧ f b ≤ g b ∧ 0 < g b) :
    0 ≤ prodOver card vs f a ∧ prodOver card vs f a ≤ prodOver card vs g a ∧ 0 < prodOver card vs g a ∧
      (prodOver card vs f a = prodOver card vs g a →
        ∀ b : Assignment, (∀ v ∈ vs, b v < card v) → (∀ v, v ∉ vs → b v = a v) → f b = g b) := by
  induction vs generalizing a with
  | nil =>
    obtain ⟨h1, h2, h3⟩ := h a (by simp) (by simp)
    refine ⟨h1, h2, h3, fun he b _ hb => ?_⟩
    have : b = a := funext fun v => hb v (by simp)
    rw [this]; exact he
  | cons v vs ih =>
    simp only [prodOver]
    have hstep : ∀ x ∈ Finset.range (card v), ∀ b : Assignment, (∀ w ∈ vs, b w < card w) → (∀ w, w ∉ vs → b w = (a.set v x) w) →
        (∀ w ∈ v :: vs, b w < card w) ∧ ∀ w, w ∉ v :: vs → b w = a w := by
      intro x hx b hb hb'
      constructor
      · intro w hw
        by_cases hm : w ∈ vs
        · exact hb w hm
        · have hwv : w = v := by
            rcases List.mem_cons.1 hw with h | h
            · exact h
            · exact absurd h hm
          rw [hb' w hm, hwv]
          simpa [Assignment.set] using hx
      · intro w hw
        rw [List.mem_cons, not_or] at hw
        rw [hb' w hw.2]
        simp [Assignment.set, hw.1]
    have hi := fun x (hx : x ∈ Finset.range (card v)) => ih (a := a.set v x) (fun b hb hb' => h b (hstep x hx b hb hb').1 (hstep x hx b hb hb').2)
    have hg : 0 < ∏ x ∈ Finset.range (card v), prodOver card vs g (a.set v x) := Finset.prod_pos fun x hx => (hi x hx).2.2.1
    refine ⟨Finset.prod_nonneg fun x hx => (hi x hx).1, Finset.prod_le_prod (fun x hx => (hi x hx).1) (fun x hx => (hi x hx).2.1), hg, ?_⟩
    intro he b hb hb'
    have hx : b v ∈ Finset.range (card v) := Finset.mem_range.2 (hb v (by simp))
    refine (hi (b v) hx).2.2.2 ?_ b (fun w hw => hb w (by simp [hw])) (fun w hw => ?_)
    · by_contra hne
      have hlt := lt_of_le_of_ne (hi (b v) hx).2.1 hne
      rw [← Finset.mul_prod_erase _ _ hx, ← Finset.mul_prod_erase _ _ hx] at he
      have h1 : ∏ x ∈ (Finset.range (card v)).erase (b v), prodOver card vs f (a.set v x) ≤
          ∏ x ∈ (Finset.range (card v)).erase (b v), prodOver card vs g (a.set v x) :=
        Finset.prod_le_prod (fun x hx => (hi x (Finset.mem_of_mem_erase hx)).1) (fun x hx => (hi x (Finset.mem_of_mem_erase hx)).2.1)
      have h2 : 0 < ∏ x ∈ (Finset.range (card v)).erase (b v), prodOver card vs g (a.set v x) :=
        Finset.prod_pos fun x hx => (hi x (Finset.mem_of_mem_erase hx)).2.2.1
      have := mul_lt_mul'' hlt (lt_of_le_of_ne h1 (fun e => ?_)) (hi (b v) hx).1
        (Finset.prod_nonneg fun x hx => (hi x (Finset.mem_of_mem_erase hx)).1)
      · exact absurd he this.ne
      · rw [e] at he
        exact hlt.ne (mul_right_cancel₀ h2.ne' he)
    · unfold Assignment.set
      by_cases hwv : w = v
      · rw [if_pos hwv, hwv]
      · rw [if_neg hwv]
        exact hb' w (by simp [hwv, hw])

end prod

/-! ### The likelihood -/

section likelihood

variable {card : Nat → Nat}

/-- The product over the instances, collected by the values of the variables. -/
theorem prod_rows {vs : List Nat} (hn : vs.Nodup) {θ : Assignment → ℝ} (hd : DependsOn θ vs) {rows : List Assignment}
    (hr : ∀ r ∈ rows, InRange card vs r) (a : Assignment) :
    (rows.map θ).prod = prodOver card vs (fun b => θ b ^ countSame rows vs b) a := by
  induction rows with
  | nil =>
    simp only [List.map_nil, List.prod_nil]
    rw [show (fun b => θ b ^ countSame [] vs b) = fun _ => (1 : ℝ) from funext fun b => by simp [countSame], prodOver_one]
  | cons r rows ih =>
    rw [List.map_cons, List.prod_cons, ih (fun r' h => hr r' (by simp [h]))]
    have hc : ∀ b, countSame (r :: rows) vs b = (if vs.map b = vs.map r then 1 else 0) + countSame rows vs b := by
      intro b
      rw [countSame_eq, countSame_eq, List.countP_cons, Nat.add_comm]
      congr 1
      by_cases h : vs.map b = vs.map r
      · simp [h]
      · rw [if_neg h, if_neg]
        rw [decide_eq_true_iff]
        exact fun e => h e.symm
    have hsplit : (fun b => θ b ^ countSame (r :: rows) vs b) =
        fun b => (if vs.map b = vs.map r then θ b else 1) * θ b ^ countSame rows vs b := by
      funext b
      rw [hc, pow_add]
      split <;> simp
    rw [hsplit, prodOver_mul]
    congr 1
    rw [prodOver_eq]
    have h1 : DependsOn (fun b => Additive.ofMul (if vs.map b = vs.map r then θ b else 1)) vs := by
      intro b c hbc
      have e : vs.map b = vs.map c := map_eq_of_agree hbc
      show Additive.ofMul (if vs.map b = vs.map r then θ b else 1) = Additive.ofMul (if vs.map c = vs.map r then θ c else 1)
      rw [e, hd b c hbc]
    rw [sumOut_agree (b := r) h1 (fun v hv hvu => absurd hv hvu)]
    have h2 : (fun b => Additive.ofMul (if vs.map b = vs.map r then θ b else 1)) =
        fun b => if vs.map b = vs.map r then Additive.ofMul (θ b) else 0 := by
      funext b
      split <;> rfl
    rw [h2, sumOut_indicator hn (fun v hv _ => hr r (by simp) v hv) (fun w hw => hw)]
    have : vs.filter (fun v => v ∉ vs) = [] := by
      rw [List.filter_eq_nil_iff]
      intro v hv
      simp [hv]
    rw [this]
    rfl

/-- The part of the smoothed likelihood that depends on the table of variable `i`. -/
noncomputable def nodeScore (card : Nat → Nat) (rows : List Assignment) (alpha i : Nat) (ps : List Nat) (θ : Assignment → ℝ) : ℝ :=
  prodOver card (ps ++ [i]) (fun a => θ a ^ (countSame rows (ps ++ [i]) a + alpha)) (fun _ => 0)

theorem score_eq {n : Nat} {parents : Nat → List Nat} {rows : List Assignment} {alpha : Nat} {θ : Nat → Assignment → ℝ}
    (hn : ∀ i < n, (parents i ++ [i]).Nodup) (hd : ∀ i < n, DependsOn (θ i) (i :: parents i))
    (hr : ∀ i < n, ∀ r ∈ rows, InRange card (parents i ++ [i]) r) :
    likelihood n rows θ * smoothing card parents alpha n θ = ∏ i ∈ Finset.range n, nodeScore card rows alpha i (parents i) (θ i) := by
  have hl : likelihood n rows θ = ∏ i ∈ Finset.range n, (rows.map (θ i)).prod := by
    unfold likelihood
    clear hr
    induction rows with
    | nil => simp
    | cons r rows ih => simp only [List.map_cons, List.prod_cons, ih, Finset.prod_mul_distrib]
  rw [hl]
  unfold smoothing
  rw [← Finset.prod_mul_distrib]
  refine Finset.prod_congr rfl fun i hi => ?_
  have hi' := Finset.mem_range.1 hi
  rw [prod_rows (card := card) (hn i hi') (fun a b h => hd i hi' a b (fun v hv => h v (by
      rcases List.mem_cons.1 hv with h | h
      · simp [h]
      · simp [h]))) (hr i hi') (fun _ => 0), ← prodOver_mul]
  unfold nodeScore
  congr 1
  funext a
  rw [pow_add]

/-- One variable: the smoothed frequencies are the only maximum. -/
theorem nodeScore_le {rows : List Assignment} {alpha i : Nat} {ps : List Nat} {θ p : Assignment → ℝ} (hn : (ps ++ [i]).Nodup)
    (hr : ∀ r ∈ rows, r i < card i) (hci : 0 < card i) (hθ : IsConditional card i ps θ)
    (h0 : alpha = 0 → ∀ a, InRange card ps a → 0 < countSame rows ps a)
    (hp : ∀ a, InRange card (i :: ps) a →
      p a = ((countSame rows (i :: ps) a : ℝ) + alpha) / ((countSame rows ps a : ℝ) + alpha * card i)) :
    0 ≤ nodeScore card rows alpha i ps θ ∧ nodeScore card rows alpha i ps θ ≤ nodeScore card rows alpha i ps p ∧
      0 < nodeScore card rows alpha i ps p ∧
      (nodeScore card rows alpha i ps θ = nodeScore card rows alpha i ps p → ∀ a, InRange card (i :: ps) a → θ a = p a) := by
  have hi : i ∉ ps := by
    obtain ⟨-, -, h⟩ := List.nodup_append.1 hn
    exact fun hm => h i hm i (by simp) rfl
  have hperm : ∀ a, countSame rows (ps ++ [i]) a = countSame rows (i :: ps) a := fun a => countSame_perm (List.perm_append_comm (l₁ := ps) (l₂ := [i])) a
  have hset : ∀ (b : Assignment) x, InRange card ps b → x < card i → InRange card (i :: ps) (b.set i x) := by
    intro b x hb hx v hv
    rcases List.mem_cons.1 hv with rfl | hv
    · simpa [Assignment.set] using hx
    · have : v ≠ i := fun e => hi (e ▸ hv)
      simpa [Assignment.set, this] using hb v hv
  have hsum : ∀ b, InRange card ps b → ∑ x ∈ Finset.range (card i), (countSame rows (ps ++ [i]) (b.set i x) + alpha) =
      countSame rows ps b + alpha * card i := by
    intro b _
    rw [Finset.sum_add_distrib, countSame_sum_last hi hr b, Finset.sum_const, Finset.card_range]
    simp [Nat.mul_comm]
  have hS : ∀ b, InRange card ps b → 0 < countSame rows ps b + alpha * card i := by
    intro b hb
    rcases Nat.eq_zero_or_pos alpha with h | h
    · have := h0 h b hb
      omega
    · have := Nat.mul_pos h hci
      omega
  -- one parent configuration
  have key : ∀ b, InRange card ps b →
      0 ≤ prodOver card [i] (fun a => θ a ^ (countSame rows (ps ++ [i]) a + alpha)) b ∧
      prodOver card [i] (fun a => θ a ^ (countSame rows (ps ++ [i]) a + alpha)) b ≤
        prodOver card [i] (fun a => p a ^ (countSame rows (ps ++ [i]) a + alpha)) b ∧
      0 < prodOver card [i] (fun a => p a ^ (countSame rows (ps ++ [i]) a + alpha)) b ∧
      (prodOver card [i] (fun a => θ a ^ (countSame rows (ps ++ [i]) a + alpha)) b =
        prodOver card [i] (fun a => p a ^ (countSame rows (ps ++ [i]) a + alpha)) b → ∀ x < card i, θ (b.set i x) = p (b.set i x)) := by
    intro b hb
    have hnn : ∀ x < card i, 0 ≤ θ (b.set i x) := fun x hx => hθ.nonneg _ (hset b x hb hx)
    obtain ⟨g1, g2, g3⟩ := gibbs (k := card i) (n := fun x => countSame rows (ps ++ [i]) (b.set i x) + alpha) (θ := fun x => θ (b.set i x))
      (by rw [hsum b hb]; exact hS b hb) hnn (hθ.sum b hb)
    have hpe : ∀ x < card i, ((countSame rows (ps ++ [i]) (b.set i x) + alpha : Nat) : ℝ) /
        ((∑ x ∈ Finset.range (card i), (countSame rows (ps ++ [i]) (b.set i x) + alpha) : Nat) : ℝ) = p (b.set i x) := by
      intro x hx
      rw [hsum b hb, hp _ (hset b x hb hx), hperm, countSame_set (vs := ps) hi]
      push_cast
      rfl
    have hprod : ∏ x ∈ Finset.range (card i), (((countSame rows (ps ++ [i]) (b.set i x) + alpha : Nat) : ℝ) /
        ((∑ x ∈ Finset.range (card i), (countSame rows (ps ++ [i]) (b.set i x) + alpha) : Nat) : ℝ)) ^ (countSame rows (ps ++ [i]) (b.set i x) + alpha) =
        ∏ x ∈ Finset.range (card i), p (b.set i x) ^ (countSame rows (ps ++ [i]) (b.set i x) + alpha) :=
      Finset.prod_congr rfl fun x hx => by rw [hpe x (Finset.mem_range.1 hx)]
    rw [hprod] at g1 g2 g3
    simp only [prodOver]
    exact ⟨Finset.prod_nonneg fun x hx => pow_nonneg (hnn x (Finset.mem_range.1 hx)) _, g1, g2, fun he x hx => by rw [g3 he x hx, hpe x hx]⟩
  unfold nodeScore
  rw [prodOver_append, prodOver_append]
  obtain ⟨k1, k2, k3, k4⟩ := prodOver_le (card := card) (vs := ps) (a := fun _ => 0)
    (f := fun b => prodOver card [i] (fun a => θ a ^ (countSame rows (ps ++ [i]) a + alpha)) b)
    (g := fun b => prodOver card [i] (fun a => p a ^ (countSame rows (ps ++ [i]) a + alpha)) b)
    (fun b hb _ => ⟨(key b hb).1, (key b hb).2.1, (key b hb).2.2.1⟩)
  refine ⟨k1, k2, k3, fun he a ha => ?_⟩
  -- the values of the parents, and 0 elsewhere
  let b : Assignment := fun v => if v ∈ ps then a v else 0
  have hb : InRange card ps b := fun v hv => by
    simp only [b, hv, if_true]; exact ha v (by simp [hv])
  have := (key b hb).2.2.2 (k4 he b hb (fun v hv => by simp only [b, hv, if_false])) (a i) (ha i (by simp))
  have hag : ∀ v ∈ i :: ps, (b.set i (a i)) v = a v := by
    intro v hv
    by_cases hvi : v = i
    · simp [Assignment.set, hvi]
    · have hvp : v ∈ ps := by
        rcases List.mem_cons.1 hv with h | h
        · exact absurd h hvi
        · exact h
      simp [Assignment.set, hvi, b, hvp]
  rw [hθ.dep _ _ hag] at this
  rw [this, hp _ (hset b (a i) hb (ha i (by simp))), hp a ha, countSame_depends (rows := rows) (i :: ps) _ _ hag,
    countSame_depends (rows := rows) ps _ _ (fun v hv => hag v (by simp [hv]))]

end likelihood

end FastPGM
