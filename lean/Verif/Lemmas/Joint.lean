import Verif.Spec.Posterior
import Verif.Lemmas.Marg

/-!
Summing a product of conditional distributions along a topological order.
-/

namespace FastPGM

open Spec

variable {K : Type} [Field K] {card : Nat → Nat}

theorem DependsOn.listProd {g : Nat → Assignment → K} {l vs : List Nat} (h : ∀ v ∈ l, DependsOn (g v) vs) :
    DependsOn (fun a => (l.map (fun v => g v a)).prod) vs := fun a b hab => by
  show (l.map (fun v => g v a)).prod = (l.map (fun v => g v b)).prod
  rw [List.map_congr_left (fun v hv => h v hv a b hab)]

/-- The factors of the later variables sum to 1. -/
theorem sumOut_order {V : List Nat} (g : Nat → Assignment → K) : ∀ (s p : List Nat), (p ++ s).Nodup → (∀ v ∈ p ++ s, v ∈ V) →
    (∀ q v r, p ++ s = q ++ v :: r → v ∈ s → DependsOn (g v) (v :: q)) →
    (∀ v ∈ s, ∀ a, InRange card V a → ∑ x ∈ Finset.range (card v), g v (a.set v x) = 1) →
    ∀ f : Assignment → K, DependsOn f p → ∀ a, InRange card V a →
      sumOut card (p ++ s) (fun b => f b * (s.map (fun v => g v b)).prod) a = sumOut card p f a := by
  intro s
  induction s with
  | nil =>
    intro p _ _ _ _ f _ a _
    simp
  | cons v s ih =>
    intro p hnd hV hdep hone f hf a ha
    have e : p ++ v :: s = (p ++ [v]) ++ s := by simp
    have hgv : DependsOn (g v) (v :: p) := hdep p v s rfl (by simp)
    have hvp : v ∉ p := fun hv => (List.nodup_append.1 hnd).2.2 v hv v (by simp) rfl
    have h1 := ih (p ++ [v]) (e ▸ hnd) (e ▸ hV) (fun q w r hq hw => hdep q w r (e.trans hq) (List.mem_cons_of_mem _ hw))
      (fun w hw => hone w (List.mem_cons_of_mem _ hw)) (fun b => f b * g v b)
      ((hf.mono (fun w hw => by simp [hw])).mul (hgv.mono (fun w hw => by
        rcases List.mem_cons.1 hw with rfl | hw
        · simp
        · simp [hw]))) a ha
    rw [e]
    have h2 : (fun b => f b * ((v :: s).map (fun v => g v b)).prod) = fun b => f b * g v b * (s.map (fun v => g v b)).prod := by
      funext b
      simp [mul_assoc]
    rw [h2, h1, sumOut_append_eq]
    refine sumOut_congr_range (V := V) ?_ ha
    intro b hb
    show ∑ x ∈ Finset.range (card v), f (b.set v x) * g v (b.set v x) = f b
    have h3 : ∀ x, f (b.set v x) = f b := fun x => hf _ _ (fun w hw => by
      unfold Assignment.set
      rw [if_neg]
      rintro rfl
      exact hvp hw)
    simp only [h3]
    rw [← Finset.mul_sum, hone v (by simp) b hb, mul_one]

/-- A product of conditional distributions along an order sums to 1. -/
theorem sumOut_order_one {V l : List Nat} (g : Nat → Assignment → K) (hnd : l.Nodup) (hV : ∀ v ∈ l, v ∈ V)
    (hdep : ∀ q v r, l = q ++ v :: r → DependsOn (g v) (v :: q))
    (hone : ∀ v ∈ l, ∀ a, InRange card V a → ∑ x ∈ Finset.range (card v), g v (a.set v x) = 1) {a : Assignment} (ha : InRange card V a) :
    sumOut card l (fun b => (l.map (fun v => g v b)).prod) a = 1 := by
  have := sumOut_order (card := card) g l [] hnd hV (fun q v r hq _ => hdep q v r hq) hone (fun _ => 1) (fun _ _ _ => rfl) a ha
  simpa [sumOut] using this

/-- The conditional distribution of a variable given variables `ws` before it, on which its factor depends. -/
theorem sumOut_order_conditional {V q r : List Nat} {v : Nat} (g : Nat → Assignment → K) (hnd : (q ++ v :: r).Nodup) (hV : ∀ u ∈ q ++ v :: r, u ∈ V)
    (hdep : ∀ q' u r', q ++ v :: r = q' ++ u :: r' → DependsOn (g u) (u :: q'))
    (hone : ∀ u ∈ q ++ v :: r, ∀ a, InRange card V a → ∑ x ∈ Finset.range (card u), g u (a.set u x) = 1)
    {ws : List Nat} (hws : ∀ w ∈ ws, w ∈ q) (hgv : DependsOn (g v) (v :: ws)) {c : Assignment} (hc : InRange card V c) {a : Assignment}
    (ha : InRange card V a) :
    sumOut card (q ++ v :: r) (fun b => if Agrees (observed c (v :: ws)) b then ((q ++ v :: r).map (fun u => g u b)).prod else 0) a =
      g v c * sumOut card (q ++ v :: r) (fun b => if Agrees (observed c ws) b then ((q ++ v :: r).map (fun u => g u b)).prod else 0) a := by
  have hvq : v ∉ q := fun hv => (List.nodup_append.1 hnd).2.2 v hv v (by simp) rfl
  have hag : ∀ (us : List Nat) (b : Assignment), Agrees (observed c us) b ↔ ∀ u ∈ us, b u = c u := by
    intro us b
    unfold Agrees observed
    simp
  -- the events depend on the variables up to `v`
  have hev : ∀ us : List Nat, DependsOn (fun b => if Agrees (observed c us) b then (1 : K) else 0) us := by
    intro us b b' hb
    have : Agrees (observed c us) b ↔ Agrees (observed c us) b' := by
      rw [hag, hag]
      exact forall₂_congr (fun u hu => by rw [hb u hu])
    simp only [this]
  have hprod : DependsOn (fun b => (q.map (fun u => g u b)).prod) q := by
    refine DependsOn.listProd (fun u hu => ?_)
    obtain ⟨q1, q2, rfl⟩ := List.append_of_mem hu
    exact (hdep q1 u (q2 ++ v :: r) (by simp)).mono (by simp +contextual)
  -- sums over `q`
  have red1 : ∀ (E : Assignment → K), DependsOn E q →
      sumOut card (q ++ v :: r) (fun b => E b * ((q ++ v :: r).map (fun u => g u b)).prod) a = sumOut card q (fun b => E b * (q.map (fun u => g u b)).prod) a := by
    intro E hE
    have h1 := sumOut_order (card := card) g (v :: r) q hnd hV (fun q' u r' hq _ => hdep q' u r' hq)
      (fun u hu => hone u (by simp only [List.mem_append]; exact Or.inr hu)) (fun b => E b * (q.map (fun u => g u b)).prod) (hE.mul hprod) a ha
    rw [← h1]
    congr 1
    funext b
    simp [mul_assoc]
  have e : q ++ v :: r = (q ++ [v]) ++ r := by simp
  have red2 : ∀ (E : Assignment → K), DependsOn E (v :: q) →
      sumOut card (q ++ v :: r) (fun b => E b * ((q ++ v :: r).map (fun u => g u b)).prod) a =
        sumOut card q (sumOut card [v] (fun b => E b * (q.map (fun u => g u b)).prod * g v b)) a := by
    intro E hE
    have hgv' : DependsOn (g v) (q ++ [v]) := hgv.mono (by
      intro w hw
      rcases List.mem_cons.1 hw with rfl | hw
      · simp
      · simp [hws w hw])
    have h1 := sumOut_order (card := card) g r (q ++ [v]) (e ▸ hnd) (e ▸ hV) (fun q' u r' hq _ => hdep q' u r' (e.trans hq))
      (fun u hu => hone u (by simp [hu])) (fun b => E b * (q.map (fun u => g u b)).prod * g v b)
      (((hE.mono (by simp +contextual)).mul (hprod.mono (by simp +contextual))).mul hgv') a ha
    rw [← sumOut_append_eq, ← h1, e]
    congr 1
    funext b
    simp [mul_assoc]
  have hif : ∀ us : List Nat, (fun b => if Agrees (observed c us) b then ((q ++ v :: r).map (fun u => g u b)).prod else 0) =
      fun b => (if Agrees (observed c us) b then (1 : K) else 0) * ((q ++ v :: r).map (fun u => g u b)).prod := by
    intro us
    funext b
    split <;> simp
  rw [hif, hif, red1 _ ((hev ws).mono hws), red2 _ ((hev (v :: ws)).mono (by
    intro w hw
    rcases List.mem_cons.1 hw with rfl | hw
    · simp
    · simp [hws w hw])), ← sumOut_const_mul]
  congr 1
  funext b
  show ∑ x ∈ Finset.range (card v), (if Agrees (observed c (v :: ws)) (b.set v x) then (1 : K) else 0) * (q.map (fun u => g u (b.set v x))).prod * g v (b.set v x) = _
  rw [Finset.sum_eq_single_of_mem (c v) (Finset.mem_range.2 (hc v (hV v (by simp))))]
  · have hq1 : ((q.map (fun u => g u (b.set v (c v)))).prod) = (q.map (fun u => g u b)).prod := hprod _ _ (fun w hw => by
      unfold Assignment.set
      rw [if_neg]
      rintro rfl
      exact hvq hw)
    have hset : ∀ w ∈ ws, (b.set v (c v)) w = b w := by
      intro w hw
      unfold Assignment.set
      rw [if_neg]
      rintro rfl
      exact hvq (hws w hw)
    by_cases hA : Agrees (observed c ws) b
    · have hA' : Agrees (observed c (v :: ws)) (b.set v (c v)) := by
        rw [hag] at hA ⊢
        intro u hu
        rcases List.mem_cons.1 hu with rfl | hu
        · simp [Assignment.set]
        · rw [hset u hu, hA u hu]
      rw [if_pos hA, if_pos hA', hq1, one_mul, mul_comm]
      congr 1
      refine hgv _ _ (fun w hw => ?_)
      exact (hag (v :: ws) _).1 hA' w hw
    · have hA' : ¬ Agrees (observed c (v :: ws)) (b.set v (c v)) := by
        rw [hag] at hA ⊢
        intro h
        exact hA (fun u hu => by rw [← hset u hu]; exact h u (List.mem_cons_of_mem _ hu))
      rw [if_neg hA, if_neg hA']
      simp
  · intro x _ hx
    rw [if_neg]
    · simp
    · rw [hag]
      intro h
      exact hx (by simpa [Assignment.set] using h v (by simp))

end FastPGM
