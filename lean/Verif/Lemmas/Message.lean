import Verif.Lemmas.Marg

/-!
Two-pass message passing on functions: absorption of a clique into its neighbour, and distribution.

`C i` lists the variables of clique `i`, `V` all variables, `J` the function to be marginalised.
-/

set_option linter.unusedSectionVars false

namespace FastPGM

open Spec

variable {K : Type} [Field K] [LinearOrder K] [IsStrictOrderedRing K]

/-- The fixed data. -/
structure MsgSetup (card : Nat → Nat) (V : List Nat) (C : Nat → List Nat) (J : Assignment → K) : Prop where
  nodup : V.Nodup
  pos : ∀ v ∈ V, 0 < card v
  cnodup : ∀ i, (C i).Nodup
  csub : ∀ i, ∀ v ∈ C i, v ∈ V
  jdep : DependsOn J V
  jnonneg : ∀ a, 0 ≤ J a
  mass : ∀ a, sumOut card V J a ≠ 0

/-- The variables of the cliques in `R`. -/
def unionVars (C : Nat → List Nat) (R : Finset Nat) (v : Nat) : Prop := ∃ j ∈ R, v ∈ C j

/-- During collection: the product of the cliques not yet absorbed is proportional to the marginal of `J` on their variables. -/
structure CollectInv (card : Nat → Nat) (V : List Nat) (C : Nat → List Nat) (J : Assignment → K) (R : Finset Nat)
    (F : Nat → Assignment → K) : Prop where
  dep : ∀ i, DependsOn (F i) (C i)
  nonneg : ∀ i a, 0 ≤ F i a
  prod : ∃ c : K, 0 < c ∧ ∀ a, InRange card V a → ∏ j ∈ R, F j a = c * marg card V (unionVars C R) J a

/-- What is recorded when clique `k` is absorbed. -/
def Recorded (card : Nat → Nat) (V : List Nat) (C : Nat → List Nat) (J : Assignment → K) (F : Nat → Assignment → K) (k : Nat)
    (S : List Nat) : Prop :=
  ∃ (X : Assignment → K) (c : K), 0 < c ∧ DependsOn X S ∧
    ∀ a, InRange card V a → marg card V (fun v => v ∈ C k) J a = c * (F k a * X a)

/-- Clique `k` holds the marginal of `J`, up to a factor. -/
def Calibrated (card : Nat → Nat) (V : List Nat) (C : Nat → List Nat) (J : Assignment → K) (F : Nat → Assignment → K) (k : Nat) : Prop :=
  ∃ c : K, 0 < c ∧ ∀ a, InRange card V a → F k a = c * marg card V (fun v => v ∈ C k) J a

variable {card : Nat → Nat} {V : List Nat} {C : Nat → List Nat} {J : Assignment → K}

theorem sumOut_const {us : List Nat} {f : Assignment → K} (hf : DependsOn f us) (a b : Assignment) :
    sumOut card us f a = sumOut card us f b :=
  sumOut_agree hf (fun v hv hvu => absurd hv hvu)

theorem MsgSetup.legal (h : MsgSetup card V C J) : InRange card V (fun _ => 0) := fun v hv => h.pos v hv

/-- If the marginal on some variables vanishes, so does the total. -/
theorem MsgSetup.marg_ne_zero (h : MsgSetup card V C J) {U : Nat → Prop} (hz : ∀ a, InRange card V a → marg card V U J a = 0) : False := by
  classical
  apply h.mass (fun _ => 0)
  have e : sumOut card V J (fun _ => 0) = marg card V (fun _ => False) J (fun _ => 0) := by
    unfold marg
    congr 1
    exact (List.filter_eq_self.2 (by simp)).symm
  rw [e, marg_marg h.nodup (U := U) (E := V.filter (fun v => U v)) (h.nodup.filter _) (by intro v; simp) (fun v hv => hv.elim),
    sumOut_congr_range hz h.legal, sumOut_zero]

theorem CollectInv.sum_ne_zero (h : MsgSetup card V C J) {R : Finset Nat} {F : Nat → Assignment → K} (hI : CollectInv card V C J R F)
    {k : Nat} (hk : k ∈ R) (a0 : Assignment) : sumOut card (C k) (F k) a0 ≠ 0 := by
  intro hz
  obtain ⟨c, hc, hp⟩ := hI.prod
  apply h.marg_ne_zero (U := unionVars C R)
  intro a ha
  have h0 : F k a = 0 := by
    refine sumOut_eq_zero (hI.nonneg k) (a := a) ?_ (fun v hv => ha v (h.csub k v hv)) (fun _ _ => rfl)
    rw [sumOut_const (hI.dep k) a a0]; exact hz
  have := hp a ha
  rw [Finset.prod_eq_zero hk h0] at this
  exact (mul_eq_zero.1 this.symm).resolve_left hc.ne'

theorem CollectInv.scale {R : Finset Nat} {F : Nat → Assignment → K} (hI : CollectInv card V C J R F) {k : Nat} (hk : k ∈ R) {z : K} (hz : 0 < z) :
    CollectInv card V C J R (Function.update F k (fun a => F k a / z)) := by
  obtain ⟨c, hc, hp⟩ := hI.prod
  refine ⟨?_, ?_, c / z, div_pos hc hz, ?_⟩
  · intro i
    by_cases hi : i = k
    · subst hi
      rw [Function.update_self]
      intro a b hab
      show F i a / z = F i b / z
      rw [hI.dep i a b hab]
    · rw [Function.update_of_ne hi]; exact hI.dep i
  · intro i a
    by_cases hi : i = k
    · subst hi
      rw [Function.update_self]
      exact div_nonneg (hI.nonneg i a) hz.le
    · rw [Function.update_of_ne hi]; exact hI.nonneg i a
  · intro a ha
    rw [← Finset.mul_prod_erase R _ hk, Function.update_self]
    have : ∏ j ∈ R.erase k, Function.update F k (fun a => F k a / z) j a = ∏ j ∈ R.erase k, F j a :=
      Finset.prod_congr rfl (fun j hj => by rw [Function.update_of_ne (Finset.ne_of_mem_erase hj)])
    rw [this]
    have := hp a ha
    rw [← Finset.mul_prod_erase R _ hk] at this
    rw [div_mul_eq_mul_div, this, div_mul_eq_mul_div]

/-- The message of clique `k` over the separator `S`. -/
def message (card : Nat → Nat) (C : Nat → List Nat) (F : Nat → Assignment → K) (k : Nat) (S : List Nat) : Assignment → K :=
  sumOut card ((C k).filter (fun v => v ∉ S)) (F k)

theorem message_dep {F : Nat → Assignment → K} {k : Nat} (hF : DependsOn (F k) (C k)) {S : List Nat} : DependsOn (message card C F k S) S :=
  sumOut_dep hF (fun v hv => by
    by_cases hS : v ∈ S
    · exact Or.inr hS
    · exact Or.inl (by simp [hv, hS]))

section absorb

variable {R : Finset Nat} {F : Nat → Assignment → K} {k p : Nat} {S : List Nat}

theorem rest_dep (hI : CollectInv card V C J R F) (hrip : ∀ j ∈ R, j ≠ k → ∀ v ∈ C k, v ∈ C j → v ∈ S) (h : MsgSetup card V C J) :
    DependsOn (fun a => ∏ j ∈ R.erase k, F j a) (V.filter (fun v => v ∉ C k ∨ v ∈ S)) := by
  apply DependsOn.finprod
  intro j hj
  refine (hI.dep j).mono (fun v hv => ?_)
  simp only [List.mem_filter, decide_eq_true_eq]
  refine ⟨h.csub j v hv, ?_⟩
  by_cases hk : v ∈ C k
  · exact Or.inr (hrip j (Finset.mem_of_mem_erase hj) (Finset.ne_of_mem_erase hj) v hk hv)
  · exact Or.inl hk

/-- Absorbing clique `k` into clique `p`. -/
theorem CollectInv.absorb (h : MsgSetup card V C J) (hI : CollectInv card V C J R F) (hk : k ∈ R) (hp : p ∈ R) (hkp : p ≠ k)
    (hS1 : ∀ v ∈ S, v ∈ C k) (hS2 : ∀ v ∈ S, v ∈ C p) (hrip : ∀ j ∈ R, j ≠ k → ∀ v ∈ C k, v ∈ C j → v ∈ S) :
    CollectInv card V C J (R.erase k) (Function.update F p (fun a => F p a * message card C F k S a)) := by
  obtain ⟨c, hc, hprod⟩ := hI.prod
  have hpe : p ∈ R.erase k := Finset.mem_erase.2 ⟨hkp, hp⟩
  refine ⟨?_, ?_, c, hc, ?_⟩
  · intro i
    by_cases hi : i = p
    · subst hi
      rw [Function.update_self]
      exact (hI.dep i).mul ((message_dep (hI.dep k)).mono hS2)
    · rw [Function.update_of_ne hi]; exact hI.dep i
  · intro i a
    by_cases hi : i = p
    · subst hi
      rw [Function.update_self]
      exact mul_nonneg (hI.nonneg i a) (sumOut_nonneg (hI.nonneg k) a)
    · rw [Function.update_of_ne hi]; exact hI.nonneg i a
  · intro a ha
    rw [marg_marg h.nodup (U := unionVars C R) (E := (C k).filter (fun v => v ∉ S)) ((h.cnodup k).filter _)]
    · have e1 : ∀ b, InRange card V b → marg card V (unionVars C R) J b = c⁻¹ * (F k b * ∏ j ∈ R.erase k, F j b) := by
        intro b hb
        rw [Finset.mul_prod_erase R (fun j => F j b) hk, hprod b hb, ← mul_assoc, inv_mul_cancel₀ hc.ne', one_mul]
      rw [sumOut_congr_range e1 ha, sumOut_const_mul, sumOut_mul (rest_dep hI hrip h), ← mul_assoc, mul_inv_cancel₀ hc.ne', one_mul]
      · rw [← Finset.mul_prod_erase _ _ hpe, Function.update_self]
        have : ∏ j ∈ (R.erase k).erase p, Function.update F p (fun a => F p a * message card C F k S a) j a =
            ∏ j ∈ (R.erase k).erase p, F j a :=
          Finset.prod_congr rfl (fun j hj => by rw [Function.update_of_ne (Finset.ne_of_mem_erase hj)])
        rw [this, ← Finset.mul_prod_erase (R.erase k) (fun j => F j a) hpe]
        unfold message
        ring
      · intro u hu
        simp only [List.mem_filter, decide_eq_true_eq] at hu ⊢
        rintro ⟨_, h1 | h1⟩
        · exact h1 hu.1
        · exact hu.2 h1
    · intro v
      simp only [List.mem_filter, decide_eq_true_eq]
      constructor
      · rintro ⟨h1, h2⟩
        refine ⟨h.csub k v h1, ⟨k, hk, h1⟩, ?_⟩
        rintro ⟨j, hj, hv⟩
        exact h2 (hrip j (Finset.mem_of_mem_erase hj) (Finset.ne_of_mem_erase hj) v h1 hv)
      · rintro ⟨_, ⟨j, hj, hv⟩, h2⟩
        have hjk : j = k := by
          by_contra hne
          exact h2 ⟨j, Finset.mem_erase.2 ⟨hne, hj⟩, hv⟩
        subst hjk
        exact ⟨hv, fun hs => h2 ⟨p, hpe, hS2 v hs⟩⟩
    · rintro v ⟨j, hj, hv⟩
      exact ⟨j, Finset.mem_of_mem_erase hj, hv⟩

theorem CollectInv.recorded (h : MsgSetup card V C J) (hI : CollectInv card V C J R F) (hk : k ∈ R)
    (hrip : ∀ j ∈ R, j ≠ k → ∀ v ∈ C k, v ∈ C j → v ∈ S) : Recorded card V C J F k S := by
  classical
  obtain ⟨c, hc, hprod⟩ := hI.prod
  refine ⟨sumOut card (V.filter (fun v => unionVars C R v ∧ v ∉ C k)) (fun a => ∏ j ∈ R.erase k, F j a), c⁻¹, inv_pos.2 hc, ?_, ?_⟩
  · -- the other cliques share only `S` with clique `k`
    have hd : DependsOn (fun a => ∏ j ∈ R.erase k, F j a) (V.filter (fun v => unionVars C R v ∧ (v ∉ C k ∨ v ∈ S))) := by
      apply DependsOn.finprod
      intro j hj
      refine (hI.dep j).mono (fun v hv => ?_)
      simp only [List.mem_filter, decide_eq_true_eq]
      refine ⟨h.csub j v hv, ⟨j, Finset.mem_of_mem_erase hj, hv⟩, ?_⟩
      by_cases hkv : v ∈ C k
      · exact Or.inr (hrip j (Finset.mem_of_mem_erase hj) (Finset.ne_of_mem_erase hj) v hkv hv)
      · exact Or.inl hkv
    refine sumOut_dep hd (fun v hv => ?_)
    simp only [List.mem_filter, decide_eq_true_eq] at hv ⊢
    obtain ⟨h1, h2, h3⟩ := hv
    by_cases hkv : v ∈ C k
    · exact Or.inr (h3.resolve_left (fun h => h hkv))
    · exact Or.inl ⟨h1, h2, hkv⟩
  · intro a ha
    rw [marg_marg h.nodup (U := unionVars C R) (E := V.filter (fun v => unionVars C R v ∧ v ∉ C k)) (h.nodup.filter _)
      (by intro v; simp) (fun v hv => ⟨k, hk, hv⟩)]
    have e1 : ∀ b, InRange card V b → marg card V (unionVars C R) J b = c⁻¹ * ((∏ j ∈ R.erase k, F j b) * F k b) := by
      intro b hb
      rw [mul_comm (∏ j ∈ R.erase k, F j b), Finset.mul_prod_erase R (fun j => F j b) hk, hprod b hb, ← mul_assoc,
        inv_mul_cancel₀ hc.ne', one_mul]
    rw [sumOut_congr_range e1 ha, sumOut_const_mul, sumOut_mul (hI.dep k)]
    · ring
    · intro u hu
      simp only [List.mem_filter, decide_eq_true_eq] at hu
      exact hu.2.2

end absorb

/-- When only the root is left it holds the marginal. -/
theorem CollectInv.root {F : Nat → Assignment → K} {r : Nat} (hI : CollectInv card V C J {r} F) : Calibrated card V C J F r := by
  obtain ⟨c, hc, hp⟩ := hI.prod
  refine ⟨c, hc, fun a ha => ?_⟩
  have := hp a ha
  rw [Finset.prod_singleton] at this
  rw [this]
  congr 1
  exact congrFun (marg_congr (fun v _ => ⟨fun ⟨j, hj, hv⟩ => by rw [Finset.mem_singleton] at hj; exact hj ▸ hv,
    fun hv => ⟨r, Finset.mem_singleton_self r, hv⟩⟩) J) a

/-- The marginal of a clique's marginal. -/
theorem marg_sub (h : MsgSetup card V C J) {k : Nat} {S : List Nat} (hS : ∀ v ∈ S, v ∈ C k) (a : Assignment) :
    marg card V (fun v => v ∈ S) J a = sumOut card ((C k).filter (fun v => v ∉ S)) (marg card V (fun v => v ∈ C k) J) a :=
  marg_marg h.nodup ((h.cnodup k).filter _) (by
    intro v
    simp only [List.mem_filter, decide_eq_true_eq]
    exact ⟨fun hv => ⟨h.csub k v hv.1, hv.1, hv.2⟩, fun hv => ⟨hv.2.1, hv.2.2⟩⟩) hS J a

/-- The distribution step from a calibrated clique `p` to clique `k`. -/
theorem Calibrated.distribute (h : MsgSetup card V C J) {F : Nat → Assignment → K} {k p : Nat} {S : List Nat}
    (hnk : ∀ a, 0 ≤ F k a) (hp : Calibrated card V C J F p) (hrec : Recorded card V C J F k S)
    (hS1 : ∀ v ∈ S, v ∈ C k) (hS2 : ∀ v ∈ S, v ∈ C p) :
    Calibrated card V C J (Function.update F k (fun a => F k a *
      (if message card C F k S a = 0 then 0 else message card C F p S a / message card C F k S a))) k := by
  obtain ⟨c, hc, hF⟩ := hp
  obtain ⟨X, d, hd, hX, hM⟩ := hrec
  refine ⟨c, hc, fun a ha => ?_⟩
  rw [Function.update_self]
  have e1 : message card C F p S a = c * marg card V (fun v => v ∈ S) J a := by
    rw [marg_sub h hS2, ← sumOut_const_mul]
    exact sumOut_congr_range hF ha
  have e2 : marg card V (fun v => v ∈ S) J a = d * (message card C F k S a * X a) := by
    rw [marg_sub h hS1, sumOut_congr_range hM ha, sumOut_const_mul, sumOut_mul hX]
    · rfl
    · intro u hu
      simp only [List.mem_filter, decide_eq_true_eq] at hu
      exact hu.2
  rw [hM a ha]
  by_cases hz : message card C F k S a = 0
  · have h0 : F k a = 0 := by
      refine sumOut_eq_zero hnk hz (fun v hv => ha v (h.csub k v (List.mem_filter.1 hv).1)) (fun _ _ => rfl)
    rw [h0]
    ring
  · rw [if_neg hz, e1, e2]
    field_simp

theorem Calibrated.sum_ne_zero (h : MsgSetup card V C J) {F : Nat → Assignment → K} {k : Nat} (hk : Calibrated card V C J F k)
    (hdep : DependsOn (F k) (C k)) (a0 : Assignment) :
    ∃ c : K, 0 < c ∧ sumOut card (C k) (F k) a0 = c * sumOut card V J a0 ∧ ∀ a, InRange card V a → F k a = c * marg card V (fun v => v ∈ C k) J a := by
  classical
  obtain ⟨c, hc, hF⟩ := hk
  refine ⟨c, hc, ?_, hF⟩
  rw [sumOut_const hdep a0 (fun _ => 0), sumOut_congr_range hF h.legal, sumOut_const_mul]
  congr 1
  have := marg_marg (card := card) h.nodup (U := fun v => v ∈ C k) (U' := fun _ => False) (E := C k) (h.cnodup k)
    (by intro v; exact ⟨fun hv => ⟨h.csub k v hv, hv, id⟩, fun hv => hv.2.1⟩) (fun v hv => hv.elim) J (fun _ => 0)
  rw [← this, sumOut_const h.jdep a0 (fun _ => 0)]
  unfold marg
  congr 1
  exact List.filter_eq_self.2 (by simp)

end FastPGM
