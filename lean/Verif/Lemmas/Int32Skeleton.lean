import Verif.Model.Int32Skeleton
import Verif.Lemmas.Int32Test2
import Verif.Lemmas.JTParallel
import Verif.Lemmas.Skeleton6

/-!
Helper lemmas for `Verif.Model.Int32Skeleton`.
-/

namespace FastPGM

open Spec

variable {K : Type}

theorem triangle_le {n i : Nat} (h : i < n) : (2 * n - i - 1) * i ≤ (n - 1) * n := by
  obtain ⟨k, rfl⟩ := Nat.exists_eq_add_of_lt h
  rw [show 2 * (i + k + 1) - i - 1 = i + 2 * k + 1 by omega, show i + k + 1 - 1 = i + k by omega]
  have : (i + k) * (i + k + 1) = (i + 2 * k + 1) * i + (k * k + k) := by ring
  omega

theorem square_le {n : Nat} : (n - 1) * n ≤ intMax ↔ n ≤ 46341 := by
  constructor
  · intro h
    by_contra h'
    have : 46341 * 46342 ≤ (n - 1) * n := Nat.mul_le_mul (by omega) (by omega)
    unfold intMax at h
    omega
  · intro h
    have : (n - 1) * n ≤ 46340 * 46341 := Nat.mul_le_mul (by omega) h
    unfold intMax
    omega

theorem completeGraphEdges32_eq (n : Nat) : completeGraphEdges32 n = if n ≤ 46341 then completeGraphEdges n else .error .ub := by
  unfold completeGraphEdges32
  by_cases h : n ≤ 46341
  · rw [if_pos h, mul32_ok (square_le.2 h), ok_bind]
    unfold completeGraphEdges
    simp only
    refine foldlM_congr (fun acc i hi => foldlM_congr (fun acc j hj => ?_))
    have hi := List.mem_range.1 hi
    have hj := (List.mem_filter.1 hj).1
    have hj := List.mem_range.1 hj
    have h1 := triangle_le hi
    have h2 := square_le.2 h
    rw [mul32_ok (by unfold intMax; omega), ok_bind, mul32_ok (by omega), ok_bind, add32_ok ?_, ok_bind]
    have h3 : (n - 1) * n ≤ 46340 * 46341 := Nat.mul_le_mul (by omega) h
    have h4 : (2 * n - i - 1) * i / 2 ≤ 46340 * 46341 / 2 := Nat.div_le_div_right (by omega)
    unfold intMax
    omega
  · rw [if_neg h, mul32_ub (by have := mt square_le.1 h; omega), ub_bind]

theorem nextN_length : ∀ (m : Nat) (gen : ChoiceGen) {cs gen'}, gen.nextN m = .ok (cs, gen') → cs.length = m := by
  intro m
  induction m with
  | zero => intro gen cs gen' h; cases h; rfl
  | succ m ih =>
    intro gen cs gen' h
    rw [ChoiceGen.nextN] at h
    obtain ⟨⟨c, g1⟩, -, h⟩ := bind_eq_ok h
    obtain ⟨⟨cs', g2⟩, h2, h⟩ := bind_eq_ok h
    cases h
    simp [ih g1 h2]

theorem pickSet_length {vecAdj : List Nat} {choice : List Int} {d : Nat} {s : List Nat} (h : pickSet vecAdj choice d = .ok s) : s.length = d := by
  have := (mapM_get h).1
  simpa using this

/-- Two tests that give the same answers for groups of at most `g` sets of `d` variables. -/
def AgreeAt (ci ci' : CITest) (d g : Nat) : Prop :=
  ∀ x y (sets : List (List Nat)), sets ≠ [] → sets.length ≤ g → (∀ s ∈ sets, s.length = d) →
    ci x y sets.flatten sets.length = ci' x y sets.flatten sets.length

section

variable {ci ci' : CITest} {d g : Nat} (h : AgreeAt ci ci' d g)

include h

theorem testing_agree (e : WorkEdge) : testing ci d g e = testing ci' d g e := by
  unfold testing
  cases e.cg with
  | none => rfl
  | some gen =>
    simp only
    cases hn : gen.nextN g with
    | error f => rfl
    | ok r =>
      obtain ⟨choices, gen'⟩ := r
      rw [ok_bind, ok_bind]
      simp only
      cases hc : rd choices 0 with
      | error f => rfl
      | ok c0 =>
        rw [ok_bind, ok_bind]
        by_cases h0 : c0 = []
        · rw [if_neg (by simp [h0]), if_neg (by simp [h0])]
        · rw [if_pos h0, if_pos h0]
          cases hm : (choices.takeWhile (fun c => c ≠ [])).mapM (fun c => pickSet e.vecAdj c d) with
          | error f => rfl
          | ok sets =>
            rw [ok_bind, ok_bind]
            obtain ⟨hl, hg⟩ := mapM_get hm
            have hne : choices.takeWhile (fun c => c ≠ []) ≠ [] := by
              cases choices with
              | nil => cases hc
              | cons c cs =>
                cases hc
                rw [List.takeWhile_cons, if_pos (by simpa using h0)]
                simp
            have hlen := nextN_length g gen hn
            have htl : (choices.takeWhile (fun c => c ≠ [])).length ≤ choices.length := (List.takeWhile_sublist _).length_le
            rw [← hl, h e.x e.y sets (by rintro rfl; exact hne (List.length_eq_zero_iff.1 hl.symm)) (by omega) ?_]
            intro s hs
            obtain ⟨i, hi⟩ := List.mem_iff_getElem?.1 hs
            have hi' : i < (choices.takeWhile (fun c => c ≠ [])).length := by
              rw [← hl]
              exact (List.getElem?_eq_some_iff.1 hi).1
            obtain ⟨s', h1, h2⟩ := hg i _ (List.getElem?_eq_getElem hi')
            rw [hi] at h1
            cases h1
            exact pickSet_length h2

theorem checkTests_agree (e : WorkEdge) : checkTests ci d g e = checkTests ci' d g e := by
  unfold checkTests
  rw [testing_agree h]

theorem checkEdge_agree (adj : List (List Nat)) (e : WorkEdge) : checkEdge ci adj d g e = checkEdge ci' adj d g e := by
  unfold checkEdge
  simp only [checkTests_agree h]

theorem levelBatch_agree (adj : List (List Nat)) (st : LevelState) (order : List Nat) :
    levelBatch ci adj d g st order = levelBatch ci' adj d g st order := by
  unfold levelBatch levelStep
  simp only [checkEdge_agree h]

theorem levelLoop_agree (adj : List (List Nat)) (cap : Nat) (sched : Schedule) (fuel : Nat) :
    ∀ (st : LevelState) (stack : List Nat), levelLoop ci adj d g cap sched fuel st stack = levelLoop ci' adj d g cap sched fuel st stack := by
  induction fuel with
  | zero => intro st stack; cases stack <;> rfl
  | succ fuel ih =>
    intro st stack
    cases stack with
    | nil => rfl
    | cons id stack => simp only [levelLoop, levelBatch_agree h, ih]

theorem searchAtDepth_agree (cap : Nat) (sched : Schedule) (fuel : Nat) (k : Skeleton) :
    searchAtDepth ci d g cap sched fuel k = searchAtDepth ci' d g cap sched fuel k := by
  unfold searchAtDepth
  simp only [levelLoop_agree h]

end

theorem levels_agree {ci ci' : CITest} {g cap : Nat} {sched : Nat → Schedule} {fuel : Nat} :
    ∀ (count d : Nat), (∀ e, d ≤ e → e < d + count → AgreeAt ci ci' e g) → ∀ k : Skeleton,
      levels ci g cap sched fuel d count k = levels ci' g cap sched fuel d count k := by
  intro count
  induction count with
  | zero => intro d _ k; rfl
  | succ count ih =>
    intro d h k
    unfold levels
    rw [searchAtDepth_agree (h d (by omega) (by omega))]
    simp only [ih (d + 1) (fun e h1 h2 => h e (by omega) (by omega))]

theorem level0_32_agree {ci ci' : CITest} (h : ∀ x y, ci x y [] 1 = ci' x y [] 1) {n : Nat} (hn : n ≤ 46341) (order : List Nat) :
    level0_32 ci n order = level0 ci' n order := by
  unfold level0_32 level0
  rw [completeGraphEdges32_eq, if_pos hn]
  have : level0Step ci = level0Step ci' := by
    funext st i
    unfold level0Step
    simp only [h]
  rw [this]
  rfl

end FastPGM
