import Verif.Model.NaryCount
import Verif.Lemmas.Except
import Mathlib.Data.List.Lex
import Mathlib.Data.List.Forall2
import Mathlib.Algebra.BigOperators.Group.List.Basic
import Mathlib.Tactic.Linarith
import Mathlib.Tactic.Ring

/-!
The counter of `NaryCount`: its state after `k` rounds is the mixed-radix numeral of `k`.
-/

namespace FastPGM

/-- Increment of a little-endian counter `cs` with most significant digit `c0`. -/
def incLE (c0 : Nat) : List Nat → List Nat → Nat × List Nat
  | r :: rs, c :: cs =>
    if c + 1 ≥ r then ((incLE c0 rs cs).1, 0 :: (incLE c0 rs cs).2) else (c0, (c + 1) :: cs)
  | _, cs => (c0 + 1, cs)

theorem incLE_length (c0 : Nat) (rs cs : List Nat) : (incLE c0 rs cs).2.length = cs.length := by
  induction rs generalizing cs with
  | nil => cases cs <;> simp [incLE]
  | cons r rs ih =>
    cases cs with
    | nil => simp [incLE]
    | cons c cs =>
      rw [incLE]; split
      · simp [ih]
      · simp

theorem naryIncrement_eq (r0 c0 : Nat) (rpre pre rs cs : List Nat) (hl : rs.length = cs.length)
    (hp : rpre.length = pre.length) :
    naryIncrement (r0 :: (rpre ++ rs)) (List.range' (1 + pre.length) cs.length ++ [0]) (c0 :: (pre ++ cs)) =
      .ok ((incLE c0 rs cs).1 :: (pre ++ (incLE c0 rs cs).2)) := by
  induction rs generalizing cs pre rpre with
  | nil =>
    have : cs = [] := List.length_eq_zero_iff.1 hl.symm
    subst this
    rw [List.length_nil, List.range'_zero, List.nil_append, naryIncrement, rd_ok (a := c0) (by simp), ok_bind,
      wr_ok (by simp), ok_bind, rd_ok (a := r0) (by simp), ok_bind]
    simp [incLE]
  | cons r rs ih =>
    cases cs with
    | nil => simp at hl
    | cons c cs =>
      have h1 : (c0 :: (pre ++ c :: cs))[1 + pre.length]? = some c := by
        rw [Nat.add_comm, List.getElem?_cons_succ, List.getElem?_append_right (le_refl _)]; simp
      have h2 : (r0 :: (rpre ++ r :: rs))[1 + pre.length]? = some r := by
        rw [Nat.add_comm, List.getElem?_cons_succ, ← hp, List.getElem?_append_right (le_refl _)]; simp
      have h3 : ∀ x, (c0 :: (pre ++ c :: cs)).set (1 + pre.length) x = c0 :: (pre ++ x :: cs) := by
        intro x
        rw [Nat.add_comm, List.set_cons_succ, List.set_append_right _ _ (le_refl _)]; simp
      rw [List.length_cons, List.range'_succ, List.cons_append, naryIncrement, rd_ok h1, ok_bind,
        wr_ok (by simp; omega), ok_bind, rd_ok h2, ok_bind, h3]
      by_cases h : c + 1 ≥ r
      · rw [if_pos ⟨h, by simp⟩, wr_ok (by simp; omega), ok_bind]
        rw [show (c0 :: (pre ++ (c + 1) :: cs)).set (1 + pre.length) 0 = c0 :: ((pre ++ [0]) ++ cs) by
          rw [Nat.add_comm 1, List.set_cons_succ, List.set_append_right _ _ (le_refl _)]; simp]
        have := ih (rpre ++ [r]) (pre ++ [0]) cs (by simpa using hl) (by simp [hp])
        rw [List.append_assoc, List.length_append, List.length_singleton, ← Nat.add_assoc] at this
        rw [List.singleton_append] at this
        rw [this, incLE, if_pos h]
        simp
      · rw [if_neg (by tauto), incLE, if_neg h]
        rfl

/-- The number a counter state stands for. -/
def counterVal (c0 : Nat) : List Nat → List Nat → Nat
  | r :: rs, c :: cs => c + r * counterVal c0 rs cs
  | _, _ => c0

theorem counterVal_incLE (c0 : Nat) (rs cs : List Nat) (h : List.Forall₂ (· < ·) cs rs) :
    counterVal (incLE c0 rs cs).1 rs (incLE c0 rs cs).2 = counterVal c0 rs cs + 1 ∧
      List.Forall₂ (· < ·) (incLE c0 rs cs).2 rs := by
  induction h with
  | nil => exact ⟨rfl, List.Forall₂.nil⟩
  | @cons c r cs rs hcr hr ih =>
    rw [incLE]
    split
    · rename_i hge
      refine ⟨?_, List.Forall₂.cons (by omega) ih.2⟩
      simp only [counterVal]
      rw [ih.1]
      have : r = c + 1 := by omega
      subst this
      ring
    · rename_i hge
      refine ⟨?_, List.Forall₂.cons (by omega) hr⟩
      simp only [counterVal]
      ring

theorem counterVal_lt {c0 r0 : Nat} {cs rs : List Nat} (h : List.Forall₂ (· < ·) cs rs) :
    counterVal c0 rs cs < r0 * rs.prod ↔ c0 < r0 := by
  induction h with
  | nil => simp [counterVal]
  | @cons c r cs rs hcr hr ih =>
    rw [counterVal, List.prod_cons, ← ih]
    constructor
    · intro h
      by_contra hge
      have : r * (r0 * rs.prod) ≤ r * counterVal c0 rs cs := Nat.mul_le_mul_left _ (by omega)
      have e : r0 * (r * rs.prod) = r * (r0 * rs.prod) := by ring
      omega
    · intro h
      calc c + r * counterVal c0 rs cs < r + r * counterVal c0 rs cs := by omega
        _ = r * (counterVal c0 rs cs + 1) := by ring
        _ ≤ r * (r0 * rs.prod) := Nat.mul_le_mul_left _ h
        _ = r0 * (r * rs.prod) := by ring

theorem counterVal_inj {c0 d0 : Nat} {cs ds rs : List Nat} (hc : List.Forall₂ (· < ·) cs rs) (hd : List.Forall₂ (· < ·) ds rs)
    (h : counterVal c0 rs cs = counterVal d0 rs ds) : c0 = d0 ∧ cs = ds := by
  induction hc generalizing ds with
  | nil => cases hd; exact ⟨h, rfl⟩
  | @cons c r cs rs hcr hr ih =>
    cases hd with
    | @cons d _ ds _ hdr hds =>
      rw [counterVal, counterVal] at h
      have h1 : c = d := by
        have := congrArg (· % r) h
        simpa [Nat.add_mul_mod_self_left, Nat.mod_eq_of_lt hcr, Nat.mod_eq_of_lt hdr] using this
      subst h1
      have hr0 : 0 < r := by omega
      have := Nat.eq_of_mul_eq_mul_left hr0 (Nat.add_left_cancel h)
      obtain ⟨h2, h3⟩ := ih hds this
      exact ⟨h2, by rw [h3]⟩

theorem lt_append_of_lt {a b : List Nat} (h : a < b) (hl : a.length = b.length) (x y : List Nat) : a ++ x < b ++ y := by
  induction a generalizing b with
  | nil =>
    have : b = [] := List.length_eq_zero_iff.1 hl.symm
    subst this
    exact absurd h (lt_irrefl _)
  | cons u us ih =>
    cases b with
    | nil => simp at hl
    | cons v vs =>
      rcases List.cons_lt_cons_iff.1 h with h' | ⟨rfl, h'⟩
      · exact List.Lex.rel h'
      · exact List.Lex.cons (ih h' (by simpa using hl))

theorem append_lt_append {a : List Nat} {x y : Nat} (h : x < y) : a ++ [x] < a ++ [y] := by
  induction a with
  | nil => exact List.Lex.rel h
  | cons u us ih => exact List.Lex.cons ih

theorem counterVal_lex {c0 d0 : Nat} {cs ds rs : List Nat} (hc : List.Forall₂ (· < ·) cs rs) (hd : List.Forall₂ (· < ·) ds rs)
    (h : counterVal c0 rs cs < counterVal d0 rs ds) : c0 :: cs.reverse < d0 :: ds.reverse := by
  induction hc generalizing ds with
  | nil => cases hd; exact List.Lex.rel h
  | @cons c r cs rs hcr hr ih =>
    cases hd with
    | @cons d _ ds _ hdr hds =>
      rw [counterVal, counterVal] at h
      rw [List.reverse_cons, List.reverse_cons, ← List.cons_append, ← List.cons_append]
      rcases lt_trichotomy (counterVal c0 rs cs) (counterVal d0 rs ds) with h1 | h1 | h1
      · refine lt_append_of_lt (ih hds h1) ?_ _ _
        simp [hr.length_eq, hds.length_eq]
      · obtain ⟨rfl, rfl⟩ := counterVal_inj hr hds h1
        exact append_lt_append (by omega)
      · exfalso
        have : r * (counterVal d0 rs ds + 1) ≤ r * counterVal c0 rs cs := Nat.mul_le_mul_left _ h1
        rw [Nat.mul_add, Nat.mul_one] at this
        omega

/-- The state after `k` rounds. -/
def counterAt (rs : List Nat) : Nat → Nat × List Nat
  | 0 => (0, List.replicate rs.length 0)
  | k + 1 => incLE (counterAt rs k).1 rs (counterAt rs k).2

theorem counterVal_zero (rs : List Nat) : counterVal 0 rs (List.replicate rs.length 0) = 0 := by
  induction rs with
  | nil => rfl
  | cons r rs ih => simp [List.replicate_succ, counterVal, ih]

theorem forall_zero {rs : List Nat} (h : ∀ r ∈ rs, 0 < r) : List.Forall₂ (· < ·) (List.replicate rs.length 0) rs := by
  induction rs with
  | nil => exact List.Forall₂.nil
  | cons r rs ih => exact List.Forall₂.cons (h r (by simp)) (ih (fun x hx => h x (by simp [hx])))

theorem counterAt_spec {rs : List Nat} (h : ∀ r ∈ rs, 0 < r) (k : Nat) :
    counterVal (counterAt rs k).1 rs (counterAt rs k).2 = k ∧ List.Forall₂ (· < ·) (counterAt rs k).2 rs := by
  induction k with
  | zero => exact ⟨counterVal_zero rs, forall_zero h⟩
  | succ k ih =>
    obtain ⟨h1, h2⟩ := counterVal_incLE (counterAt rs k).1 rs _ ih.2
    exact ⟨by rw [counterAt, h1, ih.1], h2⟩

theorem naryCount_eq (r0 : Nat) (rs : List Nat) :
    naryCount (r0 :: rs) = .ok ((List.range (r0 * rs.prod)).map (fun k => (counterAt rs k).1 :: (counterAt rs k).2)) := by
  unfold naryCount
  rw [List.prod_cons, List.length_cons, Nat.add_sub_cancel]
  have hlen : ∀ k, (counterAt rs k).2.length = rs.length := by
    intro k
    induction k with
    | zero => simp [counterAt]
    | succ k ih => rw [counterAt, incLE_length, ih]
  have := foldlM_range_eq (ε := Fault) (n := r0 * rs.prod)
    (f := fun (s : List (List Nat) × List Nat) (_ : Nat) => do
      let count ← naryIncrement (r0 :: rs) (List.range' 1 rs.length ++ [0]) s.2
      return (s.1 ++ [s.2], count))
    (s := fun k => ((List.range k).map (fun k => (counterAt rs k).1 :: (counterAt rs k).2),
      (counterAt rs k).1 :: (counterAt rs k).2)) ?_
  · simp only [counterAt, List.range_zero, List.map_nil] at this
    simp only [List.replicate_succ]
    rw [this]
    rfl
  · intro k _
    have := naryIncrement_eq r0 (counterAt rs k).1 [] [] rs (counterAt rs k).2 (hlen k).symm rfl
    simp only [List.nil_append, List.length_nil, Nat.add_zero, hlen] at this
    simp only
    rw [this, ok_bind, List.range_succ, List.map_append]
    rfl

end FastPGM
