import Verif.Lemmas.Dataset3
import Verif.Model.Parameter

/-!
Property C122: the integers in file names, files, node names and messages.  `intToStr` stands for `std::to_string(int)` wherever the model
writes a number; here it is compared with Lean's own decimal notation.
-/

namespace FastPGM

theorem natDigits_eq (n : Nat) : natDigits n = (Nat.toDigits 10 n).map (fun c => (c.toNat : Int)) := by
  induction n using Nat.strongRecOn with
  | _ n ih =>
    have hd : ∀ d < 10, ((Nat.digitChar d).toNat : Int) = 48 + (d : Int) := by decide
    rw [natDigits]
    split
    · next h => rw [Nat.toDigits_of_lt_base h]; simp [hd n h]
    · next h =>
      rw [Nat.toDigits_of_base_le (by omega) (by omega), List.map_append, ih (n / 10) (by omega)]
      simp only [List.map_cons, List.map_nil, hd (n % 10) (Nat.mod_lt _ (by omega))]

/-- C122.  A number is written in the usual decimal notation: the digits without leading zeros, after a minus sign if it is negative. -/
theorem C122_decimal (i : Int) : intToStr i = (toString i).toList.map (fun c => (c.toNat : Int)) := by
  rw [Int.toString_eq_repr, Int.repr_eq_if]
  unfold intToStr
  by_cases h : i < 0
  · rw [if_pos h, if_neg (by omega), natDigits_eq, String.toList_append, Nat.toList_repr, List.map_append]
    have : i.natAbs = (-i).toNat := by omega
    rw [this]
    rfl
  · rw [if_neg h, if_pos (by omega), natDigits_eq, Nat.toList_repr]
    have : i.natAbs = i.toNat := by omega
    rw [this]

/-- C122.  Every `int` that is written is read back by `stoi`. -/
theorem C122_read {i : Int} (h : -2147483648 ≤ i ∧ i ≤ 2147483647) : stoi ((toString i).toList.map (fun c => (c.toNat : Int))) = .ok i := by
  rw [← C122_decimal]
  exact stoi_intToStr (by unfold inInt; simpa using h)

/-- C122.  Different numbers have different texts; so the names that unnamed nodes get from their indexes are distinct. -/
theorem C122_distinct {i j : Int} (h : intToStr i = intToStr j) : i = j := by
  have hi := numberPart_intToStr i
  have hj := numberPart_intToStr j
  rw [h, hj] at hi
  have h1 := congrArg Prod.fst hi
  have h2 : natDigits j.natAbs = natDigits i.natAbs := congrArg Prod.snd hi
  have h3 : i.natAbs = j.natAbs := by
    rw [natDigits_eq, natDigits_eq] at h2
    have h4 := List.map_injective_iff.2 (fun (a b : Char) (e : (a.toNat : Int) = (b.toNat : Int)) => Char.toNat_inj.1 (by exact_mod_cast e)) h2
    have h5 := congrArg (fun l => Nat.ofDigitChars 10 l 0) h4
    simp only [Nat.ofDigitChars_ten_toDigits] at h5
    exact h5.symm
  have h1' : (decide (j < 0)) = decide (i < 0) := h1
  by_cases hi0 : i < 0 <;> by_cases hj0 : j < 0 <;> simp [hi0, hj0] at h1' <;> omega

example : intToStr (-1070) = [45, 49, 48, 55, 48] ∧ toString (-1070 : Int) = "-1070" ∧ intToStr 0 = [48] := by
  refine ⟨?_, by decide +kernel, ?_⟩
  · rw [C122_decimal]; decide +kernel
  · rw [C122_decimal]; decide +kernel

example : stoi (intToStr 2147483647) = .ok 2147483647 ∧ stoi (intToStr 2147483648) = .error .throw := by
  constructor
  · rw [C122_decimal]; exact C122_read (by omega)
  · rw [C122_decimal]; decide +kernel

end FastPGM
