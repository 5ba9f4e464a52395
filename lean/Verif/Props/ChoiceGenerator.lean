import Verif.Lemmas.ChoiceGenerator

/-!
Property C11: the subset generator.
-/

namespace FastPGM

/-- C11.  For `1 ≤ b ≤ a` there is a list `L` of all strictly increasing `b`-tuples of numbers in `[0, a)`, each once, in
lexicographic order, and the results of any number `k` of calls of `Next` (which is what `NextN(k)` returns) are the first `k`
elements of `L`, followed by empty vectors for ever. -/
theorem C11_choices (a b : Int) (hb : 1 ≤ b) (hab : b ≤ a) :
    ∃ g, choiceGenerator a b = .ok g ∧ ∃ L : List (List Int),
      L.Pairwise (· < ·) ∧
      (∀ c : List Int, c ∈ L ↔ (c.length : Int) = b ∧ c.Pairwise (· < ·) ∧ ∀ x ∈ c, 0 ≤ x ∧ x < a) ∧
      ∀ k, ∃ g', g.nextN k = .ok (L.take k ++ List.replicate (k - L.length) [], g') := by
  obtain ⟨n, rfl⟩ : ∃ n : Nat, b = n + 1 := ⟨(b - 1).toNat, by omega⟩
  refine ⟨_, if_neg (by omega), allChoices (a - (n + 1)) 0 0 (n + 1), allChoices_sorted _ _ _ _, ?_, ?_⟩
  · intro c
    rw [mem_allChoices, validAt_iff]
    constructor
    · rintro ⟨h1, h2, h3⟩
      refine ⟨by rw [h1]; push_cast; ring, h2, fun x hx => ?_⟩
      have := h3 x hx
      rw [h1] at this; push_cast at this
      omega
    · rintro ⟨h1, h2, h3⟩
      refine ⟨by omega, h2, fun x hx => ?_⟩
      have := h3 x hx
      rw [h1]
      push_cast
      omega
  · have hm : ∀ c, c ∈ allChoices (a - (n + 1)) 0 0 (n + 1) ↔ c.length = n + 1 ∧ ValidAt (a - (n + 1)) 0 0 c :=
      fun c => mem_allChoices
    have hs := allChoices_sorted (a - (n + 1)) 0 0 (n + 1)
    generalize hL : allChoices (a - (n + 1)) 0 0 (n + 1) = L at hm hs
    -- the first choice
    have hfirst : runFrom 0 (n + 1) ∈ L := (hm _).2 ⟨by simp, validAt_run 0 0 _ (by push_cast; omega)⟩
    have hpos : 0 < L.length := List.length_pos_of_mem hfirst
    have h0 : L[0] = runFrom 0 (n + 1) := by
      have hm0 := (hm L[0]).1 (List.getElem_mem hpos)
      have hle : runFrom 0 (n + 1) ≤ L[0] := by
        have := run_le hm0.2
        rwa [hm0.1] at this
      obtain ⟨j, hj, hj'⟩ := List.getElem_of_mem hfirst
      rcases Nat.eq_zero_or_pos j with h | h
      · subst h; exact hj'
      · have := List.pairwise_iff_getElem.1 hs 0 j hpos hj h
        rw [hj'] at this
        exact absurd this (not_lt.2 hle)
    intro k
    cases k with
    | zero =>
      rw [Nat.zero_sub]
      exact ⟨_, rfl⟩
    | succ k =>
      obtain ⟨g', hg⟩ := nextN_from (Nat.succ_pos n) hs hm k 0 hpos
      refine ⟨g', ?_⟩
      rw [ChoiceGen.nextN]
      have hlen : ((List.range (((n : Int) + 1).toNat - 1)).map (fun i : Nat => (i : Int)) ++ [(n : Int) + 1 - 2]).length =
          ((n : Int) + 1).toNat := by simp
      rw [next_eq _ _ _ hlen (by omega)]
      have hsucc : succAt (a - (n + 1)) 0
          ((List.range (((n : Int) + 1).toNat - 1)).map (fun i : Nat => (i : Int)) ++ [(n : Int) + 1 - 2]) =
          some (runFrom 0 (n + 1)) := by
        have hpos := posAt_append (a - (n + 1)) 0 ((List.range (((n : Int) + 1).toNat - 1)).map (fun i : Nat => (i : Int)))
          ((n : Int) + 1 - 2)
        rw [if_pos (by simp; omega)] at hpos
        obtain ⟨q, hq, hpq, hsq⟩ := (succAt_eq _ _ _).1 _ hpos
        rw [hsq]
        have hq' : q = n := by simp at hpq; omega
        subst hq'
        congr 1
        have hl : ((List.range (((q : Int) + 1).toNat - 1)).map (fun i : Nat => (i : Int))).length = q := by simp
        rw [List.take_left' hl]
        have hlen' : ((List.range (((q : Int) + 1).toNat - 1)).map (fun i : Nat => (i : Int)) ++ [(q : Int) + 1 - 2]).length -
          q = 1 := by rw [List.length_append, hl]; simp
        rw [hlen']
        apply List.ext_getElem?
        intro j
        by_cases hj : j < q
        · rw [List.getElem?_append_left (by simpa using hj), runFrom_get? _ _ _ (by omega)]
          simp [hj]
        · by_cases hj2 : j = q
          · subst hj2
            rw [List.getElem?_append_right (by simp), runFrom_get? _ _ _ (by omega), hl, Nat.sub_self,
              runFrom_get? _ _ _ (by omega), List.getElem_append_right (by simp)]
            simp
            ring
          · rw [List.getElem?_eq_none (by simp; omega), List.getElem?_eq_none (by simp; omega)]
      rw [hsucc]
      simp only [ok_bind]
      have hb' : ((n : Int) + 1).toNat = n + 1 := by omega
      rw [hb', ← h0, hg]
      simp only [ok_bind, pure_eq_ok]
      have hcons : L = L[0] :: L.drop 1 := List.drop_eq_getElem_cons (i := 0) hpos
      have htake : L.take (k + 1) = L[0] :: (L.drop 1).take k := by
        conv_lhs => rw [hcons]
        rfl
      rw [htake, Nat.zero_add, List.length_drop, show k + 1 - L.length = k - (L.length - 1) by omega]
      rfl

example : (1 : Int) ≤ 2 ∧ (2 : Int) ≤ 4 := by decide

example : (do let g ← choiceGenerator 4 2; let r ← g.nextN 8; return r.1) =
    .ok [[0, 1], [0, 2], [0, 3], [1, 2], [1, 3], [2, 3], [], []] := by decide

/-- C11, `NextN` is repeated `Next`: asking for `m + n` choices is asking for `m` and then for `n`. -/
theorem C11_nextN_add (g : ChoiceGen) (m n : Nat) :
    g.nextN (m + n) = (do
      let (x, g) ← g.nextN m
      let (y, g) ← g.nextN n
      return (x ++ y, g)) := by
  induction m generalizing g with
  | zero =>
    rw [Nat.zero_add]
    simp only [ChoiceGen.nextN, ok_bind, List.nil_append, pure_eq_ok]
    cases g.nextN n <;> rfl
  | succ m ih =>
    rw [Nat.succ_add, ChoiceGen.nextN, ChoiceGen.nextN]
    cases hn : g.next with
    | error e => rfl
    | ok r =>
      simp only [ok_bind]
      rw [ih]
      cases r.2.nextN m with
      | error e => rfl
      | ok s =>
        simp only [ok_bind, pure_eq_ok]
        cases s.2.nextN n <;> rfl

/-- C11, degenerate cases: an invalid request stops the program; for `b = 0` the generator returns nothing at all (not the one
empty tuple, which could not be told from the end marker). -/
theorem C11_invalid (a b : Int) (h : a < 0 ∨ b < 0 ∨ a < b) : choiceGenerator a b = .error .exit := if_pos h

theorem C11_zero (a : Int) (h : 0 ≤ a) (k : Nat) :
    ∃ g, choiceGenerator a 0 = .ok g ∧ g.nextN k = .ok (List.replicate k [], g) := by
  refine ⟨_, if_neg (by omega), ?_⟩
  induction k with
  | zero => rfl
  | succ k ih =>
    rw [ChoiceGen.nextN]
    have : (⟨(0 : Int).toNat, a - 0, (List.range ((0 : Int).toNat - 1)).map (fun i : Nat => (i : Int)) ++ [0 - 2]⟩ : ChoiceGen).next =
      .ok ([], ⟨(0 : Int).toNat, a - 0, (List.range ((0 : Int).toNat - 1)).map (fun i : Nat => (i : Int)) ++ [0 - 2]⟩) := rfl
    rw [this]
    simp only [ok_bind]
    rw [ih]
    rfl

end FastPGM
