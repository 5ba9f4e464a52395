import Verif.Model.NodeOrder
import Mathlib.Data.List.Perm.Basic
import Mathlib.Data.List.Basic
import Mathlib.Tactic.Ring

/-!
The order of the nodes for structure learning (C127).
-/

namespace FastPGM

theorem swapAt_length (l : List Nat) (i j : Nat) : (swapAt l i j).length = l.length := by
  simp [swapAt]

theorem swapAt_get {l : List Nat} {i j : Nat} (hi : i < l.length) (hj : j < l.length) (k : Nat) :
    (swapAt l i j)[k]? = if k = j then l[i]? else if k = i then l[j]? else l[k]? := by
  unfold swapAt
  rw [List.getElem?_set, List.getElem?_set]
  simp only [List.length_set]
  by_cases h1 : j = k
  · subst h1
    simp [hi, hj]
  · rw [if_neg h1, if_neg (Ne.symm h1)]
    by_cases h2 : i = k
    · subst h2
      simp [hi, hj]
    · rw [if_neg h2, if_neg (Ne.symm h2)]

theorem swapAt_swapAt {l : List Nat} {i j : Nat} (hi : i < l.length) (hj : j < l.length) : swapAt (swapAt l i j) i j = l := by
  apply List.ext_getElem?
  intro k
  have hi' : i < (swapAt l i j).length := by rw [swapAt_length]; exact hi
  have hj' : j < (swapAt l i j).length := by rw [swapAt_length]; exact hj
  rw [swapAt_get hi' hj', swapAt_get hi hj, swapAt_get hi hj, swapAt_get hi hj]
  by_cases h1 : k = j
  · subst h1
    by_cases h2 : i = k
    · subst h2; simp
    · simp [h2]
  · by_cases h2 : k = i
    · subst h2; simp [h1]
    · simp [h1, h2]

theorem swapAt_perm {l : List Nat} {i j : Nat} (hi : i < l.length) (hj : j < l.length) : (swapAt l i j).Perm l := by
  rw [List.perm_iff_count]
  intro a
  unfold swapAt
  have e1 : l.getD i 0 = l[i] := by simp [hi]
  have e2 : l.getD j 0 = l[j] := by simp [hj]
  rw [e1, e2]
  by_cases h : i = j
  · subst h; simp
  exact ((List.perm_iff_count.1 (List.set_set_perm hi hj)) a)

theorem swapAt_append {l : List Nat} {i j : Nat} (hi : i < l.length) (hj : j < l.length) (m : List Nat) :
    swapAt (l ++ m) i j = swapAt l i j ++ m := by
  unfold swapAt
  rw [List.getD_eq_getElem?_getD, List.getD_eq_getElem?_getD, List.getElem?_append_left hi, List.getElem?_append_left hj,
    ← List.getD_eq_getElem?_getD, ← List.getD_eq_getElem?_getD, List.set_append_left _ _ hi, List.set_append_left _ _ (by simpa using hj)]

/-- The exchanges for the entries 1, …, `n` of a vector that begins with `0, …, n`: the entries behind are not touched. -/
theorem shuffle_succ (rand : Nat → Nat) (n : Nat) :
    randomShuffle rand (List.range (n + 2)) = swapAt (randomShuffle rand (List.range (n + 1)) ++ [n + 1]) (n + 1) (rand (n + 1) % (n + 2)) := by
  unfold randomShuffle
  rw [List.length_range, List.length_range, show n + 2 - 1 = n + 1 from rfl, show n + 1 - 1 = n from rfl, List.range'_concat, List.foldl_append,
    List.range_succ (n := n + 1)]
  have key : ∀ (k : Nat) (l m : List Nat), k + 1 ≤ l.length →
      (List.range' 1 k).foldl (fun l i => swapAt l i (rand i % (i + 1))) (l ++ m) =
        (List.range' 1 k).foldl (fun l i => swapAt l i (rand i % (i + 1))) l ++ m ∧
      ((List.range' 1 k).foldl (fun l i => swapAt l i (rand i % (i + 1))) l).length = l.length := by
    intro k
    induction k with
    | zero => intro l m _; exact ⟨rfl, rfl⟩
    | succ k ih =>
      intro l m hl
      obtain ⟨h1, h2⟩ := ih l m (by omega)
      rw [List.range'_concat, List.foldl_append, List.foldl_append, h1]
      have hb : rand (1 + 1 * k) % (1 + 1 * k + 1) < 1 + 1 * k + 1 := Nat.mod_lt _ (by omega)
      constructor
      · exact swapAt_append (by rw [h2]; omega) (by rw [h2]; omega) m
      · show (swapAt _ _ _).length = _
        rw [swapAt_length, h2]
  rw [(key n _ [n + 1] (by simp)).1]
  show swapAt _ (1 + 1 * n) (rand (1 + 1 * n) % (1 + 1 * n + 1)) = _
  rw [show 1 + 1 * n = n + 1 by omega]

theorem shuffle_perm (rand : Nat → Nat) : ∀ n, (randomShuffle rand (List.range n)).Perm (List.range n)
  | 0 => List.Perm.refl _
  | 1 => List.Perm.refl _
  | n + 2 => by
    have ih := shuffle_perm rand (n + 1)
    have hl : (randomShuffle rand (List.range (n + 1)) ++ [n + 1]).length = n + 2 := by
      rw [List.length_append, ih.length_eq]; simp
    have hb : rand (n + 1) % (n + 2) < n + 2 := Nat.mod_lt _ (by omega)
    rw [shuffle_succ]
    refine (swapAt_perm (by omega) (by omega)).trans ?_
    rw [List.range_succ (n := n + 1)]
    exact ih.append_right _

/-- C127.  The order is the order of the data set, or no order, or, for `random`, an order in which every node occurs once, whatever numbers are drawn;
any other constraint ends the program. -/
theorem C127_order (rand : Nat → Nat) (n : Nat) (constraint : Str) :
    (constraint = lit "dataset-ord" → assignNodeOrder rand n constraint = .ok (List.range n)) ∧
    (constraint = lit "best" → assignNodeOrder rand n constraint = .ok []) ∧
    (constraint = lit "random" → ∃ ord, assignNodeOrder rand n constraint = .ok ord ∧ ord.Nodup ∧ ∀ i, i ∈ ord ↔ i < n) ∧
    (constraint ≠ lit "dataset-ord" → constraint ≠ lit "best" → constraint ≠ lit "random" → assignNodeOrder rand n constraint = .error .exit) := by
  have h1 : lit "best" ≠ lit "dataset-ord" := by decide
  have h2 : lit "best" ≠ lit "random" := by decide
  have h3 : lit "random" ≠ lit "dataset-ord" := by decide
  unfold assignNodeOrder
  refine ⟨fun h => by simp [h], fun h => by simp [h, h1, h2], fun h => ?_, fun a b c => by simp [a, b, c]⟩
  have hp := shuffle_perm rand n
  exact ⟨_, by simp [h, h3], hp.nodup_iff.2 List.nodup_range, fun i => by rw [hp.mem_iff, List.mem_range]⟩

theorem shuffle_congr {r r' : Nat → Nat} : ∀ {n : Nat}, (∀ i, 0 < i → i < n → r i = r' i) →
    randomShuffle r (List.range n) = randomShuffle r' (List.range n)
  | 0, _ => rfl
  | 1, _ => rfl
  | n + 2, h => by
    rw [shuffle_succ, shuffle_succ, shuffle_congr (n := n + 1) (fun i h1 h2 => h i h1 (by omega)), h (n + 1) (by omega) (by omega)]

theorem shuffle_onto : ∀ (n : Nat) {l : List Nat}, l.Perm (List.range n) →
    ∃ r : Nat → Nat, (∀ i, r i ≤ i) ∧ randomShuffle r (List.range n) = l
  | 0, l, h => ⟨fun _ => 0, fun _ => Nat.zero_le _, (List.Perm.eq_nil h).symm⟩
  | 1, l, h => ⟨fun _ => 0, fun _ => Nat.zero_le _, by
      have := List.perm_singleton.1 (show l.Perm [0] from h)
      rw [this]; rfl⟩
  | n + 2, l, h => by
    have hlen : l.length = n + 2 := by rw [h.length_eq, List.length_range]
    have hmem : n + 1 ∈ l := h.mem_iff.2 (List.mem_range.2 (by omega))
    obtain ⟨p, hp, he⟩ := List.getElem_of_mem hmem
    have hs : (swapAt l (n + 1) p).Perm (List.range (n + 2)) := (swapAt_perm (by omega) hp).trans h
    have hlast : (swapAt l (n + 1) p)[n + 1]? = some (n + 1) := by
      rw [swapAt_get (by omega) hp]
      by_cases hpe : n + 1 = p
      · rw [if_pos hpe, List.getElem?_eq_getElem (by omega)]
        subst hpe
        rw [he]
      · rw [if_neg hpe, if_pos rfl, List.getElem?_eq_getElem hp, he]
    have hsplit : swapAt l (n + 1) p = (swapAt l (n + 1) p).take (n + 1) ++ [n + 1] := by
      conv_lhs => rw [← List.take_append_drop (n + 1) (swapAt l (n + 1) p)]
      congr 1
      have hlen' : (swapAt l (n + 1) p).length = n + 2 := by rw [swapAt_length, hlen]
      obtain ⟨hb, hv⟩ := List.getElem?_eq_some_iff.1 hlast
      rw [List.drop_eq_getElem_cons hb, hv, List.drop_eq_nil_of_le (by omega)]
    have hprefix : ((swapAt l (n + 1) p).take (n + 1)).Perm (List.range (n + 1)) := by
      rw [hsplit, List.range_succ (n := n + 1)] at hs
      exact (List.perm_append_right_iff _).1 hs
    obtain ⟨r, hr, hrl⟩ := shuffle_onto (n + 1) hprefix
    refine ⟨fun i => if i = n + 1 then p else r i, fun i => ?_, ?_⟩
    · simp only
      split
      · omega
      · exact hr i
    · rw [shuffle_succ, shuffle_congr (r' := r) (fun i _ h2 => if_neg (by omega)), hrl, ← hsplit]
      simp only [if_true]
      rw [Nat.mod_eq_of_lt (by omega), swapAt_swapAt (by omega) hp]

theorem shuffle_inj {r r' : Nat → Nat} (hr : ∀ i, r i ≤ i) (hr' : ∀ i, r' i ≤ i) : ∀ (n : Nat),
    randomShuffle r (List.range n) = randomShuffle r' (List.range n) → ∀ i, 0 < i → i < n → r i = r' i
  | 0, _, i, _, h2 => by omega
  | 1, _, i, h1, h2 => by omega
  | n + 2, h, i, h1, h2 => by
    have hl : ∀ s : Nat → Nat, (randomShuffle s (List.range (n + 1))).length = n + 1 := fun s => by
      rw [(shuffle_perm s _).length_eq, List.length_range]
    have hb := hr (n + 1)
    have hb' := hr' (n + 1)
    rw [shuffle_succ, shuffle_succ, Nat.mod_eq_of_lt (by omega), Nat.mod_eq_of_lt (by omega)] at h
    have hlt : ∀ (s : Nat → Nat) (k x : Nat), (randomShuffle s (List.range (n + 1)))[k]? = some x → x < n + 1 := by
      intro s k x hx
      exact List.mem_range.1 ((shuffle_perm s _).mem_iff.1 (List.mem_of_getElem? hx))
    have hl1 : ∀ s : Nat → Nat, (randomShuffle s (List.range (n + 1)) ++ [n + 1]).length = n + 2 := fun s => by simp [hl]
    have hpos : r (n + 1) = r' (n + 1) := by
      have e1 : (swapAt (randomShuffle r (List.range (n + 1)) ++ [n + 1]) (n + 1) (r (n + 1)))[r (n + 1)]? = some (n + 1) := by
        rw [swapAt_get (by rw [hl1]; omega) (by rw [hl1]; omega), if_pos rfl, List.getElem?_append_right (by rw [hl]), hl]
        simp
      rw [h, swapAt_get (by rw [hl1]; omega) (by rw [hl1]; omega)] at e1
      by_contra hne
      rw [if_neg hne] at e1
      by_cases hn : r (n + 1) = n + 1
      · rw [if_pos hn, List.getElem?_append_left (by rw [hl]; omega)] at e1
        have := hlt _ _ _ e1
        omega
      · rw [if_neg hn, List.getElem?_append_left (by rw [hl]; omega)] at e1
        have := hlt _ _ _ e1
        omega
    by_cases hi : i = n + 1
    · rw [hi]; exact hpos
    · rw [← hpos] at h
      have h' := congrArg (fun l => swapAt l (n + 1) (r (n + 1))) h
      rw [swapAt_swapAt (by rw [hl1]; omega) (by rw [hl1]; omega), swapAt_swapAt (by rw [hl1]; omega) (by rw [hl1]; omega)] at h'
      exact shuffle_inj hr hr' (n + 1) (List.append_cancel_right h') i h1 (by omega)

/-- C127.  Every order of the nodes can be the result of `random`, and each results from exactly one sequence of choices: if the numbers drawn, reduced to
their range, are uniform and independent, every order has the same probability. -/
theorem C127_random (n : Nat) {ord : List Nat} (hnd : ord.Nodup) (hmem : ∀ i, i ∈ ord ↔ i < n) :
    (∃ r : Nat → Nat, (∀ i, r i ≤ i) ∧ assignNodeOrder r n (lit "random") = .ok ord) ∧
    ∀ r r' : Nat → Nat, (∀ i, r i ≤ i) → (∀ i, r' i ≤ i) → assignNodeOrder r n (lit "random") = .ok ord →
      assignNodeOrder r' n (lit "random") = .ok ord → ∀ i, 0 < i → i < n → r i = r' i := by
  have h3 : lit "random" ≠ lit "dataset-ord" := by decide
  have e : ∀ r, assignNodeOrder r n (lit "random") = .ok (randomShuffle r (List.range n)) := fun r => by simp [assignNodeOrder, h3]
  have hp : ord.Perm (List.range n) := (List.perm_ext_iff_of_nodup hnd List.nodup_range).2 (fun i => by rw [hmem, List.mem_range])
  constructor
  · obtain ⟨r, hr, h⟩ := shuffle_onto n hp
    exact ⟨r, hr, by rw [e, h]⟩
  · intro r r' hr hr' h h'
    rw [e] at h h'
    cases h
    exact shuffle_inj hr hr' n (Except.ok.inj h').symm

/-- Four nodes, the numbers 7, 5 and 6 drawn. -/
example : assignNodeOrder (fun i => if i = 1 then 7 else if i = 2 then 5 else 6) 4 (lit "random") = .ok [0, 1, 3, 2] := by decide

example : assignNodeOrder (fun _ => 0) 3 (lit "dataset-ord") = .ok [0, 1, 2] ∧ assignNodeOrder (fun _ => 0) 3 (lit "sorted") = .error .exit := by decide

/-- The hypotheses of `C127_random` are met by an order of three nodes. -/
example : ∃ r : Nat → Nat, (∀ i, r i ≤ i) ∧ assignNodeOrder r 3 (lit "random") = .ok [2, 0, 1] :=
  (C127_random 3 (ord := [2, 0, 1]) (by decide) (fun i => by simp; omega)).1

end FastPGM
