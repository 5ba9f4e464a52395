import Verif.Model.ChoiceGenerator
import Verif.Lemmas.Except
import Mathlib.Data.List.Lex
import Mathlib.Tactic.Linarith
import Mathlib.Tactic.Ring

/-!
`Next` computes the lexicographic successor.
-/

namespace FastPGM

theorem cons_le_cons' {x : Int} {xs ys : List Int} (h : xs ≤ ys) : x :: xs ≤ x :: ys := by
  rcases h.lt_or_eq with h | rfl
  · exact le_of_lt (List.Lex.cons h)
  · exact le_refl _

/-- `x, x+1, ..., x+n-1`. -/
def runFrom (x : Int) : Nat → List Int
  | 0 => []
  | n + 1 => x :: runFrom (x + 1) n

@[simp] theorem runFrom_length (x : Int) (n : Nat) : (runFrom x n).length = n := by
  induction n generalizing x with
  | zero => rfl
  | succ n ih => simp [runFrom, ih]

theorem runFrom_get? (x : Int) (n j : Nat) (h : j < n) : (runFrom x n)[j]? = some (x + j) := by
  induction n generalizing x j with
  | zero => omega
  | succ n ih =>
    cases j with
    | zero => simp [runFrom]
    | succ j =>
      rw [runFrom, List.getElem?_cons_succ, ih _ _ (by omega)]
      congr 1; push_cast; ring

/-- Recursive form of the scan and fill, on the part of the array from position `i` on. -/
def succAt (diff : Int) : Nat → List Int → Option (List Int)
  | _, [] => none
  | i, x :: xs =>
    match succAt diff (i + 1) xs with
    | some xs' => some (x :: xs')
    | none => if x < i + diff then some (runFrom (x + 1) (xs.length + 1)) else none

/-- The position `Next` increments, if any. -/
def posAt (diff : Int) : Nat → List Int → Option Nat
  | _, [] => none
  | i, x :: xs =>
    match posAt diff (i + 1) xs with
    | some j => some j
    | none => if x < i + diff then some i else none

theorem posAt_append (diff : Int) (i : Nat) (xs : List Int) (y : Int) :
    posAt diff i (xs ++ [y]) = if y < (i + xs.length : Nat) + diff then some (i + xs.length) else posAt diff i xs := by
  induction xs generalizing i with
  | nil => simp [posAt]
  | cons x xs ih =>
    rw [List.cons_append, posAt, ih]
    have e : i + 1 + xs.length = i + (x :: xs).length := by simp; omega
    rw [e]
    by_cases h : y < ((i + (x :: xs).length : Nat) : Int) + diff
    · rw [if_pos h, if_pos h]
    · rw [if_neg h, if_neg h, posAt]

theorem scanChoice_eq (choice : List Int) (diff : Int) (n : Nat) (h : n ≤ choice.length) :
    scanChoice choice diff n = .ok (posAt diff 0 (choice.take n)) := by
  induction n with
  | zero => rfl
  | succ n ih =>
    have hn : n < choice.length := by omega
    rw [scanChoice, rd_getElem hn, ok_bind, List.take_succ_eq_append_getElem hn, posAt_append]
    have : (choice.take n).length = n := by simp; omega
    rw [this, Nat.zero_add]
    split
    · rfl
    · exact ih (by omega)

theorem succAt_eq (diff : Int) (i : Nat) (xs : List Int) :
    (∀ p, posAt diff i xs = some p → ∃ q, ∃ h : q < xs.length, p = i + q ∧
      succAt diff i xs = some (xs.take q ++ runFrom (xs[q] + 1) (xs.length - q))) ∧
    (posAt diff i xs = none → succAt diff i xs = none) := by
  induction xs generalizing i with
  | nil => simp [posAt, succAt]
  | cons x xs ih =>
    obtain ⟨h1, h2⟩ := ih (i + 1)
    constructor
    · intro p hp
      rw [posAt] at hp
      rw [succAt]
      cases hq : posAt diff (i + 1) xs with
      | some r =>
        rw [hq] at hp
        obtain ⟨q, hlt, hr, hs⟩ := h1 r hq
        refine ⟨q + 1, by simpa using hlt, ?_, ?_⟩
        · simp at hp; omega
        · rw [hs]; simp
      | none =>
        rw [hq] at hp
        simp only at hp
        split at hp
        · rename_i hx
          refine ⟨0, by simp, by simpa using hp.symm, ?_⟩
          rw [h2 hq]; simp [hx]
        · cases hp
    · intro hp
      rw [posAt] at hp
      rw [succAt]
      cases hq : posAt diff (i + 1) xs with
      | some r => rw [hq] at hp; cases hp
      | none =>
        rw [hq] at hp
        rw [h2 hq]
        simp only at hp ⊢
        split at hp
        · cases hp
        · rename_i hx; rw [if_neg hx]

theorem fillChoice_eq (choice : List Int) (q : Nat) (h : q < choice.length) :
    fillChoice choice.length choice q = .ok (choice.take q ++ runFrom (choice[q] + 1) (choice.length - q)) := by
  unfold fillChoice
  rw [rd_getElem h, ok_bind, wr_ok h, ok_bind]
  have hlen : (choice.take q).length = q := by simp; omega
  have := foldlM_range_eq (ε := Fault) (f := fun (ch : List Int) k => do
      let p ← rd ch (q + k)
      wr ch (q + 1 + k) (p + 1))
    (s := fun k => choice.take q ++ runFrom (choice[q] + 1) (k + 1) ++ choice.drop (q + k + 1))
    (n := choice.length - (q + 1)) ?_
  · have e0 : choice.set q (choice[q] + 1) = choice.take q ++ runFrom (choice[q] + 1) (0 + 1) ++ choice.drop (q + 0 + 1) := by
      rw [List.set_eq_take_append_cons_drop, if_pos h]
      simp [runFrom]
    rw [e0, this]
    congr 1
    rw [List.drop_eq_nil_of_le (by omega), List.append_nil]
    congr 2
    omega
  · intro k hk
    have hr : rd (choice.take q ++ runFrom (choice[q] + 1) (k + 1) ++ choice.drop (q + k + 1)) (q + k) =
        .ok (choice[q] + 1 + k) := by
      apply rd_ok
      rw [List.append_assoc, List.getElem?_append_right (by omega), hlen, List.getElem?_append_left (by simp),
        show q + k - q = k by omega, runFrom_get? _ _ _ (by omega)]
    rw [hr, ok_bind, wr_ok (by simp; omega)]
    congr 1
    have hl2 : (choice.take q ++ runFrom (choice[q] + 1) (k + 1)).length = q + k + 1 := by simp; omega
    rw [List.set_append_right _ _ (by omega), hl2, show q + 1 + k - (q + k + 1) = 0 by omega]
    rw [show choice.drop (q + k + 1) = choice[q + k + 1]'(by omega) :: choice.drop (q + k + 1 + 1) from
      List.drop_eq_getElem_cons (by omega), List.set_cons_zero]
    have : ∀ (x : Int) (n : Nat), runFrom x (n + 1) = runFrom x n ++ [x + n] := by
      intro x n
      induction n generalizing x with
      | zero => simp [runFrom]
      | succ n ih =>
        rw [runFrom, ih (x + 1)]
        simp [runFrom]; ring
    rw [this _ (k + 1)]
    simp only [List.append_assoc, List.cons_append, List.nil_append]
    congr 3
    push_cast; ring

theorem next_eq (b : Nat) (diff : Int) (choice : List Int) (h : choice.length = b) (hb : 0 < b) :
    (⟨b, diff, choice⟩ : ChoiceGen).next = match succAt diff 0 choice with
      | some c => .ok (c, ⟨b, diff, c⟩)
      | none => .ok ([], ⟨b, diff, choice⟩) := by
  unfold ChoiceGen.next
  rw [if_neg (by intro e; simp only at e; rw [e] at h; simp at h; omega)]
  simp only
  rw [scanChoice_eq _ _ _ (by omega), List.take_of_length_le (by omega)]
  obtain ⟨h1, h2⟩ := succAt_eq diff 0 choice
  cases hp : posAt diff 0 choice with
  | none => rw [h2 hp]; rfl
  | some p =>
    obtain ⟨q, hq, rfl, hs⟩ := h1 p hp
    rw [hs]
    simp only [ok_bind]
    subst h
    rw [Nat.zero_add, fillChoice_eq _ _ hq]
    rfl

/-! ### Lexicographic successor -/

/-- Entries at positions `i, i+1, ...` increase, are at least `lo`, and entry `j` is at most `j + diff`. -/
def ValidAt (diff : Int) : Nat → Int → List Int → Prop
  | _, _, [] => True
  | i, lo, x :: xs => lo ≤ x ∧ x ≤ i + diff ∧ ValidAt diff (i + 1) (x + 1) xs

theorem validAt_mono {diff : Int} {i : Nat} {lo lo' : Int} {xs : List Int} (h : lo' ≤ lo) (hv : ValidAt diff i lo xs) :
    ValidAt diff i lo' xs := by
  cases xs with
  | nil => trivial
  | cons x xs => exact ⟨le_trans h hv.1, hv.2⟩

theorem validAt_run {diff : Int} (i : Nat) (x : Int) (n : Nat) (h : x ≤ i + diff) : ValidAt diff i x (runFrom x n) := by
  induction n generalizing i x with
  | zero => trivial
  | succ n ih => exact ⟨le_refl _, h, ih (i + 1) (x + 1) (by push_cast; linarith)⟩

theorem run_le {diff : Int} {i : Nat} {lo : Int} {xs : List Int} (h : ValidAt diff i lo xs) :
    runFrom lo xs.length ≤ xs := by
  induction xs generalizing i lo with
  | nil => exact le_refl _
  | cons x xs ih =>
    obtain ⟨h1, h2, h3⟩ := h
    rw [List.length_cons, runFrom]
    rcases h1.lt_or_eq with h | h
    · exact le_of_lt (List.Lex.rel h)
    · subst h
      exact cons_le_cons' (ih h3)

theorem succAt_length {diff : Int} {i : Nat} {xs ys : List Int} (h : succAt diff i xs = some ys) :
    ys.length = xs.length := by
  induction xs generalizing i ys with
  | nil => simp [succAt] at h
  | cons x xs ih =>
    rw [succAt] at h
    cases hs : succAt diff (i + 1) xs with
    | some zs =>
      rw [hs] at h
      simp only [Option.some.injEq] at h
      subst h
      simp [ih hs]
    | none =>
      rw [hs] at h
      simp only at h
      split at h
      · simp only [Option.some.injEq] at h
        subst h
        simp
      · cases h

theorem succAt_some {diff : Int} {i : Nat} {lo : Int} {xs ys : List Int} (hv : ValidAt diff i lo xs)
    (h : succAt diff i xs = some ys) :
    ValidAt diff i lo ys ∧ xs < ys ∧ ∀ zs, zs.length = xs.length → ValidAt diff i lo zs → xs < zs → ys ≤ zs := by
  have hnone : ∀ (i : Nat) (lo : Int) (xs : List Int), ValidAt diff i lo xs → succAt diff i xs = none →
      ∀ zs, zs.length = xs.length → ValidAt diff i lo zs → zs ≤ xs := by
    intro i lo xs
    induction xs generalizing i lo with
    | nil =>
      intro _ _ zs hl _
      rw [List.length_nil, List.length_eq_zero_iff] at hl
      rw [hl]
    | cons x xs ih =>
      intro hv hs zs hl hz
      cases zs with
      | nil => simp at hl
      | cons z zs =>
        rw [succAt] at hs
        cases hs' : succAt diff (i + 1) xs with
        | some _ => rw [hs'] at hs; cases hs
        | none =>
          rw [hs'] at hs
          simp only at hs
          split at hs
          · cases hs
          · rename_i hx
            obtain ⟨hv1, hv2, hv3⟩ := hv
            obtain ⟨hz1, hz2, hz3⟩ := hz
            rcases lt_trichotomy z x with h | h | h
            · exact le_of_lt (List.Lex.rel h)
            · subst h
              exact cons_le_cons' (ih _ _ hv3 hs' zs (by simpa using hl) hz3)
            · exfalso; linarith
  induction xs generalizing i lo ys with
  | nil => simp [succAt] at h
  | cons x xs ih =>
    obtain ⟨hv1, hv2, hv3⟩ := hv
    rw [succAt] at h
    cases hs : succAt diff (i + 1) xs with
    | some zs =>
      rw [hs] at h
      simp only [Option.some.injEq] at h
      subst h
      obtain ⟨a1, a2, a3⟩ := ih hv3 hs
      refine ⟨⟨hv1, hv2, a1⟩, List.Lex.cons a2, ?_⟩
      intro ws hl hw hlt
      cases ws with
      | nil => simp at hl
      | cons w ws =>
        obtain ⟨hw1, hw2, hw3⟩ := hw
        rcases List.cons_lt_cons_iff.1 hlt with h | ⟨rfl, h⟩
        · exact le_of_lt (List.Lex.rel h)
        · exact cons_le_cons' (a3 ws (by simpa using hl) hw3 h)
    | none =>
      rw [hs] at h
      simp only at h
      split at h
      · rename_i hx
        simp only [Option.some.injEq] at h
        subst h
        refine ⟨validAt_mono (by linarith) (validAt_run i (x + 1) _ (by linarith)), List.Lex.rel (by linarith), ?_⟩
        intro ws hl hw hlt
        cases ws with
        | nil => simp at hl
        | cons w ws =>
          obtain ⟨hw1, hw2, hw3⟩ := hw
          have hxw : x < w := by
            rcases List.cons_lt_cons_iff.1 hlt with h | ⟨rfl, h⟩
            · exact h
            · exact absurd h (not_lt.2 (hnone _ _ _ hv3 hs ws (by simpa using hl) hw3))
          have := run_le (diff := diff) (i := i) (lo := x + 1) (xs := w :: ws) ⟨by linarith, hw2, hw3⟩
          rw [hl] at this
          exact this
      · cases h

theorem succAt_none {diff : Int} {i : Nat} {lo : Int} {xs : List Int} (hv : ValidAt diff i lo xs)
    (h : succAt diff i xs = none) : ∀ zs, zs.length = xs.length → ValidAt diff i lo zs → zs ≤ xs := by
  induction xs generalizing i lo with
  | nil =>
    intro zs hl _
    rw [List.length_nil, List.length_eq_zero_iff] at hl
    rw [hl]
  | cons x xs ih =>
    intro zs hl hz
    cases zs with
    | nil => simp at hl
    | cons z zs =>
      rw [succAt] at h
      cases hs' : succAt diff (i + 1) xs with
      | some _ => rw [hs'] at h; cases h
      | none =>
        rw [hs'] at h
        simp only at h
        split at h
        · cases h
        · rename_i hx
          obtain ⟨hv1, hv2, hv3⟩ := hv
          obtain ⟨hz1, hz2, hz3⟩ := hz
          rcases lt_trichotomy z x with h | h | h
          · exact le_of_lt (List.Lex.rel h)
          · subst h
            exact cons_le_cons' (ih hv3 hs' zs (by simpa using hl) hz3)
          · exfalso; linarith

/-! ### The list of all choices -/

/-- All valid lists of length `n` from position `i` on, in lexicographic order. -/
def allChoices (diff : Int) : Nat → Int → Nat → List (List Int)
  | _, _, 0 => [[]]
  | i, lo, n + 1 =>
    (List.range (i + diff + 1 - lo).toNat).flatMap (fun k : Nat => (allChoices diff (i + 1) (lo + (k : Nat) + 1) n).map (fun c => (lo + k) :: c))

theorem mem_allChoices {diff : Int} {i : Nat} {lo : Int} {n : Nat} {c : List Int} :
    c ∈ allChoices diff i lo n ↔ c.length = n ∧ ValidAt diff i lo c := by
  induction n generalizing i lo c with
  | zero =>
    simp only [allChoices, List.mem_singleton]
    constructor
    · rintro rfl; exact ⟨rfl, trivial⟩
    · rintro ⟨h, _⟩; exact List.length_eq_zero_iff.1 h
  | succ n ih =>
    simp only [allChoices, List.mem_flatMap, List.mem_map, List.mem_range]
    constructor
    · rintro ⟨k, hk, d, hd, rfl⟩
      obtain ⟨h1, h2⟩ := ih.1 hd
      exact ⟨by simp [h1], by linarith [Int.natCast_nonneg k], by omega, h2⟩
    · rintro ⟨hl, hv⟩
      cases c with
      | nil => simp at hl
      | cons x xs =>
        obtain ⟨h1, h2, h3⟩ := hv
        refine ⟨(x - lo).toNat, by omega, xs, ih.2 ⟨by simpa using hl, ?_⟩, ?_⟩
        · rw [show lo + ((x - lo).toNat : Int) + 1 = x + 1 by omega]; exact h3
        · rw [show lo + ((x - lo).toNat : Int) = x by omega]

theorem allChoices_sorted (diff : Int) (i : Nat) (lo : Int) (n : Nat) :
    (allChoices diff i lo n).Pairwise (· < ·) := by
  induction n generalizing i lo with
  | zero => simp [allChoices]
  | succ n ih =>
    rw [allChoices, List.pairwise_flatMap]
    constructor
    · intro k _
      rw [List.pairwise_map]
      exact (ih _ _).imp (fun h => List.Lex.cons h)
    · refine List.Pairwise.imp ?_ List.pairwise_lt_range
      intro k l hkl c hc d hd
      obtain ⟨c, _, rfl⟩ := List.mem_map.1 hc
      obtain ⟨d, _, rfl⟩ := List.mem_map.1 hd
      exact List.Lex.rel (by omega)

theorem next_of_sorted {L : List (List Int)} {diff : Int} {b : Nat} (hs : L.Pairwise (· < ·))
    (hm : ∀ c, c ∈ L ↔ c.length = b ∧ ValidAt diff 0 0 c) (k : Nat) (hk : k < L.length) :
    succAt diff 0 L[k] = L[k + 1]? := by
  obtain ⟨hl, hv⟩ := (hm L[k]).1 (List.getElem_mem hk)
  have hmono : ∀ i j (hi : i < L.length) (hj : j < L.length), i < j → L[i] < L[j] := by
    intro i j hi hj hij
    exact List.pairwise_iff_getElem.1 hs i j hi hj hij
  cases hsucc : succAt diff 0 L[k] with
  | some c =>
    obtain ⟨h1, h2, h3⟩ := succAt_some hv hsucc
    have hc : c ∈ L := (hm c).2 ⟨by rw [succAt_length hsucc, hl], h1⟩
    obtain ⟨j, hj, rfl⟩ := List.getElem_of_mem hc
    have hkj : k < j := by
      rcases lt_trichotomy k j with h | h | h
      · exact h
      · subst h; exact absurd h2 (lt_irrefl _)
      · exact absurd (hmono j k hj hk h) (not_lt.2 (le_of_lt h2))
    have hj' : j = k + 1 := by
      by_contra hne
      have hk1 : k + 1 < L.length := by omega
      have hm1 := (hm L[k + 1]).1 (List.getElem_mem hk1)
      have := h3 L[k + 1] (by rw [hm1.1, hl]) hm1.2 (hmono k (k + 1) hk hk1 (by omega))
      exact absurd (hmono (k + 1) j hk1 hj (by omega)) (not_lt.2 this)
    subst hj'
    simp [hj]
  | none =>
    have hlast := succAt_none hv hsucc
    symm
    rw [List.getElem?_eq_none_iff]
    by_contra hlt
    have hk1 : k + 1 < L.length := by omega
    have hm1 := (hm L[k + 1]).1 (List.getElem_mem hk1)
    have := hlast L[k + 1] (by rw [hm1.1, hl]) hm1.2
    exact absurd (hmono k (k + 1) hk hk1 (by omega)) (not_lt.2 this)

theorem nextN_last {diff : Int} {b : Nat} {c : List Int} (hl : c.length = b) (hb : 0 < b) (h : succAt diff 0 c = none)
    (n : Nat) : (⟨b, diff, c⟩ : ChoiceGen).nextN n = .ok (List.replicate n [], ⟨b, diff, c⟩) := by
  induction n with
  | zero => rfl
  | succ n ih =>
    rw [ChoiceGen.nextN, next_eq b diff c hl hb, h]
    simp only [ok_bind]
    rw [ih]
    rfl

theorem nextN_from {L : List (List Int)} {diff : Int} {b : Nat} (hb : 0 < b) (hs : L.Pairwise (· < ·))
    (hm : ∀ c, c ∈ L ↔ c.length = b ∧ ValidAt diff 0 0 c) (n : Nat) (k : Nat) (hk : k < L.length) :
    ∃ g, (⟨b, diff, L[k]⟩ : ChoiceGen).nextN n =
      .ok ((L.drop (k + 1)).take n ++ List.replicate (n - (L.drop (k + 1)).length) [], g) := by
  induction n generalizing k with
  | zero => exact ⟨⟨b, diff, L[k]⟩, by simp [ChoiceGen.nextN]⟩
  | succ n ih =>
    have hl := ((hm L[k]).1 (List.getElem_mem hk)).1
    by_cases hk1 : k + 1 < L.length
    · obtain ⟨g, hg⟩ := ih (k + 1) hk1
      refine ⟨g, ?_⟩
      rw [ChoiceGen.nextN, next_eq b diff _ hl hb, next_of_sorted hs hm k hk, List.getElem?_eq_getElem hk1]
      simp only [ok_bind]
      rw [hg]
      simp only [ok_bind, pure_eq_ok]
      rw [show L.drop (k + 1) = L[k + 1] :: L.drop (k + 1 + 1) from List.drop_eq_getElem_cons hk1]
      rw [List.take_succ_cons, List.length_cons, Nat.add_sub_add_right]
      rfl
    · have hnone : succAt diff 0 L[k] = none := by
        rw [next_of_sorted hs hm k hk, List.getElem?_eq_none_iff]; omega
      refine ⟨⟨b, diff, L[k]⟩, ?_⟩
      rw [nextN_last hl hb hnone, List.drop_eq_nil_of_le (by omega)]
      simp

theorem validAt_iff {diff : Int} {i : Nat} {lo : Int} {c : List Int} :
    ValidAt diff i lo c ↔ c.Pairwise (· < ·) ∧ ∀ x ∈ c, lo ≤ x ∧ x < i + c.length + diff := by
  induction c generalizing i lo with
  | nil => simp [ValidAt]
  | cons x xs ih =>
    rw [ValidAt, ih, List.pairwise_cons]
    constructor
    · rintro ⟨h1, h2, h3, h4⟩
      refine ⟨⟨fun y hy => by have := (h4 y hy).1; omega, h3⟩, ?_⟩
      intro y hy
      rcases List.mem_cons.1 hy with rfl | hy
      · refine ⟨h1, ?_⟩
        rw [List.length_cons]; push_cast
        have : (0:Int) ≤ xs.length := Int.natCast_nonneg _
        omega
      · have := h4 y hy
        rw [List.length_cons]; push_cast at this ⊢
        omega
    · rintro ⟨⟨h1, h2⟩, h3⟩
      refine ⟨(h3 x (by simp)).1, ?_, h2, ?_⟩
      · -- the entry is at most its position's maximum
        have key : ∀ (ys : List Int) (x m : Int), (∀ y ∈ ys, x < y) → ys.Pairwise (· < ·) → (∀ y ∈ ys, y < m) → x < m →
            x + ys.length < m := by
          intro ys
          induction ys with
          | nil => intro x m _ _ _ h; simpa using h
          | cons y ys ihy =>
            intro x m h1 h2 h3 h4
            obtain ⟨h5, h6⟩ := List.pairwise_cons.1 h2
            have := ihy y m h5 h6 (fun z hz => h3 z (by simp [hz])) (h3 y (by simp))
            have := h1 y (by simp)
            rw [List.length_cons]; push_cast
            omega
        have := key xs x _ h1 h2 (fun y hy => (h3 y (by simp [hy])).2) (h3 x (by simp)).2
        rw [List.length_cons] at this; push_cast at this
        omega
      · intro y hy
        have a := h1 y hy
        have b := (h3 y (by simp [hy])).2
        rw [List.length_cons] at b; push_cast at b ⊢
        omega

end FastPGM
