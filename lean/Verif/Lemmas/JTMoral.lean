import Verif.Model.JunctionTree
import Verif.Lemmas.Orientation2

/-!
Lemmas about the moral graph.
-/

namespace FastPGM

open Spec

theorem getD_of_lt {α : Type} {l : List α} {i : Nat} {d : α} (h : i < l.length) : l.getD i d = l[i] := by
  simp [h]

theorem mrd_matOf {n i j : Nat} {g : Nat → Nat → Int} (hi : i < n) (hj : j < n) : mrd (matOf n g) i j = .ok (g i j) := by
  unfold mrd matOf
  rw [rd_tab hi, ok_bind, rd_tab hj]

theorem mwr_matOf {n i j : Nat} {g : Nat → Nat → Int} {x : Int} (hi : i < n) (hj : j < n) :
    mwr (matOf n g) i j x = .ok (matOf n (fun a b => if a = i ∧ b = j then x else g a b)) := by
  unfold mwr matOf
  rw [rd_tab hi, ok_bind, wr_tab hj, ok_bind, wr_tab hi]
  congr 1
  apply tab_congr
  intro a _
  by_cases h : a = i
  · subst h; simp
  · simp [h]

theorem matOf_congr {n : Nat} {g g' : Nat → Nat → Int} (h : ∀ i < n, ∀ j < n, g i j = g' i j) : matOf n g = matOf n g' :=
  tab_congr fun i hi => tab_congr fun j hj => h i hi j hj

/-- Setting a symmetric pair of entries. -/
theorem mwr2_matOf {n i j : Nat} {g : Nat → Nat → Int} {x : Int} (hi : i < n) (hj : j < n) :
    (do
      let M ← mwr (matOf n g) i j x
      mwr M j i x) = .ok (matOf n (fun a b => if (a = i ∧ b = j) ∨ (a = j ∧ b = i) then x else g a b)) := by
  rw [mwr_matOf hi hj, ok_bind, mwr_matOf hj hi]
  congr 1
  apply matOf_congr
  intro a _ b _
  by_cases h1 : a = i ∧ b = j
  · by_cases h2 : a = j ∧ b = i <;> simp [h1]
  · by_cases h2 : a = j ∧ b = i
    · simp [h2]
    · simp [h1, h2]

/-- Setting symmetric pairs of entries for a list of pairs. -/
theorem setPairs_matOf {n : Nat} {x : Int} (l : List (Nat × Nat)) (hl : ∀ p ∈ l, p.1 < n ∧ p.2 < n) (g : Nat → Nat → Int) :
    l.foldlM (fun M p => do
      let M ← mwr M p.1 p.2 x
      mwr M p.2 p.1 x) (matOf n g) =
    .ok (matOf n (fun a b => if (a, b) ∈ l ∨ (b, a) ∈ l then x else g a b)) := by
  induction l generalizing g with
  | nil => simp [pure_eq_ok]
  | cons p l ih =>
    obtain ⟨h1, h2⟩ := hl p (by simp)
    rw [List.foldlM_cons, mwr2_matOf h1 h2, ok_bind, ih (fun q hq => hl q (by simp [hq]))]
    congr 1
    apply matOf_congr
    intro a _ b _
    by_cases h : (a, b) ∈ l ∨ (b, a) ∈ l
    · rw [if_pos h, if_pos (by simp only [List.mem_cons]; tauto)]
    · rw [if_neg h]
      by_cases h' : (a = p.1 ∧ b = p.2) ∨ (a = p.2 ∧ b = p.1)
      · rw [if_pos h', if_pos]
        rcases h' with ⟨rfl, rfl⟩ | ⟨rfl, rfl⟩ <;> simp
      · rw [if_neg h', if_neg]
        rintro (h3 | h3)
        · rcases List.mem_cons.1 h3 with e | h3
          · apply h'; left; rw [← e]; exact ⟨rfl, rfl⟩
          · exact h (Or.inl h3)
        · rcases List.mem_cons.1 h3 with e | h3
          · apply h'; right; rw [← e]; exact ⟨rfl, rfl⟩
          · exact h (Or.inr h3)

theorem setRow_matOf {n i : Nat} (hi : i < n) (l : List Nat) (hl : ∀ c ∈ l, c < n) (g : Nat → Nat → Int) :
    l.foldlM (fun M c => mwr M i c 1) (matOf n g) = .ok (matOf n (fun a b => if a = i ∧ b ∈ l then 1 else g a b)) := by
  induction l generalizing g with
  | nil => simp [pure_eq_ok]
  | cons c l ih =>
    rw [List.foldlM_cons, mwr_matOf hi (hl c (by simp)), ok_bind, ih (fun q hq => hl q (by simp [hq]))]
    congr 1
    apply matOf_congr
    intro a _ b _
    by_cases h1 : a = i
    · by_cases h2 : b = c
      · simp [h1, h2]
      · simp [h1, h2]
    · simp [h1]

theorem adjacencyMatrix_eq {N : Net} (h : NetWF N) :
    N.adjacencyMatrix = .ok (matOf N.nodes.length (fun i j => if j ∈ N.ch i then 1 else 0)) := by
  have key := foldlM_range_eq (f := fun M i => do
      let s ← N.find i
      s.children.foldlM (fun M c => mwr M i c 1) M)
    (s := fun k => matOf N.nodes.length (fun i j => if i < k ∧ j ∈ N.ch i then 1 else 0)) (n := N.nodes.length) ?_
  · unfold Net.adjacencyMatrix
    have hz : matOf N.nodes.length (fun i j => if i < 0 ∧ j ∈ N.ch i then (1 : Int) else 0) =
      List.replicate N.nodes.length (List.replicate N.nodes.length 0) := by
      rw [replicate_eq_tab, replicate_eq_tab]
      simp [matOf]
    rw [hz] at key
    refine key.trans ?_
    congr 1
    apply matOf_congr
    intro i hi j _
    simp [hi]
  · intro i hi
    rw [find_ok hi, ok_bind, ← ch_of_lt hi, setRow_matOf hi (N.ch i) (h.ch_lt i)]
    congr 1
    apply matOf_congr
    intro i' _ j _
    by_cases h1 : i' = i
    · subst h1; simp
    · have : i' < i + 1 ↔ i' < i := by omega
      simp [h1, this]

/-- A loop that appends the numbers with a property. -/
theorem filterLoop {ε : Type} {n : Nat} {f : List Nat → Nat → Except ε (List Nat)} {p : Nat → Prop} [DecidablePred p]
    (h : ∀ l, ∀ j < n, f l j = .ok (if p j then l ++ [j] else l)) :
    (List.range n).foldlM f [] = .ok ((List.range n).filter p) := by
  have key := foldlM_range_eq (f := f) (s := fun k => (List.range k).filter p) (n := n) ?_
  · exact key
  · intro i hi
    rw [h _ i hi, List.range_succ, List.filter_append]
    by_cases hp : p i <;> simp [hp]

theorem matrixParents_eq {n i : Nat} {g : Nat → Nat → Int} (hi : i < n) :
    matrixParents (matOf n g) n i = .ok ((List.range n).filter (fun j => i ≠ j ∧ g j i = 1)) := by
  unfold matrixParents
  apply filterLoop
  intro l j hj
  by_cases h : i = j
  · simp [h, pure_eq_ok]
  · rw [if_neg h, mrd_matOf hj hi, ok_bind]
    by_cases h2 : g j i = 1 <;> simp [h, h2, pure_eq_ok]

theorem matrixNeighbours_eq {n i : Nat} {g : Nat → Nat → Int} (hi : i < n) :
    matrixNeighbours (matOf n g) n i = .ok ((List.range n).filter (fun j => g i j = 1)) := by
  unfold matrixNeighbours
  apply filterLoop
  intro l j hj
  rw [mrd_matOf hi hj, ok_bind]
  by_cases h2 : g i j = 1 <;> simp [h2, pure_eq_ok]

theorem parentPairs_eq {l : List Nat} (hs : l.Pairwise (· < ·)) :
    ∃ L, parentPairs l = .ok L ∧ ∀ x y, (x, y) ∈ L ↔ x ∈ l ∧ y ∈ l ∧ x < y := by
  have key : ∀ x y, (∃ i j : Nat, ∃ hi : i < l.length, ∃ hj : j < l.length, i < j ∧ l[i] = x ∧ l[j] = y) ↔ x ∈ l ∧ y ∈ l ∧ x < y := by
    intro x y
    constructor
    · rintro ⟨i, j, hi, hj, hij, rfl, rfl⟩
      exact ⟨List.getElem_mem _, List.getElem_mem _, List.pairwise_iff_getElem.1 hs i j hi hj hij⟩
    · rintro ⟨h1, h2, h3⟩
      obtain ⟨i, hi, rfl⟩ := List.getElem_of_mem h1
      obtain ⟨j, hj, rfl⟩ := List.getElem_of_mem h2
      refine ⟨i, j, hi, hj, ?_, rfl, rfl⟩
      by_contra hc
      rcases Nat.lt_or_eq_of_le (Nat.le_of_not_lt hc) with h | h
      · have := List.pairwise_iff_getElem.1 hs j i hj hi h
        omega
      · subst h; omega
  unfold parentPairs
  by_cases hlen : l.length < 2
  · refine ⟨[], if_pos hlen, fun x y => ?_⟩
    rw [← key]
    simp only [List.not_mem_nil, false_iff]
    rintro ⟨i, j, hi, hj, hij, _⟩
    omega
  · rw [if_neg hlen]
    obtain ⟨gen, L, g1, g2, g3⟩ := drain_pairs (m := l.length) (by omega)
    rw [g1, ok_bind, g2, ok_bind]
    have hm := mapM_ok (ε := Fault) (l := L) (f := fun c => do
        let s ← pickSet l c 2
        let x ← rd s 0
        let y ← rd s 1
        return (x, y)) (g := fun c => (l.getD (c.getD 0 0).toNat 0, l.getD (c.getD 1 0).toNat 0)) ?_
    · refine ⟨_, hm, fun x y => ?_⟩
      rw [← key, List.mem_map]
      constructor
      · rintro ⟨c, hc, he⟩
        obtain ⟨i, j, h1, h2, rfl⟩ := (g3 c).1 hc
        refine ⟨i, j, by omega, h2, h1, ?_⟩
        simp only [List.getD_cons_zero, List.getD_cons_succ, Int.toNat_natCast, Prod.mk.injEq] at he
        rw [getD_of_lt (by omega), getD_of_lt h2] at he
        exact he
      · rintro ⟨i, j, hi, hj, hij, rfl, rfl⟩
        refine ⟨[(i : Int), (j : Int)], (g3 _).2 ⟨i, j, hij, hj, rfl⟩, ?_⟩
        simp only [List.getD_cons_zero, List.getD_cons_succ, Int.toNat_natCast, Prod.mk.injEq]
        rw [getD_of_lt hi, getD_of_lt hj]
        exact ⟨rfl, rfl⟩
    · intro c hc
      obtain ⟨i, j, h1, h2, rfl⟩ := (g3 c).1 hc
      have hi : i < l.length := by omega
      rw [pickSet_pair hi h2, ok_bind, rd_ok (a := l[i]) rfl, ok_bind, rd_ok (a := l[j]) rfl, ok_bind]
      simp only [List.getD_cons_zero, List.getD_cons_succ, Int.toNat_natCast]
      rw [getD_of_lt hi, getD_of_lt h2]
      rfl

theorem symmetrise_eq {n : Nat} (g : Nat → Nat → Int) :
    symmetrise (matOf n g) n = .ok (matOf n (fun a b => if a ≠ b ∧ (g a b = 1 ∨ g b a = 1) then 1 else g a b)) := by
  have key := foldlM_range_eq (f := fun M i =>
      (List.range i).foldlM (fun M j => do
        let x ← mrd M i j
        let y ← mrd M j i
        if x = 1 ∨ y = 1 then do
          let M ← mwr M i j 1
          mwr M j i 1
        else (return M : Except Fault _)) M)
    (s := fun k => matOf n (fun a b => if a < k ∧ b < k ∧ a ≠ b ∧ (g a b = 1 ∨ g b a = 1) then 1 else g a b)) (n := n) ?_
  · unfold symmetrise
    have hz : matOf n (fun a b => if a < 0 ∧ b < 0 ∧ a ≠ b ∧ (g a b = 1 ∨ g b a = 1) then 1 else g a b) = matOf n g :=
      matOf_congr fun i _ j _ => by simp
    rw [hz] at key
    refine key.trans ?_
    congr 1
    exact matOf_congr fun i hi j hj => by simp [hi, hj]
  · intro i hi
    have key2 := foldlM_range_eq (f := fun M j => do
        let x ← mrd M i j
        let y ← mrd M j i
        if x = 1 ∨ y = 1 then do
          let M ← mwr M i j 1
          mwr M j i 1
        else (return M : Except Fault _))
      (s := fun k => matOf n (fun a b => if ((a < i ∧ b < i) ∨ (a = i ∧ b < k) ∨ (b = i ∧ a < k)) ∧ a ≠ b ∧ (g a b = 1 ∨ g b a = 1)
        then 1 else g a b)) (n := i) ?_
    · have e1 : matOf n (fun a b => if ((a < i ∧ b < i) ∨ (a = i ∧ b < 0) ∨ (b = i ∧ a < 0)) ∧ a ≠ b ∧ (g a b = 1 ∨ g b a = 1)
          then 1 else g a b) = matOf n (fun a b => if a < i ∧ b < i ∧ a ≠ b ∧ (g a b = 1 ∨ g b a = 1) then 1 else g a b) :=
        matOf_congr fun a _ b _ => by
          congr 1
          simp [and_assoc]
      rw [e1] at key2
      refine key2.trans ?_
      congr 1
      apply matOf_congr
      intro a _ b _
      have : (((a < i ∧ b < i) ∨ (a = i ∧ b < i) ∨ (b = i ∧ a < i)) ∧ a ≠ b ∧ (g a b = 1 ∨ g b a = 1)) ↔
        (a < i + 1 ∧ b < i + 1 ∧ a ≠ b ∧ (g a b = 1 ∨ g b a = 1)) := by
        constructor
        · rintro ⟨h1, h2, h3⟩; refine ⟨by omega, by omega, h2, h3⟩
        · rintro ⟨h1, h2, h3, h4⟩; refine ⟨by omega, h3, h4⟩
      simp only [this]
    · intro j hj
      have hjn : j < n := by omega
      rw [mrd_matOf hi hjn, ok_bind, mrd_matOf hjn hi, ok_bind]
      have hx : (if ((i < i ∧ j < i) ∨ (i = i ∧ j < j) ∨ (j = i ∧ i < j)) ∧ i ≠ j ∧ (g i j = 1 ∨ g j i = 1) then 1 else g i j) = g i j :=
        if_neg (by omega)
      have hy : (if ((j < i ∧ i < i) ∨ (j = i ∧ i < j) ∨ (i = i ∧ j < j)) ∧ j ≠ i ∧ (g j i = 1 ∨ g i j = 1) then 1 else g j i) = g j i :=
        if_neg (by omega)
      rw [hx, hy]
      by_cases hc : g i j = 1 ∨ g j i = 1
      · rw [if_pos hc, mwr2_matOf hi hjn]
        congr 1
        apply matOf_congr
        intro a _ b _
        by_cases h1 : (a = i ∧ b = j) ∨ (a = j ∧ b = i)
        · rw [if_pos h1, if_pos]
          rcases h1 with ⟨rfl, rfl⟩ | ⟨rfl, rfl⟩
          · exact ⟨by omega, by omega, hc⟩
          · exact ⟨by omega, by omega, hc.symm⟩
        · rw [if_neg h1]
          have : ((a < i ∧ b < i) ∨ (a = i ∧ b < j) ∨ (b = i ∧ a < j)) ↔
            ((a < i ∧ b < i) ∨ (a = i ∧ b < j + 1) ∨ (b = i ∧ a < j + 1)) := by omega
          simp only [this]
      · rw [if_neg hc]
        show Except.ok _ = Except.ok _
        congr 1
        apply matOf_congr
        intro a _ b _
        by_cases h1 : (a = i ∧ b = j) ∨ (a = j ∧ b = i)
        · have : ¬ (g a b = 1 ∨ g b a = 1) := by
            rcases h1 with ⟨rfl, rfl⟩ | ⟨rfl, rfl⟩
            · exact hc
            · exact fun h => hc h.symm
          simp [this]
        · have : ((a < i ∧ b < i) ∨ (a = i ∧ b < j) ∨ (b = i ∧ a < j)) ↔
            ((a < i ∧ b < i) ∨ (a = i ∧ b < j + 1) ∨ (b = i ∧ a < j + 1)) := by omega
          simp only [this]

theorem moralize_eq {n : Nat} (g : Nat → Nat → Int) :
    ∃ g', moralize (matOf n g) n = .ok (matOf n g') ∧
      (∀ a < n, ∀ b < n, a ≠ b → (g' a b = 1 ↔ g a b = 1 ∨ g b a = 1 ∨ ∃ c < n, g a c = 1 ∧ g b c = 1 ∧ c ≠ a ∧ c ≠ b)) ∧
      ∀ a < n, g' a a = g a a := by
  obtain ⟨L, hL, hmem⟩ := foldlM_range (f := fun (l : List (Nat × Nat)) i => do
      let ps ← matrixParents (matOf n g) n i
      let pairs ← parentPairs ps
      (return l ++ pairs : Except Fault _))
    (P := fun k l => ∀ x y, (x, y) ∈ l ↔ x < y ∧ x < n ∧ y < n ∧ ∃ c < k, g x c = 1 ∧ g y c = 1 ∧ c ≠ x ∧ c ≠ y) (n := n) (b := [])
    (by simp) (by
      intro i hi l hl
      obtain ⟨pairs, hp, hpm⟩ := parentPairs_eq (l := (List.range n).filter (fun j => i ≠ j ∧ g j i = 1))
        (List.pairwise_lt_range.filter _)
      refine ⟨l ++ pairs, by rw [matrixParents_eq hi, ok_bind, hp]; rfl, ?_⟩
      intro x y
      rw [List.mem_append, hl, hpm]
      simp only [List.mem_filter, List.mem_range, decide_eq_true_eq]
      constructor
      · rintro (⟨h1, h2, h3, c, hc, h4⟩ | ⟨⟨h1, h2, h3⟩, ⟨h4, h5, h6⟩, h7⟩)
        · exact ⟨h1, h2, h3, c, by omega, h4⟩
        · exact ⟨h7, h1, h4, i, by omega, h3, h6, h2, h5⟩
      · rintro ⟨h1, h2, h3, c, hc, h4, h5, h6, h7⟩
        by_cases e : c = i
        · subst e; exact Or.inr ⟨⟨h2, h6, h4⟩, ⟨h3, h7, h5⟩, h1⟩
        · exact Or.inl ⟨h1, h2, h3, c, by omega, h4, h5, h6, h7⟩)
  have heq : moralize (matOf n g) n = .ok (matOf n (fun a b => if (a, b) ∈ L ∨ (b, a) ∈ L then 1 else
      if a ≠ b ∧ (g a b = 1 ∨ g b a = 1) then 1 else g a b)) := by
    unfold moralize
    rw [hL, ok_bind, symmetrise_eq, ok_bind, setPairs_matOf L (fun p hp => ?_)]
    obtain ⟨_, h2, h3, _⟩ := (hmem p.1 p.2).1 hp
    exact ⟨h2, h3⟩
  refine ⟨_, heq, ?_, ?_⟩
  · intro a ha b hb hab
    · by_cases h : (a, b) ∈ L ∨ (b, a) ∈ L
      · simp only [if_pos h, true_iff]
        rcases h with h | h
        · obtain ⟨_, _, _, c, hc, h4, h5, h6, h7⟩ := (hmem _ _).1 h
          exact Or.inr (Or.inr ⟨c, hc, h4, h5, h6, h7⟩)
        · obtain ⟨_, _, _, c, hc, h4, h5, h6, h7⟩ := (hmem _ _).1 h
          exact Or.inr (Or.inr ⟨c, hc, h5, h4, h7, h6⟩)
      · simp only [if_neg h]
        have hno : ¬ ∃ c < n, g a c = 1 ∧ g b c = 1 ∧ c ≠ a ∧ c ≠ b := by
          rintro ⟨c, hc, h4, h5, h6, h7⟩
          apply h
          rcases Nat.lt_or_gt_of_ne hab with hlt | hlt
          · exact Or.inl ((hmem _ _).2 ⟨hlt, ha, hb, c, hc, h4, h5, h6, h7⟩)
          · exact Or.inr ((hmem _ _).2 ⟨hlt, hb, ha, c, hc, h5, h4, h7, h6⟩)
        by_cases h2 : g a b = 1 ∨ g b a = 1
        · simp [hab, h2]
          tauto
        · rw [if_neg (by tauto)]
          exact ⟨Or.inl, fun h3 => h3.elim id (fun h4 => h4.elim (fun h5 => absurd (Or.inr h5) h2) (fun h5 => absurd h5 hno))⟩
  · intro a _
    have : ¬ ((a, a) ∈ L ∨ (a, a) ∈ L) := by
      rw [or_self, hmem]
      omega
    simp only [if_neg this]
    simp

end FastPGM
