import Verif.Model.Network
import Verif.Lemmas.StdSet
import Mathlib.Data.List.Basic
import Mathlib.Data.List.Nodup

/-!
Lemmas about parent configurations.
-/

namespace FastPGM

theorem foldl_combsInsert {α : Type} (l : List α) (f : α → Config) (acc : List Config) (h : acc.Nodup) :
    (l.foldl (fun acc c => combsInsert (f c) acc) acc).Nodup ∧
      ∀ x, x ∈ l.foldl (fun acc c => combsInsert (f c) acc) acc ↔ x ∈ acc ∨ ∃ c ∈ l, x = f c := by
  induction l generalizing acc with
  | nil => simp [h]
  | cons a l ih =>
    have hn : (combsInsert (f a) acc).Nodup := by
      unfold combsInsert
      split
      · exact h
      · rename_i hh
        rw [List.nodup_append]
        refine ⟨h, by simp, ?_⟩
        intro x hx y hy
        rw [List.mem_singleton] at hy
        subst hy
        rintro rfl
        exact hh hx
    have hm : ∀ x, x ∈ combsInsert (f a) acc ↔ x ∈ acc ∨ x = f a := by
      intro x
      unfold combsInsert
      split
      · rename_i hh
        constructor
        · exact Or.inl
        · rintro (h | rfl)
          · exact h
          · exact hh
      · simp
    obtain ⟨h1, h2⟩ := ih _ hn
    refine ⟨h1, fun x => ?_⟩
    rw [List.foldl_cons, h2, hm]
    simp only [List.mem_cons, exists_eq_or_imp]
    tauto

theorem foldl2_combsInsert {α : Type} (dim : Nat) (combs : List α) (f : Nat → α → Config) :
    ((List.range dim).foldl (fun acc i => combs.foldl (fun acc c => combsInsert (f i c) acc) acc) []).Nodup ∧
      ∀ x, x ∈ (List.range dim).foldl (fun acc i => combs.foldl (fun acc c => combsInsert (f i c) acc) acc) [] ↔
        ∃ i < dim, ∃ c ∈ combs, x = f i c := by
  induction dim with
  | zero => simp
  | succ n ih =>
    rw [List.range_succ, List.foldl_append, List.foldl_cons, List.foldl_nil]
    obtain ⟨h1, h2⟩ := foldl_combsInsert combs (f n) _ ih.1
    refine ⟨h1, fun x => ?_⟩
    rw [h2, ih.2]
    constructor
    · rintro (⟨i, hi, h⟩ | h)
      · exact ⟨i, by omega, h⟩
      · exact ⟨n, by omega, h⟩
    · rintro ⟨i, hi, h⟩
      by_cases e : i = n
      · subst e; exact Or.inr h
      · exact Or.inl ⟨i, by omega, h⟩

theorem extendCombs_spec (p dim : Nat) (combs : List Config) :
    (extendCombs p dim combs).Nodup ∧
      ∀ x, x ∈ extendCombs p dim combs ↔ ∃ i < dim, ∃ c ∈ combs, x = configInsert (p, i) c :=
  foldl2_combsInsert dim combs (fun i c => configInsert (p, i) c)

theorem shrinkCombs_spec (p dim : Nat) (combs : List Config) :
    (shrinkCombs p dim combs).Nodup ∧
      ∀ x, x ∈ shrinkCombs p dim combs ↔ ∃ i < dim, ∃ c ∈ combs, x = c.erase (p, i) :=
  foldl2_combsInsert dim combs (fun i c => c.erase (p, i))

theorem configInsert_fst {p i : Nat} {c : Config} (hp : p ∉ c.map Prod.fst) :
    (configInsert (p, i) c).map Prod.fst = setInsert p (c.map Prod.fst) := by
  induction c with
  | nil => rfl
  | cons q c ih =>
    simp only [List.map_cons, List.mem_cons, not_or] at hp
    unfold configInsert
    rw [List.map_cons]
    unfold setInsert
    by_cases h : p < q.1
    · rw [if_pos (Or.inl h), if_pos h]; rfl
    · rw [if_neg (by rintro (h1 | ⟨h1, _⟩); exact h h1; exact hp.1 h1), if_neg h, if_neg (by rintro rfl; exact hp.1 rfl),
        if_neg hp.1, List.map_cons, ih hp.2]

theorem mem_configInsert' {p x : Nat × Nat} {l : Config} : x ∈ configInsert p l ↔ x = p ∨ x ∈ l := by
  induction l with
  | nil => simp [configInsert]
  | cons q qs ih =>
    unfold configInsert
    split
    · simp
    · split
      · rename_i h; subst h; simp
      · simp only [List.mem_cons, ih]; tauto

/-- Erasing the pair of `p` and inserting it again. -/
theorem configInsert_erase {p i : Nat} {c : Config} (hs : (c.map Prod.fst).Pairwise (· < ·)) (hm : (p, i) ∈ c) :
    configInsert (p, i) (c.erase (p, i)) = c := by
  induction c with
  | nil => simp at hm
  | cons q c ih =>
    rw [List.map_cons, List.pairwise_cons] at hs
    by_cases e : q = (p, i)
    · subst e
      rw [List.erase_cons_head]
      cases c with
      | nil => rfl
      | cons r c =>
        have := hs.1 r.1 (by simp)
        unfold configInsert
        rw [if_pos (Or.inl this)]
    · have hm' : (p, i) ∈ c := by
        rcases List.mem_cons.1 hm with h | h
        · exact absurd h.symm e
        · exact h
      rw [List.erase_cons_tail (by simpa using e)]
      have hlt := hs.1 p (List.mem_map.2 ⟨_, hm', rfl⟩)
      unfold configInsert
      simp only at hlt ⊢
      rw [if_neg (by omega), if_neg (fun h => e h.symm), ih hs.2 hm']

theorem erase_configInsert {p i : Nat} {c : Config} (hp : p ∉ c.map Prod.fst) : (configInsert (p, i) c).erase (p, i) = c := by
  induction c with
  | nil => simp [configInsert]
  | cons q c ih =>
    simp only [List.map_cons, List.mem_cons, not_or] at hp
    have hq : q ≠ (p, i) := by rintro rfl; exact hp.1 rfl
    unfold configInsert
    split
    · rw [List.erase_cons_head]
    · rw [if_neg (fun h => hq h.symm), List.erase_cons_tail (by simpa using hq), ih hp.2]

theorem erase_fst {p i : Nat} {c : Config} (hs : (c.map Prod.fst).Nodup) (hm : (p, i) ∈ c) :
    (c.erase (p, i)).map Prod.fst = (c.map Prod.fst).erase p := by
  induction c with
  | nil => simp at hm
  | cons q c ih =>
    rw [List.map_cons, List.nodup_cons] at hs
    by_cases e : q = (p, i)
    · subst e
      rw [List.erase_cons_head, List.map_cons, List.erase_cons_head]
    · have hm' : (p, i) ∈ c := by
        rcases List.mem_cons.1 hm with h | h
        · exact absurd h.symm e
        · exact h
      have hne : q.1 ≠ p := fun h => hs.1 (h ▸ List.mem_map.2 ⟨_, hm', rfl⟩)
      rw [List.erase_cons_tail (by simpa using e), List.map_cons, List.map_cons, List.erase_cons_tail (by simpa using hne),
        ih hs.2 hm']

theorem setInsert_erase {p : Nat} {l : List Nat} (hs : l.Pairwise (· < ·)) (hm : p ∈ l) : setInsert p (l.erase p) = l := by
  induction l with
  | nil => simp at hm
  | cons q l ih =>
    rw [List.pairwise_cons] at hs
    by_cases e : q = p
    · subst e
      rw [List.erase_cons_head]
      cases l with
      | nil => rfl
      | cons r l =>
        have := hs.1 r (by simp)
        unfold setInsert
        rw [if_pos this]
    · have hm' : p ∈ l := by
        rcases List.mem_cons.1 hm with h | h
        · exact absurd h.symm e
        · exact h
      rw [List.erase_cons_tail (by simpa using e)]
      have hlt := hs.1 p hm'
      unfold setInsert
      rw [if_neg (by omega), if_neg (by omega), ih hs.2 hm']

theorem erase_setInsert {p : Nat} {l : List Nat} (hp : p ∉ l) : (setInsert p l).erase p = l := by
  induction l with
  | nil => simp [setInsert]
  | cons q l ih =>
    simp only [List.mem_cons, not_or] at hp
    unfold setInsert
    split
    · rw [List.erase_cons_head]
    · rw [if_neg hp.1, List.erase_cons_tail (by simpa using fun h : q = p => hp.1 h.symm), ih hp.2]

end FastPGM
