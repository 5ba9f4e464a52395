import Verif.Model.StdSet
import Mathlib.Data.List.Pairwise

/-!
Lemmas about sorted sets.
-/

namespace FastPGM

theorem mem_setInsert {x y : Nat} {l : List Nat} : y ∈ setInsert x l ↔ y = x ∨ y ∈ l := by
  induction l with
  | nil => simp [setInsert]
  | cons z zs ih =>
    unfold setInsert
    split
    · simp
    · split
      · rename_i h; subst h; simp
      · simp [ih]; tauto

theorem setInsert_sorted {x : Nat} {l : List Nat} (h : l.Pairwise (· < ·)) : (setInsert x l).Pairwise (· < ·) := by
  induction l with
  | nil => simp [setInsert]
  | cons z zs ih =>
    obtain ⟨h1, h2⟩ := List.pairwise_cons.1 h
    unfold setInsert
    split
    · rename_i hlt
      refine List.pairwise_cons.2 ⟨?_, h⟩
      intro y hy
      rcases List.mem_cons.1 hy with rfl | hy
      · exact hlt
      · exact Nat.lt_trans hlt (h1 y hy)
    · split
      · exact h
      · refine List.pairwise_cons.2 ⟨?_, ih h2⟩
        intro y hy
        rcases mem_setInsert.1 hy with rfl | hy
        · omega
        · exact h1 y hy

theorem foldl_setInsert (l s : List Nat) (hs : s.Pairwise (· < ·)) :
    (l.foldl (fun s x => setInsert x s) s).Pairwise (· < ·) ∧
      ∀ y, y ∈ l.foldl (fun s x => setInsert x s) s ↔ y ∈ l ∨ y ∈ s := by
  induction l generalizing s with
  | nil => simp [hs]
  | cons x xs ih =>
    obtain ⟨h1, h2⟩ := ih (setInsert x s) (setInsert_sorted hs)
    refine ⟨h1, fun y => ?_⟩
    rw [List.foldl_cons, h2, mem_setInsert, List.mem_cons]
    tauto

theorem sortedSet_sorted (l : List Nat) : (sortedSet l).Pairwise (· < ·) :=
  (foldl_setInsert l [] List.Pairwise.nil).1

theorem mem_sortedSet {l : List Nat} {y : Nat} : y ∈ sortedSet l ↔ y ∈ l := by
  have := (foldl_setInsert l [] List.Pairwise.nil).2 y
  simpa [sortedSet] using this

theorem nodup_of_sorted {l : List Nat} (h : l.Pairwise (· < ·)) : l.Nodup :=
  h.imp (fun hab => Nat.ne_of_lt hab)

theorem sortedSet_nodup (l : List Nat) : (sortedSet l).Nodup := nodup_of_sorted (sortedSet_sorted l)

end FastPGM
