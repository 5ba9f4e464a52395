import Verif.Lemmas.Threads
import Mathlib.Data.List.Nodup

/-!
When a parallel loop has a data race.
-/

namespace FastPGM

variable {L V : Type}

theorem Thread.next_bind {α β : Type} {p : Thread L V α} {f : α → Thread L V β} {x : L × Bool} (h : p.next = some x) : (p.bind f).next = some x := by
  cases p with
  | ret a => cases h
  | fault e => cases h
  | read l k => exact h
  | write l v k => exact h

/-- The schedule that gives iteration `b` to the second thread and all others, `a` first, to the first. -/
def twoThreads (p n a b : Nat) : List (List Nat) :=
  (a :: (List.range n).filter (fun i => decide (i ≠ a ∧ i ≠ b))) :: [b] :: List.replicate (p - 2) []

theorem twoThreads_length {p n a b : Nat} (hp : 2 ≤ p) : (twoThreads p n a b).length = p := by
  simp only [twoThreads, List.length_cons, List.length_replicate]
  omega

theorem twoThreads_perm {p n a b : Nat} (ha : a < n) (hb : b < n) (hab : a ≠ b) : (twoThreads p n a b).flatten.Perm (List.range n) := by
  have e : (twoThreads p n a b).flatten = a :: (List.range n).filter (fun i => decide (i ≠ a ∧ i ≠ b)) ++ [b] := by
    simp [twoThreads]
  rw [e, List.perm_ext_iff_of_nodup]
  · intro x
    simp only [List.mem_append, List.mem_cons, List.mem_filter, List.mem_range, decide_eq_true_eq, List.not_mem_nil, or_false]
    constructor
    · rintro ((rfl | h) | rfl)
      · exact ha
      · exact h.1
      · exact hb
    · intro h
      by_cases h1 : x = a
      · exact Or.inl (Or.inl h1)
      · by_cases h2 : x = b
        · exact Or.inr h2
        · exact Or.inl (Or.inr ⟨h, h1, h2⟩)
  · rw [List.nodup_append]
    refine ⟨List.nodup_cons.2 ⟨by simp, List.nodup_range.filter _⟩, by simp, ?_⟩
    intro x hx y hy
    simp only [List.mem_cons, List.not_mem_nil, or_false, List.mem_filter, List.mem_range, decide_eq_true_eq] at hx hy
    subst hy
    rcases hx with rfl | hx
    · exact hab
    · exact hx.2.2
  · exact List.nodup_range

/-- Two iterations that begin with conflicting accesses race when there are two threads. -/
theorem parFor_race [DecidableEq L] {p n a b : Nat} (hp : 2 ≤ p) (ha : a < n) (hb : b < n) (hab : a ≠ b) {body : Nat → Thread L V Unit}
    {l : L} {w w' : Bool} (h1 : (body a).next = some (l, w)) (h2 : (body b).next = some (l, w')) (hw : w = true ∨ w' = true) (m : Mem L V) :
    parFor p n body m (.error .ub) := by
  refine ⟨twoThreads p n a b, twoThreads_length hp, twoThreads_perm ha hb hab, .race _ Relation.ReflTransGen.refl ?_⟩
  exact ⟨0, 1, _, _, l, w, w', by decide, rfl, rfl, Thread.next_bind h1, Thread.next_bind h2, hw⟩

/-- A thread on its own performs some accesses. -/
inductive Thread.Runs [DecidableEq L] {α : Type} : Thread L V α → Mem L V → Thread L V α → Mem L V → Prop where
  | refl (p : Thread L V α) (m : Mem L V) : Runs p m p m
  | step {p q r : Thread L V α} {m m' m'' : Mem L V} (hd : ¬ p.done) (h : p.step m = .ok (q, m')) (hr : Runs q m' r m'') : Runs p m r m''

theorem Thread.step_bind [DecidableEq L] {α β : Type} {p q : Thread L V α} {f : α → Thread L V β} {m m' : Mem L V} (hd : ¬ p.done)
    (h : p.step m = .ok (q, m')) : ¬ (p.bind f).done ∧ (p.bind f).step m = .ok (q.bind f, m') := by
  cases p with
  | ret a => exact absurd trivial hd
  | fault e => cases h
  | read l k =>
    refine ⟨id, ?_⟩
    simp only [Thread.step, Thread.bind] at h ⊢
    split at h
    · cases h
      rfl
    · cases h
  | write l v k =>
    refine ⟨id, ?_⟩
    simp only [Thread.step, Thread.bind] at h ⊢
    split at h
    · cases h
      rfl
    · cases h

theorem Thread.Runs.bind [DecidableEq L] {α β : Type} {p q : Thread L V α} {f : α → Thread L V β} {m m' : Mem L V} (h : p.Runs m q m') :
    (p.bind f).Runs m (q.bind f) m' := by
  induction h with
  | refl p m => exact .refl _ _
  | step hd h _ ih =>
    obtain ⟨h1, h2⟩ := Thread.step_bind (f := f) hd h
    exact .step h1 h2 ih

theorem Thread.Runs.reaches [DecidableEq L] {p q : Thread L V Unit} {m m' : Mem L V} (h : p.Runs m q m') (ts : List (Thread L V Unit)) :
    Team.Reaches ⟨m, p :: ts⟩ ⟨m', q :: ts⟩ := by
  induction h with
  | refl p m => exact Relation.ReflTransGen.refl
  | @step p q r m m' m'' hd h _ ih =>
    exact Relation.ReflTransGen.head (Team.Step.mk (t := ⟨m, p :: ts⟩) 0 p q m' rfl hd h) ih

/-- An iteration that comes to an access that conflicts with the first access of another iteration races with it when there are two
threads. -/
theorem parFor_race_later [DecidableEq L] {p n a b : Nat} (hp : 2 ≤ p) (ha : a < n) (hb : b < n) (hab : a ≠ b) {body : Nat → Thread L V Unit}
    {m m' : Mem L V} {q : Thread L V Unit} (hr : (body a).Runs m q m')
    {l : L} {w w' : Bool} (h1 : q.next = some (l, w)) (h2 : (body b).next = some (l, w')) (hw : w = true ∨ w' = true) :
    parFor p n body m (.error .ub) := by
  refine ⟨twoThreads p n a b, twoThreads_length hp, twoThreads_perm ha hb hab, .race _ (hr.bind.reaches _) ?_⟩
  exact ⟨0, 1, _, _, l, w, w', by decide, rfl, rfl, Thread.next_bind h1, Thread.next_bind h2, hw⟩

theorem Thread.Runs.reaches_second [DecidableEq L] {p q r : Thread L V Unit} {m m' : Mem L V} (h : p.Runs m q m') (ts : List (Thread L V Unit)) :
    Team.Reaches ⟨m, r :: p :: ts⟩ ⟨m', r :: q :: ts⟩ := by
  induction h with
  | refl p m => exact Relation.ReflTransGen.refl
  | @step p q r m m' m'' hd h _ ih =>
    exact Relation.ReflTransGen.head (Team.Step.mk (t := ⟨m, _ :: p :: ts⟩) 1 p q m' rfl hd h) ih

/-- Two iterations that come to conflicting accesses race when there are two threads. -/
theorem parFor_race_both [DecidableEq L] {p n a b : Nat} (hp : 2 ≤ p) (ha : a < n) (hb : b < n) (hab : a ≠ b) {body : Nat → Thread L V Unit}
    {m m' m'' : Mem L V} {q r : Thread L V Unit} (hq : (body a).Runs m q m') (hr : (body b).Runs m' r m'')
    {l : L} {w w' : Bool} (h1 : q.next = some (l, w)) (h2 : r.next = some (l, w')) (hw : w = true ∨ w' = true) :
    parFor p n body m (.error .ub) := by
  refine ⟨twoThreads p n a b, twoThreads_length hp, twoThreads_perm ha hb hab, .race _ ((hq.bind.reaches _).trans (hr.bind.reaches_second _)) ?_⟩
  exact ⟨0, 1, _, _, l, w, w', by decide, rfl, rfl, Thread.next_bind h1, Thread.next_bind h2, hw⟩

end FastPGM
