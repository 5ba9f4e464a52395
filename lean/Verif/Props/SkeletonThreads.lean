import Verif.Lemmas.SkeletonThreads3
import Verif.Props.Skeleton

/-!
C86: the skeleton phase of PC-stable with threads that take turns access by access (`learnSkeletonP`, `num_threads = p`).

The code increments `num_ci_test` and inserts into `sepset` from all threads without protection.
-/

namespace FastPGM

open Spec

/-- C86, violation: with two or more threads and three or more variables the skeleton phase has a data race, whatever the data, the test, the
depth and the group size: undefined behaviour is a possible outcome. -/
theorem C86_race {p n : Nat} (hp : 2 ≤ p) (hn : 3 ≤ n) (ci : CITest) (depth g cap fuel : Nat) :
    learnSkeletonP p ci n depth g cap fuel (.error .ub) :=
  Or.inl ⟨.ub, level0P_race hp hn, rfl⟩

/-- C86.  In the parallel loop of level 0 the counter and the map of separating sets are the only places at which two threads can race:
no state that can be reached under any schedule has a race at an edge record. -/
theorem C86_level0_shared {p : Nat} (ci : CITest) {es : List WorkEdge} {sep : Sepset} {c : Nat} {t : Team SPlace SCell}
    (ht : LoopState p es.length (level0Body ci) (skeletonMem ⟨es, sep⟩ c 0 (fun _ => none)) t) {l : SPlace} (hr : t.RaceAt l) :
    l = .counter ∨ l = .sepset := by
  obtain ⟨i, -, j, -, hij, hi, hj⟩ := race_shared (fun i _ => within_level0Body i) ht hr
  rcases hi with h | h | h | h
  · exact Or.inl h
  · exact Or.inr h
  · subst h
    rcases hj with h | h | h | h <;> simp at h
    exact absurd h hij
  · subst h
    rcases hj with h | h | h | h <;> simp at h
    exact absurd h hij

/-- C86.  The same for the loops of the later levels: the positions in a batch are different, so no two threads share an edge record or an
entry of `need_to_push`. -/
theorem C86_level_shared {p cap d g : Nat} (ci : CITest) (adj : List (List Nat)) {batch : List Nat} (hb : batch.Nodup) {st : LevelState} {c : Nat}
    {t : Team SPlace SCell}
    (ht : LoopState p batch.length (fun i => do let id ← Thread.lift (rd batch i); levelBody ci adj d g id i)
      (skeletonMem st c cap (fun _ => none)) t) {l : SPlace} (hr : t.RaceAt l) : l = .counter ∨ l = .sepset := by
  obtain ⟨i, hi', j, hj', hij, hi, hj⟩ := race_shared (A := fun i l => ∃ h : i < batch.length, SPlace.ofIteration batch[i] i l)
    (fun i hi => (within_batchBody hi).mono (fun l hl => ⟨hi, hl⟩)) ht hr
  obtain ⟨_, hi⟩ := hi
  obtain ⟨_, hj⟩ := hj
  rcases hi with h | h | h | h
  · exact Or.inl h
  · exact Or.inr h
  · subst h
    rcases hj with h | h | h | h <;> simp at h
    exact absurd ((List.Nodup.getElem_inj_iff hb).1 h) hij
  · subst h
    rcases hj with h | h | h | h <;> simp at h
    exact absurd h hij

/-- C86, partial: with one thread every outcome is a skeleton, it is the one of the sequential model (the graph after all levels below the
depth bound), and edges, adjacency lists and separating sets are the same in every outcome, whatever the group and batch sizes.  Missing: two
or more threads, where the code has a data race (`C86_race`). -/
theorem C86_one_thread_partial (ind : Nat → Nat → List Nat → Bool) (n depth : Nat) :
    ∃ F es adj sep, ∀ (ci : CITest) (g cap fuel : Nat), Answers ci ind n g → 0 < g → 0 < cap → F ≤ fuel →
      (∃ o, learnSkeletonP 1 ci n depth g cap fuel o) ∧
      ∀ o, learnSkeletonP 1 ci n depth g cap fuel o → ∃ k c, o = .ok (k, c) ∧ k.edges.map (fun e => (e.x, e.y)) = es ∧ k.adj = adj ∧
        k.sep = sep ∧ Represents n (skeletonAt ind n (max depth 1)) k := by
  obtain ⟨F, v, h⟩ := learnSkeleton_eq ind n depth
  refine ⟨F, v.1, v.2.1, v.2.2, ?_⟩
  intro ci g cap fuel ha hg hcap hf
  refine ⟨learnSkeletonP_some hcap n depth fuel, fun o ho => ?_⟩
  obtain ⟨order, sched, c, hord, hs, rfl⟩ := learnSkeletonP_one hcap ho
  obtain ⟨k, h1, h2, h3, -⟩ := h ci g cap order sched fuel ha hg hcap hord hs hf
  refine ⟨k, c, by rw [h1]; rfl, ?_, ?_, ?_, h3⟩
  · rw [← h2]; rfl
  · rw [← h2]; rfl
  · rw [← h2]; rfl

/-! ### A concrete case -/

/-- Verdicts for the graph `0 → 1 → 2`, with further variables isolated. -/
def chainInd (x y : Nat) (S : List Nat) : Bool := (2 < x || 2 < y) || ((x, y) == (0, 2) || (x, y) == (2, 0)) && S.contains 1

/-- The test that gives these verdicts, for groups of one set. -/
def chainCi : CITest := fun x y z _ => .ok (chainInd x y z, if chainInd x y z then some 0 else none)

theorem chain_answers (n : Nat) : Answers chainCi chainInd n 1 := by
  refine ⟨fun x y _ _ => ⟨_, rfl⟩, ?_⟩
  intro x y d sets _ _ _ hne hlen _
  obtain ⟨s, rfl⟩ : ∃ s, sets = [s] := List.length_eq_one_iff.1 (by have := List.length_pos_of_ne_nil hne; omega)
  refine ⟨if chainInd x y s then some 0 else none, ?_, ?_⟩
  · simp [chainCi]
  · simp only [List.any_cons, List.any_nil, Bool.or_false]
    intro h
    simp [h]

-- three variables, two threads
example : learnSkeletonP 2 chainCi 3 2 1 128 50 (.error .ub) := C86_race (by decide) (by decide) _ _ _ _ _

-- four variables, one thread: there is an outcome, and all of them are skeletons with the same edges
example : ∃ F es adj sep, (∃ o, learnSkeletonP 1 chainCi 4 2 1 128 F o) ∧ ∀ o, learnSkeletonP 1 chainCi 4 2 1 128 F o → ∃ k c, o = .ok (k, c) ∧
    k.edges.map (fun e => (e.x, e.y)) = es ∧ k.adj = adj ∧ k.sep = sep ∧ Represents 4 (skeletonAt chainInd 4 2) k := by
  obtain ⟨F, es, adj, sep, h⟩ := C86_one_thread_partial chainInd 4 2
  exact ⟨F, es, adj, sep, h chainCi 1 128 F (chain_answers 4) (by decide) (by decide) (le_refl F)⟩

-- the sequential model on the same data
example : (learnSkeleton chainCi 4 2 1 128 (List.range 6) (fun _ _ l => l) 50).map (fun k => (k.edges.map (fun e => (e.x, e.y)), k.adj)) =
    .ok ([(0, 1), (1, 2)], [[1], [0, 2], [1], []]) := by decide +kernel

-- a state of the loop of level 0 with a race at the counter, so that `C86_level0_shared` is not empty
example : ∃ t : Team SPlace SCell, LoopState 2 3 (level0Body chainCi) (skeletonMem ⟨[⟨0, 1, false, .no, none, [], false⟩, ⟨0, 2, false, .no, none, [], false⟩,
    ⟨1, 2, false, .no, none, [], false⟩], fun _ _ => none⟩ 0 0 (fun _ => none)) t ∧ t.RaceAt .counter := by
  obtain ⟨q, hq, hq'⟩ := level0Body_runs2 (ci := chainCi) (cap := 0) (st := ⟨[⟨0, 1, false, .no, none, [], false⟩, ⟨0, 2, false, .no, none, [], false⟩,
    ⟨1, 2, false, .no, none, [], false⟩], fun _ _ => none⟩) (c := 0) (fl := fun _ => none) (i := 0) (by decide)
  exact ⟨_, ⟨twoThreads 2 3 0 1, twoThreads_length (by decide), twoThreads_perm (by decide) (by decide) (by decide),
    (hq.bind.reaches _).trans ((level0Body_runs1 (i := 1) (by decide)).bind.reaches_second _)⟩,
    0, 1, _, _, true, false, by decide, rfl, rfl, Thread.next_bind hq', Thread.next_bind rfl, Or.inl rfl⟩

end FastPGM
