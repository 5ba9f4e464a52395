import Verif.Lemmas.GeneratorOwnership
import Verif.Props.Skeleton

/-!
C112: the choice generators of PC-stable.  `Edge::cg` is an uninitialised pointer until `CheckEdge` allocates a generator for the edge.
Whatever the tests answer and in whatever order the edges are handled, the pointer is read only while it points to a live generator, every
generator that is allocated is released once, and the skeleton is the one of the model that keeps the generator inside the edge.
-/

namespace FastPGM

open Spec

/-- C112: for every test, group size, batch size and schedule the skeleton phase with generators on the heap has the same fault or the same
result as the one with generators inside the edges; in the latter case all generators have been released. -/
theorem C112_refines (ci : CITest) (n depth g cap : Nat) (order0 : List Nat) (sched : Nat → Schedule)
    (hsched : ∀ d r l, (sched d r l).Perm l) (fuel : Nat) :
    (∃ f, learnSkeleton ci n depth g cap order0 sched fuel = .error f ∧ learnSkeletonH ci n depth g cap order0 sched fuel = .error f) ∨
    (∃ k q, learnSkeleton ci n depth g cap order0 sched fuel = .ok k ∧ learnSkeletonH ci n depth g cap order0 sched fuel = .ok q ∧
      q.edges.map (fun e => (e.x, e.y)) = k.edges.map (fun e => (e.x, e.y)) ∧ q.adj = k.adj ∧ q.sep = k.sep ∧
      (∀ a, q.heap.gen a = none) ∧ ∀ e ∈ q.edges, ∀ a, e.cg ≠ .to a) := by
  have h : GenRelE SkelRel (learnSkeleton ci n depth g cap order0 sched fuel) (learnSkeletonH ci n depth g cap order0 sched fuel) :=
    (level0_rel ci n order0).bind fun k q hk => levels_rel ci g cap sched hsched fuel 1 (depth - 1) k q hk
  match h1 : learnSkeleton ci n depth g cap order0 sched fuel, h2 : learnSkeletonH ci n depth g cap order0 sched fuel, h with
  | .ok k, .ok q, h =>
    obtain ⟨hc, ha, hs⟩ := h
    refine Or.inr ⟨k, q, rfl, rfl, ?_, ha.symm, hs.symm, hc.heap, hc.ptr⟩
    rw [hc.edges, List.map_map]
    rfl
  | .error f, .error f', h =>
    exact Or.inl ⟨f, rfl, by rw [show f = f' from h]⟩
  | .ok _, .error _, h => exact h.elim
  | .error _, .ok _, h => exact h.elim

/-- C112: when the tests answer as the property C29 asks, the phase ends normally with all generators released. -/
theorem C112_released (ind : Nat → Nat → List Nat → Bool) (n depth : Nat) :
    ∃ F, ∀ (ci : CITest) (g cap : Nat) (order : List Nat) (sched : Nat → Schedule) (fuel : Nat), Answers ci ind n g → 0 < g → 0 < cap →
      order.Perm (List.range (n * (n - 1) / 2)) → (∀ d r l, (sched d r l).Perm l) → F ≤ fuel →
      ∃ q, learnSkeletonH ci n depth g cap order sched fuel = .ok q ∧ ∀ a, q.heap.gen a = none := by
  obtain ⟨F, h⟩ := C29_schedule ind n depth
  refine ⟨F, fun ci g cap order sched fuel ha hg hcap hord hs hf => ?_⟩
  obtain ⟨k, _, h1, _⟩ := h ci ci g g cap cap order order sched sched fuel fuel ha ha hg hg hcap hcap hord hord hs hs hf hf
  rcases C112_refines ci n depth g cap order sched hs fuel with ⟨f, h2, _⟩ | ⟨_, q, _, h3, _, _, _, h4, _⟩
  · rw [h1] at h2
    cases h2
  · exact ⟨q, h3, h4⟩

/-- A test that finds 0 and 3 independent given {1, 2} and nothing else. -/
private def squareTest : CITest := fun x y z size =>
  .ok (if x = 0 ∧ y = 3 ∧ z = [1, 2] ∧ size = 1 then (true, some 0) else (false, none))

/-- On four nodes the skeleton phase with that test allocates 23 generators, releases all of them and leaves five edges. -/
example : (do
    let q ← learnSkeletonH squareTest 4 4 1 128 (List.range 6) (fun _ _ l => l) 100
    return (q.edges.map (fun (e : PtrEdge) => (e.x, e.y)), q.heap.next, (List.range 30).filter (fun a => (q.heap.gen a).isSome))) =
    .ok ([(0, 1), (0, 2), (1, 2), (1, 3), (2, 3)], 23, []) := by decide +kernel

end FastPGM
