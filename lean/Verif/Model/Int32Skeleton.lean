import Verif.Model.Int32Test
import Verif.Model.Skeleton

/-!
The skeleton phase in 32-bit arithmetic: the complete graph it starts from and the tests.  The counter of tests (`num_ci_test`), which is
only printed, is not part of this model.
-/

namespace FastPGM

variable {K : Type}

/-- Network.cpp 270-283 `GenerateUndirectedCompleteGraph`; for no node `(num_nodes - 1) * num_nodes` is 0 in the code as well. -/
def completeGraphEdges32 (n : Nat) : Except Fault (List (Option Edge)) := do
  let p ← mul32 (n - 1) n
  (List.range n).foldlM (fun acc i =>
    ((List.range n).filter (fun j => i < j)).foldlM (fun acc j => do
      let a ← mul32 2 n
      let b ← mul32 (a - i - 1) i
      let c ← add32 (b / 2) j
      wr acc (c - i - 1) (some (mkUndirected i j))) acc) (List.replicate (p / 2) none)

/-- The G² test used by the code (PCStable.cpp 146-150 and 562-566), IndependenceTest.cpp 35-58. -/
def ciTest32 [Field K] [LinearOrder K] (log : K → K) (pchisq : K → Nat → Option K) (alpha : K) (dims : List Nat)
    (cols : List (List Nat)) (m : Nat) : CITest := fun x y z size => do
  let r ← independenceResult32 log pchisq alpha dims cols m x y z size
  return (r.indep, r.first)

/-- PCStable.cpp 92 and 112-195: the complete graph and level 0. -/
def level0_32 (ci : CITest) (n : Nat) (order : List Nat) : Except Fault Skeleton := do
  let slots ← completeGraphEdges32 n
  let edges ← slots.mapM (fun s => match s with
    | some e => .ok { x := e.node1, y := e.node2 : WorkEdge }
    | none => .error .ub)
  let st ← order.foldlM (level0Step ci) ⟨edges, fun _ _ => none⟩
  let (edges, adj) ← removeMarked st.edges (fullAdjacency n)
  return ⟨edges, adj, st.sep⟩

/-- PCStable.cpp 84-231: the skeleton phase of `StructLearnByPCStable`. -/
def learnSkeleton32 [Field K] [LinearOrder K] (log : K → K) (pchisq : K → Nat → Option K) (alpha : K) (dims : List Nat)
    (cols : List (List Nat)) (m n depth g cap : Nat) (order0 : List Nat) (sched : Nat → Schedule) (fuel : Nat) : Except Fault Skeleton := do
  let k ← level0_32 (ciTest32 log pchisq alpha dims cols m) n order0
  levels (ciTest32 log pchisq alpha dims cols m) g cap sched fuel 1 (depth - 1) k

end FastPGM
