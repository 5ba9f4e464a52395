import Verif.Model.ChoiceGenerator
import Verif.Model.IndependenceTest
import Verif.Model.Network

/-!
Model of the skeleton phase of PC-stable (src/fastpgm/structure_learning/PCStable.cpp 84-231 and 265-629).

* The independence test is a parameter `ci x y Z size` (what `IndependenceTest::IndependenceResult` returns: the verdict and the field
  `first`, -1 as `none`); `ciTest` below is the G² test.
* `adjacencies` is a list of increasing neighbour lists (the weights are never used).
* An OpenMP loop runs its iterations in an arbitrary order, given by a schedule.  An iteration is taken to be atomic: the code inserts
  into the shared map `sepset` and increments `num_ci_test` without protection, so with more than one thread this assumes that these two
  accesses do not corrupt the containers.
* `num_ci_test` (printed only) is left out.
-/

namespace FastPGM

/-- include/fastpgm/Edge.h 13 -/
inductive Process where
  | no | node1 | enode1 | node2
  deriving DecidableEq, Repr

/-- include/fastpgm/Edge.h 15-27: the members of an edge that the skeleton phase uses.  All edges are undirected, `x = node1`,
`y = node2`. -/
structure WorkEdge where
  x : Nat
  y : Nat
  needRemove : Bool := false
  process : Process := .no
  cg : Option ChoiceGen := none
  vecAdj : List Nat := []
  finish : Bool := false
  deriving DecidableEq, Repr

/-- PCStable.h: `sepset`, a map from pairs of nodes to sets. -/
abbrev Sepset := Nat → Nat → Option (List Nat)

/-- `sepset.insert(make_pair(make_pair(a, b), s))`: an existing entry is kept. -/
def Sepset.insert (m : Sepset) (a b : Nat) (s : List Nat) : Sepset :=
  fun a' b' => if a' = a ∧ b' = b ∧ (m a b).isNone then some s else m a' b'

/-- What an independence test returns: verdict and index of the first independent set. -/
abbrev CITest := Nat → Nat → List Nat → Nat → Except Fault (Bool × Option Nat)

/-- The G² test used by the code. -/
def ciTest {K : Type} [Field K] [LinearOrder K] (log : K → K) (pchisq : K → Nat → Option K) (alpha : K) (dims : List Nat)
    (cols : List (List Nat)) (m : Nat) : CITest := fun x y z size => do
  let r ← independenceResult log pchisq alpha dims cols m x y z size
  return (r.indep, r.first)

/-- PCStable.cpp 500-515 `FindAdjacencies`: the neighbours of `x` other than `y`. -/
def findAdjacencies (adj : List (List Nat)) (x y : Nat) : Except Fault (List Nat) := do
  let l ← rdAt adj x
  return (sortedSet l).erase y

/-- `vec_adj[choice[j]]` for `j = 0, …, d-1` -/
def pickSet (vecAdj : List Nat) (choice : List Int) (d : Nat) : Except Fault (List Nat) :=
  (List.range d).mapM (fun j => do
    let c ← rd choice j
    if c < 0 then .error .ub else rd vecAdj c.toNat)

/-- PCStable.cpp 526-614 `Testing`: the verdict, the edge with its new generator state and the set to record. -/
def testing (ci : CITest) (d g : Nat) (e : WorkEdge) : Except Fault (Bool × WorkEdge × Option (List Nat)) :=
  match e.cg with
  | none => .error .ub
  | some gen => do
    let (choices, gen') ← gen.nextN g
    let e := { e with cg := some gen' }
    let c0 ← rd choices 0
    if c0 ≠ [] then do
      let valid := choices.takeWhile (fun c => c ≠ [])
      let sets ← valid.mapM (fun c => pickSet e.vecAdj c d)
      let (ind, first) ← ci e.x e.y sets.flatten valid.length
      if ind then
        match first with
        | none => .error .ub
        | some f => do
          let c ← rd choices f
          let s ← pickSet e.vecAdj c d
          return (true, e, some (sortedSet s))
      else return (false, { e with finish := decide (valid.length ≠ g) }, none)
    else return (false, { e with finish := true }, none)

/-- PCStable.cpp 458-493: the second half of `CheckEdge`.  The result says whether the edge is to be pushed back. -/
def checkTests (ci : CITest) (d g : Nat) (e : WorkEdge) : Except Fault (WorkEdge × Bool × Option (List Nat)) := do
  let (ind, e, s) ← testing ci d g e
  if ind then return ({ e with cg := none, needRemove := true }, false, s)
  else if e.finish = false then return (e, true, s)
  else if e.process = .node1 then return ({ e with cg := none, process := .enode1 }, true, s)
  else return ({ e with cg := none, needRemove := false }, false, s)

/-- PCStable.cpp 399-494 `CheckEdge`.  It reads and writes only the members of its own edge, apart from the recorded set. -/
def checkEdge (ci : CITest) (adj : List (List Nat)) (d g : Nat) (e : WorkEdge) : Except Fault (WorkEdge × Bool × Option (List Nat)) :=
  match e.process with
  | .no => do
    let a ← findAdjacencies adj e.x e.y
    if d ≤ a.length then do
      let gen ← choiceGenerator a.length d
      checkTests ci d g { e with vecAdj := a, cg := some gen, process := .node1 }
    else do
      let a ← findAdjacencies adj e.y e.x
      if d ≤ a.length then do
        let gen ← choiceGenerator a.length d
        checkTests ci d g { e with vecAdj := a, cg := some gen, process := .node2 }
      else return ({ e with vecAdj := a, needRemove := false }, false, none)
  | .enode1 => do
    let a ← findAdjacencies adj e.y e.x
    if d ≤ a.length then do
      let gen ← choiceGenerator a.length d
      checkTests ci d g { e with vecAdj := a, cg := some gen, process := .node2 }
    else return ({ e with vecAdj := a, needRemove := false }, false, none)
  | _ => checkTests ci d g e

/-- The state of one level: the edges (`vec_edges`) and `sepset`. -/
structure LevelState where
  edges : List WorkEdge
  sep : Sepset

/-- One iteration of the loops at PCStable.cpp 288-292 and 311-315, for the edge at position `id`; `PCStable.cpp` 573-584 orders the pair
under which the set is recorded. -/
def levelStep (ci : CITest) (adj : List (List Nat)) (d g : Nat) (st : LevelState) (id : Nat) : Except Fault (LevelState × Bool) := do
  let e ← rd st.edges id
  let (e', push, s) ← checkEdge ci adj d g e
  let edges ← wr st.edges id e'
  match s with
  | none => return (⟨edges, st.sep⟩, push)
  | some s => return (⟨edges, if e.x > e.y then st.sep.insert e.y e.x s else st.sep.insert e.x e.y s⟩, push)

/-- A parallel loop over the edge positions `batch`, executed in the order `order`; returns the positions to push back. -/
def levelBatch (ci : CITest) (adj : List (List Nat)) (d g : Nat) (st : LevelState) (order : List Nat) : Except Fault (LevelState × List Nat) :=
  order.foldlM (fun (acc : LevelState × List Nat) id => do
    let (st, push) ← levelStep ci adj d g acc.1 id
    return (st, if push then id :: acc.2 else acc.2)) (st, [])

/-- A schedule: the order in which the iterations of the parallel loop of a round are executed. -/
abbrev Schedule := Nat → List Nat → List Nat

/-- PCStable.cpp 280-322, the two loops over the stack (top of the stack first).  The first loop takes 128 positions at a time while there
are at least 128, the second one all that are left; since the stack never grows this is taking `min 128 size` positions in every round.
The positions to be continued are pushed back in their old order.  `cap` is 128 in the code; `fuel` bounds the number of rounds (the loops
are unbounded in the code). -/
def levelLoop (ci : CITest) (adj : List (List Nat)) (d g cap : Nat) (sched : Schedule) : Nat → LevelState → List Nat → Except Fault LevelState
  | _, st, [] => .ok st
  | 0, _, _ :: _ => .error .ub
  | fuel + 1, st, id :: stack => do
    let batch := (id :: stack).take cap
    let (st, pushed) ← levelBatch ci adj d g st (sched fuel batch)
    levelLoop ci adj d g cap sched fuel st (batch.filter (fun i => i ∈ pushed) ++ (id :: stack).drop cap)

/-- `adjacencies[a].erase(b)` -/
def eraseAdj (adj : List (List Nat)) (a b : Nat) : Except Fault (List (List Nat)) := do
  let l ← rdAt adj a
  wr adj a (l.erase b)

/-- PCStable.cpp 179-195 and 364-381: delete the marked edges.  The loop erases position `i` and looks at position `i` again, so every edge
is looked at once, in order. -/
def removeMarked : List WorkEdge → List (List Nat) → Except Fault (List WorkEdge × List (List Nat))
  | [], adj => .ok ([], adj)
  | e :: es, adj =>
    if e.needRemove then do
      let adj ← eraseAdj adj e.x e.y
      let adj ← eraseAdj adj e.y e.x
      removeMarked es adj
    else do
      let (es, adj) ← removeMarked es adj
      return (e :: es, adj)

/-- PCStable.cpp 620-626 `FreeDegree`. -/
def freeDegree (adj : List (List Nat)) : Int := ((adj.foldl (fun m l => if l.length > m then l.length else m) 0 : Nat) : Int) - 1

/-- The skeleton and the separating sets. -/
structure Skeleton where
  edges : List WorkEdge
  adj : List (List Nat)
  sep : Sepset

/-- PCStable.cpp 265-388 `SearchAtDepth`; the result also says whether to go on. -/
def searchAtDepth (ci : CITest) (d g cap : Nat) (sched : Schedule) (fuel : Nat) (k : Skeleton) : Except Fault (Skeleton × Bool) := do
  let edges := k.edges.map (fun e => { e with process := .no })
  let st ← levelLoop ci k.adj d g cap sched fuel ⟨edges, k.sep⟩ (List.range edges.length)
  let (edges, adj) ← removeMarked st.edges k.adj
  return (⟨edges, adj, st.sep⟩, decide (freeDegree adj > d))

/-- PCStable.cpp 133-177: one iteration of level 0.  It writes its own edge and `sepset`. -/
def level0Step (ci : CITest) (st : LevelState) (i : Nat) : Except Fault LevelState := do
  let e ← rd st.edges i
  let (ind, _) ← ci e.x e.y [] 1
  if ind then do
    let edges ← wr st.edges i { e with needRemove := true }
    return ⟨edges, st.sep.insert e.x e.y []⟩
  else return st

/-- PCStable.cpp 117-127: all nodes are neighbours of all others. -/
def fullAdjacency (n : Nat) : List (List Nat) := (List.range n).map (fun i => (List.range n).filter (fun j => i ≠ j))

/-- PCStable.cpp 92 and 112-195: the complete graph and level 0; `order` is the order in which the iterations of the parallel loop are
executed. -/
def level0 (ci : CITest) (n : Nat) (order : List Nat) : Except Fault Skeleton := do
  let slots ← completeGraphEdges n
  let edges ← slots.mapM (fun s => match s with
    | some e => .ok { x := e.node1, y := e.node2 : WorkEdge }
    | none => .error .ub)
  let st ← order.foldlM (level0Step ci) ⟨edges, fun _ _ => none⟩
  let (edges, adj) ← removeMarked st.edges (fullAdjacency n)
  return ⟨edges, adj, st.sep⟩

/-- PCStable.cpp 209-231: levels `d, d+1, …`, `count` of them, until a level says to stop. -/
def levels (ci : CITest) (g cap : Nat) (sched : Nat → Schedule) (fuel : Nat) : Nat → Nat → Skeleton → Except Fault Skeleton
  | _, 0, k => .ok k
  | d, count + 1, k => do
    let (k, more) ← searchAtDepth ci d g cap (sched d) fuel k
    if more then levels ci g cap sched fuel (d + 1) count k else return k

/-- PCStable.cpp 84-231: the skeleton phase of `StructLearnByPCStable` with batches of 128 edges. -/
def learnSkeleton (ci : CITest) (n depth g cap : Nat) (order0 : List Nat) (sched : Nat → Schedule) (fuel : Nat) : Except Fault Skeleton := do
  let k ← level0 ci n order0
  levels ci g cap sched fuel 1 (depth - 1) k

end FastPGM
