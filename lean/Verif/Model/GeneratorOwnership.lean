import Verif.Model.Skeleton

/-!
The skeleton phase of PC-stable with the choice generators on the heap.  `Model/Skeleton.lean` stores the generator of an edge in the edge;
in the code `Edge::cg` is a pointer, which the constructors of `Edge` leave uninitialised, to a generator that `CheckEdge` allocates and
releases.  The functions below follow the same lines of PCStable.cpp as those of `Model/Skeleton.lean` and differ from them in `cg` only.
-/

namespace FastPGM

/-- The value of a pointer member. -/
inductive PtrVal where
  | indeterminate
  | null
  | to (a : Nat)
  deriving DecidableEq, Repr

/-- The generators that are live, by address; addresses from `next` on have not been used. -/
structure GenHeap where
  next : Nat := 0
  gen : Nat → Option ChoiceGen := fun _ => none

/-- `new ChoiceGenerator(n, d)` -/
def GenHeap.new (h : GenHeap) (g : ChoiceGen) : PtrVal × GenHeap :=
  (.to h.next, ⟨h.next + 1, fun a => if a = h.next then some g else h.gen a⟩)

/-- `*p` -/
def GenHeap.read (h : GenHeap) : PtrVal → Except Fault ChoiceGen
  | .to a => match h.gen a with
    | some g => .ok g
    | none => .error .ub
  | _ => .error .ub

/-- `p->Next()` changes the generator in place. -/
def GenHeap.write (h : GenHeap) (p : PtrVal) (g : ChoiceGen) : GenHeap :=
  match p with
  | .to a => { h with gen := fun b => if b = a then some g else h.gen b }
  | _ => h

/-- common.h 18 `SAFE_DELETE`: it reads the pointer, so an indeterminate one is undefined behaviour, as is one to a released generator. -/
def GenHeap.safeDelete (h : GenHeap) : PtrVal → Except Fault (PtrVal × GenHeap)
  | .indeterminate => .error .ub
  | .null => .ok (.null, h)
  | .to a => match h.gen a with
    | some _ => .ok (.null, { h with gen := fun b => if b = a then none else h.gen b })
    | none => .error .ub

/-- include/fastpgm/Edge.h 15-27 with `cg` as a pointer; the constructors (Edge.cpp) do not set it. -/
structure PtrEdge where
  x : Nat
  y : Nat
  needRemove : Bool := false
  process : Process := .no
  cg : PtrVal := .indeterminate
  vecAdj : List Nat := []
  finish : Bool := false
  deriving DecidableEq, Repr

/-- PCStable.cpp 526-614 `Testing`. -/
def testingH (ci : CITest) (d g : Nat) (e : PtrEdge) (h : GenHeap) : Except Fault (Bool × PtrEdge × GenHeap × Option (List Nat)) := do
  let gen ← h.read e.cg
  let (choices, gen') ← gen.nextN g
  let h := h.write e.cg gen'
  let c0 ← rd choices 0
  if c0 ≠ [] then do
    let valid := choices.takeWhile (fun c => c ≠ [])
    let sets ← valid.mapM (fun c => pickSet e.vecAdj c d)
    let (ind, first) ← ci e.x e.y sets.flatten valid.length
    if ind then
      match first with
      | none => .error .ub
      | some f => do
        let c ← rd choices f
        let s ← pickSet e.vecAdj c d
        return (true, e, h, some (sortedSet s))
    else return (false, { e with finish := decide (valid.length ≠ g) }, h, none)
  else return (false, { e with finish := true }, h, none)

/-- PCStable.cpp 458-493: the second half of `CheckEdge`. -/
def checkTestsH (ci : CITest) (d g : Nat) (e : PtrEdge) (h : GenHeap) : Except Fault (PtrEdge × GenHeap × Bool × Option (List Nat)) := do
  let (ind, e, h, s) ← testingH ci d g e h
  if ind then do
    let (p, h) ← h.safeDelete e.cg
    return ({ e with cg := p, needRemove := true }, h, false, s)
  else if e.finish = false then return (e, h, true, s)
  else if e.process = .node1 then do
    let (p, h) ← h.safeDelete e.cg
    return ({ e with cg := p, process := .enode1 }, h, true, s)
  else do
    let (p, h) ← h.safeDelete e.cg
    return ({ e with cg := p, needRemove := false }, h, false, s)

/-- PCStable.cpp 399-494 `CheckEdge`. -/
def checkEdgeH (ci : CITest) (adj : List (List Nat)) (d g : Nat) (e : PtrEdge) (h : GenHeap) :
    Except Fault (PtrEdge × GenHeap × Bool × Option (List Nat)) :=
  match e.process with
  | .no => do
    let a ← findAdjacencies adj e.x e.y
    if d ≤ a.length then do
      let gen ← choiceGenerator a.length d
      let (p, h) := h.new gen
      checkTestsH ci d g { e with vecAdj := a, cg := p, process := .node1 } h
    else do
      let a ← findAdjacencies adj e.y e.x
      if d ≤ a.length then do
        let gen ← choiceGenerator a.length d
        let (p, h) := h.new gen
        checkTestsH ci d g { e with vecAdj := a, cg := p, process := .node2 } h
      else return ({ e with vecAdj := a, needRemove := false }, h, false, none)
  | .enode1 => do
    let a ← findAdjacencies adj e.y e.x
    if d ≤ a.length then do
      let gen ← choiceGenerator a.length d
      let (p, h) := h.new gen
      checkTestsH ci d g { e with vecAdj := a, cg := p, process := .node2 } h
    else return ({ e with vecAdj := a, needRemove := false }, h, false, none)
  | _ => checkTestsH ci d g e h

/-- The state of one level with the heap. -/
structure PtrLevelState where
  edges : List PtrEdge
  sep : Sepset
  heap : GenHeap

/-- PCStable.cpp 288-292, 311-315 and 573-584. -/
def levelStepH (ci : CITest) (adj : List (List Nat)) (d g : Nat) (st : PtrLevelState) (id : Nat) : Except Fault (PtrLevelState × Bool) := do
  let e ← rd st.edges id
  let (e', h, push, s) ← checkEdgeH ci adj d g e st.heap
  let edges ← wr st.edges id e'
  match s with
  | none => return (⟨edges, st.sep, h⟩, push)
  | some s => return (⟨edges, if e.x > e.y then st.sep.insert e.y e.x s else st.sep.insert e.x e.y s, h⟩, push)

/-- A parallel loop over the edge positions in the order `order`. -/
def levelBatchH (ci : CITest) (adj : List (List Nat)) (d g : Nat) (st : PtrLevelState) (order : List Nat) :
    Except Fault (PtrLevelState × List Nat) :=
  order.foldlM (fun (acc : PtrLevelState × List Nat) id => do
    let (st, push) ← levelStepH ci adj d g acc.1 id
    return (st, if push then id :: acc.2 else acc.2)) (st, [])

/-- PCStable.cpp 280-322. -/
def levelLoopH (ci : CITest) (adj : List (List Nat)) (d g cap : Nat) (sched : Schedule) :
    Nat → PtrLevelState → List Nat → Except Fault PtrLevelState
  | _, st, [] => .ok st
  | 0, _, _ :: _ => .error .ub
  | fuel + 1, st, id :: stack => do
    let batch := (id :: stack).take cap
    let (st, pushed) ← levelBatchH ci adj d g st (sched fuel batch)
    levelLoopH ci adj d g cap sched fuel st (batch.filter (fun i => i ∈ pushed) ++ (id :: stack).drop cap)

/-- PCStable.cpp 179-195 and 364-381. -/
def removeMarkedH : List PtrEdge → List (List Nat) → Except Fault (List PtrEdge × List (List Nat))
  | [], adj => .ok ([], adj)
  | e :: es, adj =>
    if e.needRemove then do
      let adj ← eraseAdj adj e.x e.y
      let adj ← eraseAdj adj e.y e.x
      removeMarkedH es adj
    else do
      let (es, adj) ← removeMarkedH es adj
      return (e :: es, adj)

/-- The skeleton with the heap. -/
structure PtrSkeleton where
  edges : List PtrEdge
  adj : List (List Nat)
  sep : Sepset
  heap : GenHeap

/-- PCStable.cpp 265-388 `SearchAtDepth`. -/
def searchAtDepthH (ci : CITest) (d g cap : Nat) (sched : Schedule) (fuel : Nat) (k : PtrSkeleton) : Except Fault (PtrSkeleton × Bool) := do
  let edges := k.edges.map (fun e => { e with process := .no })
  let st ← levelLoopH ci k.adj d g cap sched fuel ⟨edges, k.sep, k.heap⟩ (List.range edges.length)
  let (edges, adj) ← removeMarkedH st.edges k.adj
  return (⟨edges, adj, st.sep, st.heap⟩, decide (freeDegree adj > d))

/-- PCStable.cpp 133-177: one iteration of level 0, which uses no generator. -/
def level0StepH (ci : CITest) (st : PtrLevelState) (i : Nat) : Except Fault PtrLevelState := do
  let e ← rd st.edges i
  let (ind, _) ← ci e.x e.y [] 1
  if ind then do
    let edges ← wr st.edges i { e with needRemove := true }
    return ⟨edges, st.sep.insert e.x e.y [], st.heap⟩
  else return st

/-- PCStable.cpp 92 and 112-195. -/
def level0H (ci : CITest) (n : Nat) (order : List Nat) : Except Fault PtrSkeleton := do
  let slots ← completeGraphEdges n
  let edges ← slots.mapM (fun s => match s with
    | some e => .ok { x := e.node1, y := e.node2 : PtrEdge }
    | none => .error .ub)
  let st ← order.foldlM (level0StepH ci) ⟨edges, fun _ _ => none, {}⟩
  let (edges, adj) ← removeMarkedH st.edges (fullAdjacency n)
  return ⟨edges, adj, st.sep, st.heap⟩

/-- PCStable.cpp 209-231. -/
def levelsH (ci : CITest) (g cap : Nat) (sched : Nat → Schedule) (fuel : Nat) : Nat → Nat → PtrSkeleton → Except Fault PtrSkeleton
  | _, 0, k => .ok k
  | d, count + 1, k => do
    let (k, more) ← searchAtDepthH ci d g cap (sched d) fuel k
    if more then levelsH ci g cap sched fuel (d + 1) count k else return k

/-- PCStable.cpp 84-231: the skeleton phase. -/
def learnSkeletonH (ci : CITest) (n depth g cap : Nat) (order0 : List Nat) (sched : Nat → Schedule) (fuel : Nat) :
    Except Fault PtrSkeleton := do
  let k ← level0H ci n order0
  levelsH ci g cap sched fuel 1 (depth - 1) k

end FastPGM
