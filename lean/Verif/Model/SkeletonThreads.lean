import Verif.Model.Skeleton
import Verif.Model.Threads

/-!
The parallel loops of the skeleton phase of PC-stable (src/fastpgm/structure_learning/PCStable.cpp 133-177, 280-322, 399-494, 526-614),
access by access, with the counter `num_ci_test`.

An edge record is one place, since an iteration uses only the record of its own edge.  The map `sepset` is one place: `insert` reads and writes it.
-/

namespace FastPGM

/-- A place of shared memory. -/
inductive SPlace where
  /-- the member `num_ci_test` -/
  | counter
  /-- the member `sepset` -/
  | sepset
  /-- `network->vec_edges[i]` -/
  | edge (i : Nat)
  /-- `need_to_push[i]` -/
  | push (i : Nat)
  deriving DecidableEq

/-- What is stored at a place. -/
inductive SCell where
  | count (n : Nat)
  | sep (s : Sepset)
  | edge (e : WorkEdge)
  | flag (b : Bool)

/-- The memory of the loops. -/
abbrev SMem := Mem SPlace SCell

/-- A thread of the loops. -/
abbrev SProg (α : Type) := Thread SPlace SCell α

/-- Read an edge record. -/
def readEdge (i : Nat) : SProg WorkEdge := .read (.edge i) (fun v => match v with | .edge e => .ret e | _ => .fault .ub)

/-- Read the counter. -/
def readCount : SProg Nat := .read .counter (fun v => match v with | .count n => .ret n | _ => .fault .ub)

/-- Read the map of separating sets. -/
def readSepset : SProg Sepset := .read .sepset (fun v => match v with | .sep s => .ret s | _ => .fault .ub)

/-- `num_ci_test += k`, also `num_ci_test++` -/
def addTests (k : Nat) : SProg Unit := do
  let c ← readCount
  Thread.store .counter (.count (c + k))

/-- `sepset.insert(make_pair(make_pair(a, b), s))` -/
def insertSepset (a b : Nat) (s : List Nat) : SProg Unit := do
  let m ← readSepset
  Thread.store .sepset (.sep (m.insert a b s))

/-- PCStable.cpp 133-177: iteration `i` of level 0. -/
def level0Body (ci : CITest) (i : Nat) : SProg Unit := do
  let e ← readEdge i
  addTests 1
  let (ind, _) ← Thread.lift (ci e.x e.y [] 1)
  if ind then do
    Thread.store (.edge i) (.edge { e with needRemove := true })
    insertSepset e.x e.y []
  else return ()

/-- PCStable.cpp 412-460, the first half of `CheckEdge`: the edge with a generator, or what `CheckEdge` leaves without testing. -/
def prepareEdge (adj : List (List Nat)) (d : Nat) (e : WorkEdge) : Except Fault (WorkEdge × Bool) :=
  match e.process with
  | .no => do
    let a ← findAdjacencies adj e.x e.y
    if d ≤ a.length then do
      let gen ← choiceGenerator a.length d
      return ({ e with vecAdj := a, cg := some gen, process := .node1 }, true)
    else do
      let a ← findAdjacencies adj e.y e.x
      if d ≤ a.length then do
        let gen ← choiceGenerator a.length d
        return ({ e with vecAdj := a, cg := some gen, process := .node2 }, true)
      else return ({ e with vecAdj := a, needRemove := false }, false)
  | .enode1 => do
    let a ← findAdjacencies adj e.y e.x
    if d ≤ a.length then do
      let gen ← choiceGenerator a.length d
      return ({ e with vecAdj := a, cg := some gen, process := .node2 }, true)
    else return ({ e with vecAdj := a, needRemove := false }, false)
  | _ => return (e, true)

/-- PCStable.cpp 538-561: the number `i` of conditioning sets in the group. -/
def groupTests (d g : Nat) (e : WorkEdge) : Except Fault Nat :=
  match e.cg with
  | none => .error .ub
  | some gen => do
    let (choices, _) ← gen.nextN g
    let c0 ← rd choices 0
    if c0 ≠ [] then do
      let valid := choices.takeWhile (fun c => c ≠ [])
      let _ ← valid.mapM (fun c => pickSet e.vecAdj c d)
      return valid.length
    else return 0

/-- PCStable.cpp 541 and 561: nothing is counted if there is nothing to test. -/
def countTests (k : Nat) : SProg Unit := if k = 0 then return () else addTests k

/-- PCStable.cpp 571-583: a separating set is recorded under the ordered pair. -/
def recordSet (e : WorkEdge) (s : Option (List Nat)) : SProg Unit :=
  match s with
  | none => return ()
  | some s => if e.x > e.y then insertSepset e.y e.x s else insertSepset e.x e.y s

/-- PCStable.cpp 288-292 and 311-315 with 399-494 `CheckEdge` and 526-614 `Testing`: iteration `i`, for the edge at position `id`.  The group is
fetched, counted and tested. -/
def levelBody (ci : CITest) (adj : List (List Nat)) (d g : Nat) (id i : Nat) : SProg Unit := do
  let e ← readEdge id
  let (e1, test) ← Thread.lift (prepareEdge adj d e)
  if test then do
    let k ← Thread.lift (groupTests d g e1)
    countTests k
    let (e2, push, s) ← Thread.lift (checkTests ci d g e1)
    recordSet e s
    Thread.store (.edge id) (.edge e2)
    Thread.store (.push i) (.flag push)
  else do
    Thread.store (.edge id) (.edge e1)
    Thread.store (.push i) (.flag false)

/-- The memory before a loop: edges, separating sets, counter, and what has been stored in `need_to_push` (`cap` entries). -/
def skeletonMem (st : LevelState) (c : Nat) (cap : Nat) (flags : Nat → Option Bool) : SMem
  | .counter => some (some (.count c))
  | .sepset => some (some (.sep st.sep))
  | .edge i => (st.edges[i]?).map (fun e => some (.edge e))
  | .push i => if i < cap then some ((flags i).map SCell.flag) else none

/-- What the code after a loop reads. -/
def SMem.edge (m : SMem) (i : Nat) : Except Fault WorkEdge := do
  match ← m.get (.edge i) with
  | .edge e => .ok e
  | _ => .error .ub

/-- What the code after a loop reads. -/
def SMem.flag (m : SMem) (i : Nat) : Except Fault Bool := do
  match ← m.get (.push i) with
  | .flag b => .ok b
  | _ => .error .ub

/-- The state after a loop: edges, separating sets and counter. -/
def SMem.level (m : SMem) (n : Nat) : Except Fault (LevelState × Nat) := do
  let edges ← (List.range n).mapM m.edge
  let sep ← (do match ← m.get .sepset with
    | .sep s => .ok s
    | _ => .error .ub)
  let c ← (do match ← m.get .counter with
    | .count c => .ok c
    | _ => .error .ub)
  return (⟨edges, sep⟩, c)

/-- A parallel loop of `SearchAtDepth` over the edge positions `batch` with `p` threads; returns the positions to push back. -/
def levelBatchP (p : Nat) (ci : CITest) (adj : List (List Nat)) (d g cap : Nat) (st : LevelState) (c : Nat) (batch : List Nat) :
    Par (LevelState × Nat × List Nat) := do
  let m ← parFor p batch.length (fun i => do
    let id ← Thread.lift (rd batch i)
    levelBody ci adj d g id i) (skeletonMem st c cap (fun _ => none))
  let (st, c) ← Par.lift (SMem.level m st.edges.length)
  let flags ← Par.lift ((List.range batch.length).mapM (SMem.flag m))
  return (st, c, (batch.zip flags).filterMap (fun x => if x.2 then some x.1 else none))

/-- PCStable.cpp 280-322: the loops over the stack (as in `levelLoop`).  The second loop has no more threads than edges (line 311). -/
def levelLoopP (p : Nat) (ci : CITest) (adj : List (List Nat)) (d g cap : Nat) : Nat → LevelState → Nat → List Nat → Par (LevelState × Nat)
  | _, st, c, [] => Par.lift (.ok (st, c))
  | 0, _, _, _ :: _ => Par.lift (.error .ub)
  | fuel + 1, st, c, id :: stack => do
    let batch := (id :: stack).take cap
    let threads := if cap ≤ (id :: stack).length then p else min p batch.length
    let (st, c, pushed) ← levelBatchP threads ci adj d g cap st c batch
    levelLoopP p ci adj d g cap fuel st c (pushed ++ (id :: stack).drop cap)

/-- PCStable.cpp 265-388 `SearchAtDepth` with `num_threads`. -/
def searchAtDepthP (p : Nat) (ci : CITest) (d g cap fuel : Nat) (k : Skeleton) (c : Nat) : Par (Skeleton × Nat × Bool) := do
  let edges := k.edges.map (fun e => { e with process := .no })
  let (st, c) ← levelLoopP p ci k.adj d g cap fuel ⟨edges, k.sep⟩ c (List.range edges.length)
  let (edges, adj) ← Par.lift (removeMarked st.edges k.adj)
  return (⟨edges, adj, st.sep⟩, c, decide (freeDegree adj > d))

/-- PCStable.cpp 92 and 112-195: the complete graph and level 0 with `num_threads`. -/
def level0P (p : Nat) (ci : CITest) (n : Nat) : Par (Skeleton × Nat) := do
  let slots ← Par.lift (completeGraphEdges n)
  let edges ← Par.lift (slots.mapM (fun s => match s with
    | some e => .ok { x := e.node1, y := e.node2 : WorkEdge }
    | none => .error .ub))
  let m ← parFor p edges.length (level0Body ci) (skeletonMem ⟨edges, fun _ _ => none⟩ 0 0 (fun _ => none))
  let (st, c) ← Par.lift (SMem.level m edges.length)
  let (edges, adj) ← Par.lift (removeMarked st.edges (fullAdjacency n))
  return (⟨edges, adj, st.sep⟩, c)

/-- PCStable.cpp 209-231: levels `d, d+1, …`, `count` of them, until a level says to stop. -/
def levelsP (p : Nat) (ci : CITest) (g cap fuel : Nat) : Nat → Nat → Skeleton → Nat → Par (Skeleton × Nat)
  | _, 0, k, c => Par.lift (.ok (k, c))
  | d, count + 1, k, c => do
    let (k, c, more) ← searchAtDepthP p ci d g cap fuel k c
    if more then levelsP p ci g cap fuel (d + 1) count k c else return (k, c)

/-- PCStable.cpp 84-231: the skeleton phase with `num_threads = p`: the skeleton and the reported number of tests. -/
def learnSkeletonP (p : Nat) (ci : CITest) (n depth g cap fuel : Nat) : Par (Skeleton × Nat) := do
  let (k, c) ← level0P p ci n
  levelsP p ci g cap fuel 1 (depth - 1) k c

end FastPGM
