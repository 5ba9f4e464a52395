import Verif.Model.JunctionTreeRun

/-!
Model of the other implementations of the message passing: the messages between two neighbours (`Clique::UpdateMessage`,
`Separator::UpdateMessage`), the recursive algorithm (`Collect2`, `Distribute2`), the algorithm by levels (`Collect3`, `Distribute3`) and
the level operations without the assumption on the layout (`SeparatorLevelCollection`, `CliqueLevelDistribution`).  They are the
alternatives named in `MessagePassingUpdateJT` (JunctionTree.cpp 457-493), `Collect` and `Distribute`, where their calls are commented out.

Not modelled: the data races of `Collect2` with several threads; the tasks of the children of one clique run one after the other here.
-/

namespace FastPGM

variable {K : Type}

/-- The `p_table` of a clique or separator. -/
def JState.table (st : JState K) : JNode → Except Fault (Table K)
  | .clq i => rd st.clq i
  | .sep s => rd st.sep s

/-- Assignment to the `p_table` of a clique or separator. -/
def JState.setTable (st : JState K) (x : JNode) (T : Table K) : Except Fault (JState K) :=
  match x with
  | .clq i => do
    let clq ← wr st.clq i T
    return { st with clq := clq }
  | .sep s => do
    let sep ← wr st.sep s T
    return { st with sep := sep }

/-- Clique.cpp 126-132 `Clique::UpdateMessage`: the new table of a clique with table `T` that receives `pt`. -/
def cliqueMessage [Field K] [DecidableEq K] (T pt : Table K) : Except Fault (Table K) := do
  let T ← tableMultiplication T pt
  normalize T

/-- Separator.cpp 14-31 `Separator::UpdateMessage`: the new table of a separator with table `old` that receives `pt`. -/
def separatorMessage [Field K] [DecidableEq K] (old pt : Table K) : Except Fault (Table K) := do
  let tmp ← (if pt.vars.length ≠ old.vars.length then tableMarginalization pt old.vars old.dims else .ok pt)
  let tmp ← (if old.vars ≠ pt.vars then tableReorganization tmp old else .ok tmp)
  tableDivision tmp old

/-- `x->UpdateMessage(pt)`, a virtual call (Clique.h, Separator.h). -/
def updateMessage [Field K] [DecidableEq K] (st : JState K) (x : JNode) (pt : Table K) : Except Fault (JState K) := do
  let T ← st.table x
  let T ← (match x with
    | .clq _ => cliqueMessage T pt
    | .sep _ => separatorMessage T pt)
  st.setTable x T

/-- `x->UpdateMessage(y->p_table)`. -/
def passMessage [Field K] [DecidableEq K] (st : JState K) (xy : JNode × JNode) : Except Fault (JState K) := do
  let pt ← st.table xy.2
  updateMessage st xy.1 pt

/-- A sequence of messages `(receiver, sender)`, one after the other. -/
def passMessages [Field K] [DecidableEq K] (l : List (JNode × JNode)) (st : JState K) : Except Fault (JState K) :=
  l.foldlM passMessage st

/-- Clique.cpp 64-74 `Collect3`. -/
def collect3 [Field K] [DecidableEq K] (L : Levels) (st : JState K) : Except Fault (JState K) :=
  (List.range (L.nodes.length - 1)).reverse.foldlM (fun st i => do
    let level ← rd L.nodes i
    level.foldlM (fun st x => (L.marks.down x).foldlM (fun st y => passMessage st (x, y)) st) st) st

/-- Clique.cpp 110-120 `Distribute3`. -/
def distribute3 [Field K] [DecidableEq K] (L : Levels) (st : JState K) : Except Fault (JState K) :=
  (List.range (L.nodes.length - 1)).foldlM (fun st k => do
    let level ← rd L.nodes (k + 1)
    level.foldlM (fun st x => do
      let y ← L.marks.upOf x
      passMessage st (x, y)) st) st

/-- Clique.cpp 38-53 `Collect2`, called on `x`; `kids x` are the downstream cliques in the order in which their tasks run.  The first
argument bounds the depth of the recursion. -/
def collect2 [Field K] [DecidableEq K] (kids : JNode → List JNode) : Nat → JNode → JState K → Except Fault (JState K)
  | 0, _, _ => .error .ub
  | n + 1, x, st => (kids x).foldlM (fun st y => do
      let st ← collect2 kids n y st
      passMessage st (x, y)) st

/-- Clique.cpp 83-99 `Distribute2`, called on `x` after its own update; `kids x` are the downstream cliques in the order in which their
tasks run, and a task runs when it is created.  The first argument bounds the depth of the recursion. -/
def distribute2 [Field K] [DecidableEq K] (kids : JNode → List JNode) : Nat → JNode → JState K → Except Fault (JState K)
  | 0, _, _ => .error .ub
  | n + 1, x, st => (kids x).foldlM (fun st y => do
      let st ← passMessage st (y, x)
      distribute2 kids n y st) st

/-- JunctionTree.cpp 504-620 `SeparatorLevelCollection`, one separator: as `SeparatorLevelDistribution`, with the child clique. -/
def separatorCollectPlain [Field K] [DecidableEq K] (m : Marks) (st : JState K) (x : JNode) : Except Fault (JState K) := do
  let s ← x.sepIdx
  let y ← rd (m.down x) 0
  let i ← y.clqIdx
  let S ← rd st.sep s
  let T ← rd st.clq i
  let loc := S.vars.map (getVariableIndex T.vars)
  let tableIndex ← (List.range T.size).mapM (transferIndex T.cum loc S.cum)
  let tmp ← scatterAdd (List.replicate S.size 0) tableIndex T.pot T.size
  let pot ← divideEntries S.size tmp S.pot
  let sep ← wr st.sep s { S with pot := pot }
  return { st with sep := sep }

/-- JunctionTree.cpp 865-976 `CliqueLevelDistribution`, one clique: as `CliqueLevelCollection`, with the upstream separator. -/
def cliqueDistributePlain [Mul K] (m : Marks) (st : JState K) (x : JNode) : Except Fault (JState K) := do
  let i ← x.clqIdx
  let y ← m.upOf x
  let s ← y.sepIdx
  let T ← rd st.clq i
  let S ← rd st.sep s
  let loc := S.vars.map (getVariableIndex T.vars)
  let tableIndex ← (List.range T.size).mapM (transferIndex T.cum loc S.cum)
  let ext ← tableIndex.mapM (rd S.pot)
  let pot ← mulEntries T.size T.pot ext
  let clq ← wr st.clq i { T with pot := pot }
  return { st with clq := clq }

/-- JunctionTree.cpp 1162-1228 `Collect` with the commented call at 1172 in place of the one at 1173. -/
def collectPlain [Field K] [DecidableEq K] (L : Levels) (st : JState K) : Except Fault (JState K) :=
  (List.range (L.nodes.length - 1)).reverse.foldlM (fun st i => do
    if i % 2 = 1 then
      let level ← rd L.seps (i / 2)
      level.foldlM (separatorCollectPlain L.marks) st
    else
      let level ← rd L.nodes i
      cliqueLevelCollect L.marks level st) st

/-- JunctionTree.cpp 1230-1255 `Distribute` with the commented call at 1250 in place of the one at 1251. -/
def distributePlain [Field K] [DecidableEq K] (L : Levels) (st : JState K) : Except Fault (JState K) :=
  (List.range (L.nodes.length - 1)).foldlM (fun st k => do
    let i := k + 1
    if i % 2 = 1 then
      let level ← rd L.seps (i / 2)
      level.foldlM (separatorDistribute L.marks) st
    else
      let level ← rd L.nodes i
      let st ← level.foldlM (cliqueDistributePlain L.marks) st
      level.foldlM normalizeClique st) st

/-- JunctionTree.cpp 1399-1413 with `up` and `down` for the two phases in `MessagePassingUpdateJT` (457-493). -/
def propagateWith [Field K] [DecidableEq K] (up down : JState K → Except Fault (JState K)) (n : Nat) (E : List (Nat × Nat)) (st : JState K) :
    Except Fault (JState K) := do
  let st ← loadEvidence n E st
  let clq ← st.clq.mapM normalize
  let st ← up ⟨clq, st.sep⟩
  down st

/-- `jt_root` (in the commented calls `arb_root`), on which `Collect2` and `Distribute2` are called: `MarkLevel` puts it alone on the
first level (JunctionTree.cpp 59-62). -/
def JTree.jtRoot (J : JTree K) : JNode := (J.levels.nodes.getD 0 []).headD (.clq 0)

end FastPGM
