import Verif.Model.Fault
import Mathlib.Algebra.Order.Field.Basic

/-!
Model of the inference helpers: `Inference.cpp` (evidence extraction, accuracy, arg max) and the flattened index of
`JunctionTree.h`.
-/

namespace FastPGM

/-- JunctionTree.cpp 886-915, 988-1012, 1085-1107 and the like: `cum_sum[j] = final_sum; final_sum += table_size`,
over the tables of one level; returns `cum_sum` and `final_sum`. -/
def prefixSums (sizes : List Nat) : List Nat × Nat :=
  sizes.foldl (fun (c : List Nat × Nat) s => (c.1 ++ [c.2], c.2 + s)) ([], 0)

/-- JunctionTree.h 73-78: the search for the table, from `m - 1` downwards; `none` when `j` stays uninitialised. -/
def findTable (cumSum : List Nat) (s : Nat) : Nat → Except Fault (Option Nat)
  | 0 => .ok none
  | m + 1 => do
    let c ← rd cumSum m
    if c ≤ s then return some m else findTable cumSum s m

/-- JunctionTree.h 72-80 `Compute2DIndex`.  Reading `cum_sum[j]` with `j` uninitialised is undefined. -/
def compute2DIndex (s size : Nat) (cumSum : List Nat) : Except Fault (Nat × Nat) := do
  match ← findTable cumSum s size with
  | none => .error .ub
  | some j =>
    let c ← rd cumSum j
    return (j, s - c)

/-- JunctionTree.cpp 509-520, 643-653, 920-926, 1015-1021, 1109-1115: the flattened parallel loop
`for s: Compute2DIndex(j, k, s, ...); cells[j][k] = f(j, k)`, the iterations being executed in the order `schedule`. -/
def flatLoop {α : Type} (f : Nat → Nat → α) (sizes schedule : List Nat) (cells : List (List α)) : Except Fault (List (List α)) :=
  schedule.foldlM (fun cells s => do
    let (j, k) ← compute2DIndex s sizes.length (prefixSums sizes).1
    let row ← rd cells j
    let row' ← wr row k (f j k)
    wr cells j row') cells

/-- Inference.cpp 93-103 `ArgMax`.  `max_index` is uninitialised when no entry is positive. -/
def argMax {K : Type} [Zero K] [LT K] [DecidableLT K] (array : List K) : Except Fault Nat := do
  let (_, idx) ← (List.range array.length).foldlM (fun (st : K × Option Nat) i => do
    let a ← rd array i
    if st.1 < a then return (a, some i) else return st) (0, none)
  match idx with
  | some i => return i
  | none => .error .ub

/-- Inference.cpp 73-88 `Accuracy`.  With no instance, line 86 computes `0 / 0.0`. -/
def accuracy {K : Type} [NatCast K] [Div K] (truths predictions : List Nat) : Except Fault K := do
  let (correct, wrong) ← (List.range truths.length).foldlM (fun (st : Nat × Nat) i => do
    let g ← rdAt truths i
    let p ← rdAt predictions i
    if g = p then return (st.1 + 1, st.2) else return (st.1, st.2 + 1)) (0, 0)
  if correct + wrong = 0 then .error .nan
  else return (correct : K) / ((correct + wrong : Nat) : K)

/-- common.h 22 `DiscreteConfig = set<pair<int, int>>`, as a list sorted lexicographically: `insert`. -/
def configInsert (p : Nat × Nat) : List (Nat × Nat) → List (Nat × Nat)
  | [] => [p]
  | q :: qs =>
    if p.1 < q.1 ∨ (p.1 = q.1 ∧ p.2 < q.2) then p :: q :: qs
    else if p = q then q :: qs
    else q :: configInsert p qs

/-- Inference.cpp 25-42: evidence and ground truth of one instance, given as its list of (variable, value) pairs.
The loop compares the *position* `j` with `query_index`. -/
def instanceEvidence (queryIndex : Nat) (instance_ : List (Nat × Nat)) : Except Fault (List (Nat × Nat) × Nat) := do
  let e ← (List.range instance_.length).foldlM (fun e j => do
    if j = queryIndex then return e
    else
      let p ← rdAt instance_ j
      return configInsert p e) []
  let g ← rdAt instance_ queryIndex
  return (e, g.2)

/-- Inference.cpp 15-47, the constructor: evidences and ground truths (kept in classification mode only) of all instances. -/
def inferenceInit (mode queryIndex : Nat) (dataset : List (List (Nat × Nat))) :
    Except Fault (List (List (Nat × Nat)) × List Nat) :=
  dataset.foldlM (fun acc inst => do
    let (e, g) ← instanceEvidence queryIndex inst
    return (acc.1 ++ [e], if mode = 1 then acc.2 ++ [g] else acc.2)) ([], [])

end FastPGM
