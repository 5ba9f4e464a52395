import Verif.Model.Fault
import Verif.Model.StdSet
import Mathlib.Algebra.Order.Field.Basic

/-!
Model of `PotentialTableBase` (src/fastpgm/PotentialTableBase.cpp, include/fastpgm/PotentialTableBase.h).
`double` is an arbitrary field `K`.  Indices are `Nat` (32-bit overflow is not modelled).
-/

namespace FastPGM

variable {K : Type}

/-- include/fastpgm/PotentialTableBase.h: the fields of `PotentialTableBase` used by exact inference and parameter learning.
`num_variables` is not kept separately: in the code it is always `vec_related_variables.size()`.
`potentialsICPT` and `pt_scores` are in `Model/SamplingTable.lean`. -/
structure Table (K : Type) where
  /-- `vec_related_variables` -/
  vars : List Nat
  /-- `var_dims` -/
  dims : List Nat
  /-- `cum_levels` -/
  cum : List Nat
  /-- `table_size` -/
  size : Nat
  /-- `potentials` -/
  pot : List K
  deriving DecidableEq, Repr

/-- PotentialTableBase.cpp 1231-1239, the loop: the last entry is 1, entry `i` is entry `i+1` times `var_dims[i+1]`. -/
def cumLevels : List Nat → List Nat
  | [] => []
  | [_] => [1]
  | _ :: d :: ds =>
    match cumLevels (d :: ds) with
    | c :: cs => c * d :: c :: cs
    | [] => []

/-- PotentialTableBase.cpp 1231-1239 `ConstructCumLevels`.  With no variable, line 1234 writes `cum_levels[-1]`. -/
def constructCumLevels (dims : List Nat) : Except Fault (List Nat) :=
  if dims = [] then .error .ub else .ok (cumLevels dims)

/-- PotentialTableBase.cpp 1225, 562, 848: `table_size = cum_levels[0] * var_dims[0]`. -/
def firstProduct (cum dims : List Nat) : Except Fault Nat := do
  let c ← rd cum 0
  let d ← rd dims 0
  return c * d

/-- PotentialTableBase.cpp 1151-1159 and 1179-1187 `GetConfigValueByTableIndex`: repeated division by `cum_levels[i]`
(an integer division by zero is undefined). -/
def getConfig : List Nat → Nat → Except Fault (List Nat)
  | [], _ => .ok []
  | c :: cs, a =>
    if c = 0 then .error .ub
    else do
      let rest ← getConfig cs (a % c)
      return a / c :: rest

/-- PotentialTableBase.cpp 1164-1170 and 1192-1198 `GetTableIndexByConfigValue`: sum of `config_value[i] * cum_levels[i]`
(both arrays have `num_variables` entries). -/
def getIndex (config cum : List Nat) : Nat :=
  (List.zipWith (· * ·) config cum).sum

/-- PotentialTableBase.cpp 1204-1210 `GetRelativeIndexByConfigValue`: the same without the first variable. -/
def getRelativeIndex (config cum : List Nat) : Nat :=
  getIndex config cum.tail

/-- PotentialTableBase.cpp 1135-1142 `GetVariableIndex`: first position of the variable, `num_variables` if absent. -/
def getVariableIndex (vars : List Nat) (v : Nat) : Nat :=
  vars.idxOf v

/-- PotentialTableBase.cpp 538-544, 612-618, 689-695, 824-830 and 577-583: table index in a table with `cumTo` of the configuration
whose entries are picked at positions `loc` from the configuration of index `i` in a table with `cumFrom`. -/
def transferIndex (cumFrom : List Nat) (loc : List Nat) (cumTo : List Nat) (i : Nat) : Except Fault Nat := do
  let full ← getConfig cumFrom i
  let part ← loc.mapM (rd full)
  return getIndex part cumTo

/-- PotentialTableBase.cpp 586-591 `TableMarginalizationPost`, 733-738: `potentials[table_index[k]] += pt.potentials[k]`. -/
def scatterAdd [Add K] (acc : List K) (tableIndex : List Nat) (src : List K) (n : Nat) : Except Fault (List K) :=
  (List.range n).foldlM (fun p k => do
    let t ← rd tableIndex k
    let q ← rd src k
    let o ← rd p t
    wr p t (o + q)) acc

/-- PotentialTableBase.cpp 254-259 `TableReorganizationPost`: `potentials[table_index[k]] = pt.potentials[k]`. -/
def scatterSet (acc : List K) (tableIndex : List Nat) (src : List K) (n : Nat) : Except Fault (List K) :=
  (List.range n).foldlM (fun p k => do
    let t ← rd tableIndex k
    let q ← rd src k
    wr p t q) acc

/-- Shape (`cum_levels`, `table_size`) of a table with the given dimensions, allowing no variable:
PotentialTableBase.cpp 560-566, 631-661, 710-728. -/
def shapeOf (dims : List Nat) : Except Fault (List Nat × Nat) :=
  if dims = [] then .ok ([], 1)
  else do
    let cum ← constructCumLevels dims
    let size ← firstProduct cum dims
    return (cum, size)

/-- PotentialTableBase.cpp 519-552 `TableMarginalization(vars, dims)` (with 554-569 `TableMarginalizationPre`). -/
def tableMarginalization [Zero K] [Add K] (T : Table K) (vs dims : List Nat) : Except Fault (Table K) := do
  let (cum, size) ← shapeOf dims
  let loc := vs.map (getVariableIndex T.vars)
  let tableIndex ← (List.range T.size).mapM (transferIndex T.cum loc cum)
  let pot ← scatterAdd (List.replicate size 0) tableIndex T.pot T.size
  return ⟨vs, dims, cum, size, pot⟩

/-- PotentialTableBase.cpp 628-664 `TableMarginalizationPre(ext_variable, new_table)`: variables and dimensions of the table
without `ext`.  With more than one variable the `while` of 640 runs past the end when `ext` is absent; with no variable
`resize(-1)` throws `std::length_error`. -/
def withoutVariable (T : Table K) (ext : Nat) : Except Fault (List Nat × List Nat) :=
  if T.vars.length = 0 then .error .throw
  else if T.vars.length = 1 then .ok ([], [])
  else if ext ∈ T.vars then
    .ok (T.vars.erase ext,
      ((List.zip T.vars T.dims).filter (fun vd => vd.1 ≠ ext)).map Prod.snd)
  else .error .ub

/-- PotentialTableBase.cpp 593-626 `TableMarginalization(ext_variable)`. -/
def tableMarginalizationExt [Zero K] [Add K] (T : Table K) (ext : Nat) : Except Fault (Table K) := do
  let (vs, dims) ← withoutVariable T ext
  let (cum, size) ← shapeOf dims
  let loc := vs.map (getVariableIndex T.vars)
  let tableIndex ← (List.range T.size).mapM (transferIndex T.cum loc cum)
  let pot ← scatterAdd (List.replicate size 0) tableIndex T.pot T.size
  return ⟨vs, dims, cum, size, pot⟩

/-- PotentialTableBase.cpp 705-731 `TableMarginalizationOneVariablePre`: the loop of 720-725 writes past the end of the new vectors
when `ext` is absent (and the table has more than one variable). -/
def withoutVariableOne (T : Table K) (ext : Nat) : Except Fault (List Nat × List Nat) :=
  if T.vars.length = 0 then .error .throw
  else if T.vars.length = 1 then .ok ([], [])
  else
    let kept := (List.zip T.vars T.dims).filter (fun vd => vd.1 ≠ ext)
    if kept.length + 1 = T.vars.length then .ok (kept.map Prod.fst, kept.map Prod.snd) else .error .ub

/-- PotentialTableBase.cpp 670-703 `TableMarginalizationOneVariable`. -/
def tableMarginalizationOneVariable [Zero K] [Add K] (T : Table K) (ext : Nat) : Except Fault (Table K) := do
  let (vs, dims) ← withoutVariableOne T ext
  let (cum, size) ← shapeOf dims
  let loc := vs.map (getVariableIndex T.vars)
  let tableIndex ← (List.range T.size).mapM (transferIndex T.cum loc cum)
  let pot ← scatterAdd (List.replicate size 0) tableIndex T.pot T.size
  return ⟨vs, dims, cum, size, pot⟩

/-- PotentialTableBase.cpp 769-796 `TableMarginalizationSimplified`: keep only the first variable. -/
def tableMarginalizationSimplified [Zero K] [Add K] (T : Table K) : Except Fault (Table K) :=
  if T.vars.length = 1 then .ok T
  else do
    let d ← rd T.dims 0
    let v ← rd T.vars 0
    if d = 0 then .error .ub
    else
      let dp := T.size / d
      let pot ← (List.range T.size).foldlM (fun p i => do
        if dp = 0 then .error .ub
        else
          let q ← rd T.pot i
          let o ← rd p (i / dp)
          wr p (i / dp) (o + q)) (List.replicate d 0)
      return ⟨[v], [d], [1], d, pot⟩

/-- PotentialTableBase.cpp 313-318 `TableReductionMain`: value of the variable at position `loc` in the configuration of index `i`. -/
def tableReductionMain (cum : List Nat) (loc : Nat) (i : Nat) : Except Fault Nat := do
  let full ← getConfig cum i
  rd full loc

/-- PotentialTableBase.cpp 324-329: copy the consistent entries, in order, to the front of `new_potentials`. -/
def reductionCopy (valueIndex : List Nat) (value : Nat) (src : List K) (n : Nat) (acc : List K) : Except Fault (List K × Nat) :=
  (List.range n).foldlM (fun (pj : List K × Nat) i => do
    let v ← rd valueIndex i
    if v = value then
      let q ← rd src i
      let p ← wr pj.1 pj.2 q
      return (p, pj.2 + 1)
    else return pj) (acc, 0)

/-- PotentialTableBase.cpp 275-362 `TableReduction` with `TableReductionPre`, `...Main`, `...Post`. -/
def tableReduction [Zero K] (T : Table K) (eIndex eValue : Nat) : Except Fault (Table K) := do
  let loc := getVariableIndex T.vars eIndex
  let valueIndex ← (List.range T.size).mapM (tableReductionMain T.cum loc)
  let dim ← rd T.dims loc
  if dim = 0 then .error .ub
  else
    let newSize := T.size / dim
    let (pot, _) ← reductionCopy valueIndex eValue T.pot T.size (List.replicate newSize 0)
    if T.vars.length - 1 > 0 then
      let cum ← constructCumLevels (T.dims.eraseIdx loc)
      return ⟨T.vars.eraseIdx loc, T.dims.eraseIdx loc, cum, newSize, pot⟩
    else
      return ⟨[], [], [], 1, pot⟩

/-- PotentialTableBase.cpp 803-850, 864-869 `TableExtension`. -/
def tableExtension (T : Table K) (vs dims : List Nat) : Except Fault (Table K) := do
  let cum ← constructCumLevels dims
  let size ← firstProduct cum dims
  let loc := T.vars.map (getVariableIndex vs)
  let tableIndex ← (List.range size).mapM (transferIndex cum loc T.cum)
  let pot ← tableIndex.mapM (rd T.pot)
  return ⟨vs, dims, cum, size, pot⟩

/-- PotentialTableBase.cpp 165-196 `TableReorganization` (with 243-259).  The arrays `locations` and `table_index` have the sizes of
`this`, so a reference table with more variables or more entries overruns them. -/
def tableReorganization (T ref : Table K) : Except Fault (Table K) :=
  if T.vars.length < ref.vars.length ∨ T.size < ref.size then .error .ub
  else do
    let loc := ref.vars.map (getVariableIndex T.vars)
    let tableIndex ← (List.range ref.size).mapM (transferIndex T.cum loc ref.cum)
    let pot ← scatterSet ref.pot tableIndex T.pot ref.size
    return { ref with pot := pot }

/-- PotentialTableBase.cpp 210-231, the scan of `TableReorganizationPre`: positions of the variables that are kept in front and of the
common variables.  `i` is the current position.  A common variable that is not found makes the scan read past the end (213) or the
final loop write past the end (234-238). -/
def reorgScan : Nat → List Nat → List Nat → Except Fault (List Nat × List Nat)
  | _, [], [] => .ok ([], [])
  | i, _ :: vs, [] => do
    let (k, c) ← reorgScan (i + 1) vs []
    return (i :: k, c)
  | _, [], _ :: _ => .error .ub
  | i, v :: vs, c :: cs =>
    if v = c then do
      let (k, m) ← reorgScan (i + 1) vs cs
      return (k, i :: m)
    else do
      let (k, m) ← reorgScan (i + 1) vs (c :: cs)
      return (i :: k, m)

/-- PotentialTableBase.cpp 198-241 `TableReorganizationPre`: the new table (potentials still zero) and `locations`. -/
def tableReorganizationPre [Zero K] (T : Table K) (common : List Nat) : Except Fault (Table K × List Nat) := do
  let (kept, tmp) ← reorgScan 0 T.vars common
  let loc := kept ++ tmp
  let keptVars ← kept.mapM (rd T.vars)
  let dims ← loc.mapM (rd T.dims)
  let cum ← constructCumLevels dims
  return (⟨keptVars ++ common, dims, cum, T.size, List.replicate T.size 0⟩, loc)

/-- JunctionTree.cpp 157-205 `ReorganizeTableStorage`, for one clique and the variables of its upstream separator:
`TableReorganizationPre`, then `TableReorganizationMain` for every entry, then `TableReorganizationPost`. -/
def tableMoveToEnd [Zero K] (T : Table K) (common : List Nat) : Except Fault (Table K) := do
  let (new, loc) ← tableReorganizationPre T common
  let tableIndex ← (List.range new.size).mapM (transferIndex T.cum loc new.cum)
  let pot ← scatterSet new.pot tableIndex T.pot new.size
  return { new with pot := pot }

/-- PotentialTableBase.cpp 902-904, 959-961, 1010-1012: entrywise product over `n` entries. -/
def mulEntries [Mul K] (n : Nat) (p q : List K) : Except Fault (List K) :=
  (List.range n).foldlM (fun p i => do
    let a ← rd p i
    let b ← rd q i
    wr p i (a * b)) p

/-- PotentialTableBase.cpp 884-905 `TableMultiplication`. -/
def tableMultiplication [Mul K] (T S : Table K) : Except Fault (Table K) := do
  let tmp ← (if T.vars.length > S.vars.length then tableExtension S T.vars T.dims else .ok S)
  let tmp ← (if T.vars ≠ tmp.vars then tableReorganization tmp T else .ok tmp)
  let pot ← mulEntries T.size T.pot tmp.pot
  return { T with pot := pot }

/-- PotentialTableBase.cpp 912-962 `TableMultiplicationTwoExtension`, returning the new `this` and the new `second_table`.
There is no `return` after the assignment of line 914. -/
def tableMultiplicationTwoExtension [Mul K] (T S : Table K) : Except Fault (Table K × Table K) := do
  let T := if T.vars = [] then S else T
  if S.vars = [] then return (T, S)
  else
    let all := sortedSet (T.vars ++ S.vars)
    let d1 := all.length - T.vars.length
    let d2 := all.length - S.vars.length
    let (T', S') ←
      (if d1 = 0 ∧ d2 = 0 then Except.ok (T, S)
      else if d1 > 0 ∧ d2 = 0 then (do
        let T' ← tableExtension T S.vars S.dims
        return (T', S))
      else if d1 = 0 ∧ d2 > 0 then (do
        let S' ← tableExtension S T.vars T.dims
        return (T, S'))
      else (do
        let dims ← all.mapM (fun v =>
          let loc := getVariableIndex T.vars v
          if loc < T.vars.length then rd T.dims loc else rd S.dims (getVariableIndex S.vars v))
        let T' ← tableExtension T all dims
        let S' ← tableExtension S all dims
        return (T', S')))
    let pot ← mulEntries T'.size T'.pot S'.pot
    return ({ T' with pot := pot }, S')

/-- PotentialTableBase.cpp 969-1014 `TableMultiplicationOneVariable` (again no `return` after line 971). -/
def tableMultiplicationOneVariable [Mul K] (T S : Table K) : Except Fault (Table K) := do
  let T := if T.vars = [] then S else T
  if S.vars = [] then return T
  else
    let v ← rd S.vars 0
    if T.vars.length > 1 then
      let loc := getVariableIndex T.vars v
      let pot ← (List.range T.size).foldlM (fun p i => do
        let full ← getConfig T.cum i
        let x ← rd full loc
        let q ← rd S.pot x
        let o ← rd p i
        wr p i (o * q)) T.pot
      return { T with pot := pot }
    else
      let pot ← mulEntries T.size T.pot S.pot
      return { T with pot := pot }

/-- PotentialTableBase.cpp 1020-1035 `TableDivision`: entrywise, `x / 0 := 0`. -/
def tableDivision [Div K] [Zero K] [DecidableEq K] (T S : Table K) : Except Fault (Table K) := do
  let pot ← (List.range T.size).foldlM (fun p i => do
    let b ← rd S.pot i
    if b = 0 then wr p i 0
    else
      let a ← rd p i
      wr p i (a / b)) T.pot
  return { T with pot := pot }

/-- PotentialTableBase.cpp 1040-1043: the sum of the first `n` entries, accumulated from the left. -/
def sumEntries [Zero K] [Add K] (n : Nat) (p : List K) : Except Fault K :=
  (List.range n).foldlM (fun s i => do
    let a ← rd p i
    return s + a) 0

/-- PotentialTableBase.cpp 1037-1049 `Normalize`.  A zero denominator gives NaN entries. -/
def normalize [Div K] [Zero K] [Add K] [DecidableEq K] (T : Table K) : Except Fault (Table K) := do
  let den ← sumEntries T.size T.pot
  let pot ← (List.range T.size).foldlM (fun p i => do
    if den = 0 then .error .nan
    else
      let a ← rd p i
      wr p i (a / den)) T.pot
  return { T with pot := pot }

/-- PotentialTableBase.cpp 1057-1075 `NormalizeCPT`: for each of the `cum_levels[0]` columns. -/
def normalizeCPT [Div K] [Zero K] [Add K] [LT K] [DecidableLT K] (T : Table K) : Except Fault (Table K) := do
  let pDim ← rd T.cum 0
  let nDim ← rd T.dims 0
  let pot ← (List.range pDim).foldlM (fun p i => do
    let den ← (List.range nDim).foldlM (fun s j => do
      let a ← rd p (i + j * pDim)
      return s + a) 0
    if 0 < den then
      (List.range nDim).foldlM (fun p j => do
        let a ← rd p (i + j * pDim)
        wr p (i + j * pDim) (a / den)) p
    else return p) T.pot
  return { T with pot := pot }

/-- PotentialTableBase.cpp 76-96: the table of an evidence node, 1 at the observed value and 0 elsewhere. -/
def evidenceTable [Zero K] [One K] (nodeIndex nodeDim observed : Nat) : Table K :=
  ⟨[nodeIndex], [nodeDim], [1], nodeDim, (List.range nodeDim).map (fun i => if i = observed then 1 else 0)⟩

/-- PotentialTableBase.cpp 137-151 `ConstructEmptyPotentialTable`: all entries 1, variables in increasing order.  `card` gives the
domain size of a node (1216-1226 `ConstructVarDimsAndCumLevels`). -/
def constructEmptyTable [One K] (card : Nat → Nat) (nodes : List Nat) : Except Fault (Table K) := do
  let dims := nodes.map card
  let cum ← constructCumLevels dims
  let size ← firstProduct cum dims
  return ⟨nodes, dims, cum, size, List.replicate size 1⟩

/-- PotentialTableBase.cpp 378-424 `GetReducedPotentials`: the column of the table selected by the parents' values in `evidence`
(indexed by variable). -/
def getReducedPotentials (T : Table K) (result : List K) (evidence : List Nat) : Except Fault (List K) :=
  if T.vars.length = 1 then .ok T.pot
  else do
    let dp ← rd T.cum 0
    let par ← T.vars.tail.mapM (rd evidence)
    let lp := getRelativeIndex par T.cum
    let d ← rd T.dims 0
    (List.range (max d 1)).foldlM (fun r i => do
      let q ← rd T.pot (lp + i * dp)
      wr r i q) result

/-- PotentialTableBase.cpp 476-493 `GetReducedPotential`. -/
def getReducedPotential (T : Table K) (evidence : List Nat) : Except Fault K :=
  if T.vars.length = 1 then do
    let v ← rd T.vars 0
    let x ← rd evidence v
    rd T.pot x
  else do
    let config ← T.vars.mapM (rd evidence)
    rd T.pot (getIndex config T.cum)

end FastPGM
