import Verif.Model.Table
import Verif.Model.CellTable

/-!
The index arithmetic of the potential tables, of the level loops of the junction tree and of the contingency tables, carried out in
`int` (32 bits, as on the platforms the project supports).  All values are non-negative, so the only limit is the upper one;
exceeding it is undefined behaviour.  Everything else is as in `Model/Table.lean` and `Model/CellTable.lean`, where the same functions
are modelled with unbounded numbers.
-/

namespace FastPGM

variable {K : Type}

/-- `INT_MAX` -/
def intMax : Nat := 2147483647

/-- `a * b` for non-negative `int`s -/
def mul32 (a b : Nat) : Except Fault Nat := if a * b ≤ intMax then .ok (a * b) else .error .ub

/-- `a + b` for non-negative `int`s -/
def add32 (a b : Nat) : Except Fault Nat := if a + b ≤ intMax then .ok (a + b) else .error .ub

/-- PotentialTableBase.cpp 1231-1239, the loop of `ConstructCumLevels`. -/
def cumLevels32 : List Nat → Except Fault (List Nat)
  | [] => .ok []
  | [_] => .ok [1]
  | _ :: d :: ds => do
    match ← cumLevels32 (d :: ds) with
    | c :: cs =>
      let e ← mul32 c d
      return e :: c :: cs
    | [] => return []

/-- PotentialTableBase.cpp 1231-1239 `ConstructCumLevels`.  With no variable, line 1234 writes `cum_levels[-1]`. -/
def constructCumLevels32 (dims : List Nat) : Except Fault (List Nat) :=
  if dims = [] then .error .ub else cumLevels32 dims

/-- PotentialTableBase.cpp 1225, 562, 848: `table_size = cum_levels[0] * var_dims[0]`. -/
def firstProduct32 (cum dims : List Nat) : Except Fault Nat := do
  let c ← rd cum 0
  let d ← rd dims 0
  mul32 c d

/-- PotentialTableBase.cpp 560-566: `cum_levels` and `table_size`, allowing no variable. -/
def shape32 (dims : List Nat) : Except Fault (List Nat × Nat) :=
  if dims = [] then .ok ([], 1)
  else do
    let cum ← constructCumLevels32 dims
    let size ← firstProduct32 cum dims
    return (cum, size)

/-- PotentialTableBase.cpp 1164-1170 and 1192-1198 `GetTableIndexByConfigValue`, the loop from `table_index = index`. -/
def indexFrom32 (index : Nat) : List Nat → List Nat → Except Fault Nat
  | c :: config, l :: cum => do
    let p ← mul32 c l
    let index ← add32 index p
    indexFrom32 index config cum
  | _, _ => .ok index

/-- PotentialTableBase.cpp 1164-1170 and 1192-1198 `GetTableIndexByConfigValue`. -/
def getIndex32 (config cum : List Nat) : Except Fault Nat := indexFrom32 0 config cum

/-- PotentialTableBase.cpp 537-545, 611-619, 823-831, 574-584 and 852-862: one round of the loop that finds the index `table_index[i]`.
`nv` and `nv'` are the numbers of variables of the tables with `cumFrom` and `cumTo`; `i * nv`, `i * nv + loc[j]` and `i * nv' + j` are
offsets in `full_config` and `partial_config`. -/
def transferIndex32 (nv nv' : Nat) (cumFrom : List Nat) (loc : List Nat) (cumTo : List Nat) (i : Nat) : Except Fault Nat := do
  let base ← mul32 i nv
  let base' ← mul32 i nv'
  let full ← getConfig cumFrom i
  let part ← (loc.zipIdx).mapM (fun (l, j) => do
    let _ ← add32 base l
    let _ ← add32 base' j
    rd full l)
  getIndex32 part cumTo

/-- PotentialTableBase.cpp 519-552 `TableMarginalization(vars, dims)`; 529-530 are the sizes of `full_config` and `partial_config`. -/
def tableMarginalization32 [Zero K] [Add K] (T : Table K) (vs dims : List Nat) : Except Fault (Table K) := do
  let (cum, size) ← shape32 dims
  let loc := vs.map (getVariableIndex T.vars)
  let _ ← mul32 T.size T.vars.length
  let _ ← mul32 T.size vs.length
  let tableIndex ← (List.range T.size).mapM (transferIndex32 T.vars.length vs.length T.cum loc cum)
  let pot ← scatterAdd (List.replicate size 0) tableIndex T.pot T.size
  return ⟨vs, dims, cum, size, pot⟩

/-- PotentialTableBase.cpp 803-850, 864-869 `TableExtension`; 814-815 are the sizes of `full_config` and `partial_config`. -/
def tableExtension32 (T : Table K) (vs dims : List Nat) : Except Fault (Table K) := do
  let cum ← constructCumLevels32 dims
  let size ← firstProduct32 cum dims
  let loc := T.vars.map (getVariableIndex vs)
  let _ ← mul32 size vs.length
  let _ ← mul32 size T.vars.length
  let tableIndex ← (List.range size).mapM (transferIndex32 vs.length T.vars.length cum loc T.cum)
  let pot ← tableIndex.mapM (rd T.pot)
  return ⟨vs, dims, cum, size, pot⟩

/-- PotentialTableBase.cpp 313-318 `TableReductionMain`, with the offsets in `full_config`. -/
def tableReductionMain32 (nv : Nat) (cum : List Nat) (loc : Nat) (i : Nat) : Except Fault Nat := do
  let base ← mul32 i nv
  let full ← getConfig cum i
  let _ ← add32 base loc
  rd full loc

/-- PotentialTableBase.cpp 275-362 `TableReduction`; 295 is the size of `full_config`. -/
def tableReduction32 [Zero K] (T : Table K) (eIndex eValue : Nat) : Except Fault (Table K) := do
  let loc := getVariableIndex T.vars eIndex
  let _ ← mul32 T.size T.vars.length
  let valueIndex ← (List.range T.size).mapM (tableReductionMain32 T.vars.length T.cum loc)
  let dim ← rd T.dims loc
  if dim = 0 then .error .ub
  else
    let newSize := T.size / dim
    let (pot, _) ← reductionCopy valueIndex eValue T.pot T.size (List.replicate newSize 0)
    if T.vars.length - 1 > 0 then
      let cum ← constructCumLevels32 (T.dims.eraseIdx loc)
      return ⟨T.vars.eraseIdx loc, T.dims.eraseIdx loc, cum, newSize, pot⟩
    else
      return ⟨[], [], [], 1, pot⟩

/-- JunctionTree.cpp 321-327, 396-402, 558-560, 583-584 and the corresponding lines of the other level loops: `cum_sum` and `final_sum`
for tables of the given sizes. -/
def levelSums32 (sizes : List Nat) : Except Fault (List Nat × Nat) :=
  sizes.foldlM (fun (st : List Nat × Nat) size => do
    let s ← add32 st.2 size
    return (st.1 ++ [st.2], s)) ([], 0)

/-- JunctionTree.cpp 380-450 `LoadEvidenceToNodesOptimized`: the tables of all cliques with the observed variable are reduced; before
that the sizes are added up.  (The loop over all entries is modelled as a loop over the tables, see C45.) -/
def reduceNodes32 [Zero K] (tables : List (Table K)) (index value : Nat) : Except Fault (List (Table K)) := do
  let _ ← levelSums32 (tables.map (·.size))
  tables.mapM (fun T => tableReduction32 T index value)

/-- CellTable.cpp 39-51: `cum_levels` (without its last entry, 1) and `dimz`. -/
def cumLevels3D32 (condDims : List Nat) : Except Fault (List Nat × Nat) :=
  if condDims.length > 1 then do
    let len := condDims.length
    let last ← rd condDims (len - 1)
    let c ← wr (List.replicate (len - 1) 0) (len - 2) last
    let cum ← (List.range (len - 2)).reverse.foldlM (fun c i => do
      let a ← rd c (i + 1)
      let d ← rd condDims (i + 1)
      let e ← mul32 a d
      wr c i e) c
    let a ← rd cum 0
    let d ← rd condDims 0
    let dimz ← mul32 a d
    return (cum, dimz)
  else do
    let d ← rd condDims 0
    return ([], d)

/-- CellTable.cpp 263 and 275-278: the number of the configuration of the conditioning variables in instance `k`. -/
def zIndex32 (cols : List (List Nat)) (cond cum : List Nat) (k : Nat) : Except Fault Nat :=
  if cond.length = 1 then do
    let v ← rd cond 0
    cell cols v k
  else do
    let v ← rd cond (cond.length - 1)
    let z ← cell cols v k
    (List.range (cond.length - 1)).foldlM (fun z j => do
      let v ← rd cond j
      let x ← cell cols v k
      let c ← rd cum j
      let p ← mul32 x c
      add32 z p) z

/-- CellTable.cpp 246, 264, 286: `z * dimx * dimy + x * dimy + y` -/
def cellIndex32 (dimx dimy z x y : Nat) : Except Fault Nat := do
  let a ← mul32 z dimx
  let a ← mul32 a dimy
  let b ← mul32 x dimy
  let a ← add32 a b
  add32 a y

/-- CellTable.cpp 254-291 `CountLevel1`, `CountLevelN`: the array `n`. -/
def countLevel32 (cols : List (List Nat)) (m dimx dimy x y : Nat) (cond cum : List Nat) (n : List Nat) : Except Fault (List Nat) :=
  (List.range m).foldlM (fun n k => do
    let xv ← cell cols x k
    let yv ← cell cols y k
    let z ← zIndex32 cols cond cum k
    let i ← cellIndex32 dimx dimy z xv yv
    incr n i) n

/-- CellTable.cpp 241-249: the marginals of one table. -/
def fillMarginals32 (dimx dimy dimz : Nat) (t : Counts) : Except Fault Counts :=
  (List.range dimz).foldlM (fun t k =>
    (List.range dimx).foldlM (fun t i =>
      (List.range dimy).foldlM (fun t j => do
        let c ← cellIndex32 dimx dimy k i j
        let o ← rd t.n c
        let a ← mul32 k dimx
        let a ← add32 a i
        let ni ← addAt t.ni a o
        let b ← mul32 k dimy
        let b ← add32 b j
        let nj ← addAt t.nj b o
        let nk ← addAt t.nk k o
        return { t with ni := ni, nj := nj, nk := nk }) t) t) t

/-- CellTable.cpp 23-72 `Counts3D` and 226-252 `FillTable`; 53-66 are the sizes of `n`, `ni` and `nj`. -/
def counts3D32 (cols : List (List Nat)) (m dimx dimy x y : Nat) (condDims cond : List Nat) : Except Fault (Counts × Nat) := do
  let (cum, dimz) ← cumLevels3D32 condDims
  let s ← mul32 dimz dimx
  let _ ← mul32 s dimy
  let _ ← mul32 dimz dimy
  let t := Counts.zero dimx dimy dimz
  let n ← countLevel32 cols m dimx dimy x y cond cum t.n
  let t ← fillMarginals32 dimx dimy dimz { t with n := n }
  return (t, dimz)

end FastPGM
