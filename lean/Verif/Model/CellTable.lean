import Verif.Model.Params

/-!
Model of the contingency tables of src/fastpgm/structure_learning/CellTable.cpp.

The data set is `cols` (`dataset_columns`, one list per variable) with `m` instances (`num_instance`).  Arrays obtained with `new int[]`
are modelled as filled with 0; that every entry of the arrays the code does not clear itself (`cum_levels`, `cum_dims`, the offsets) is
written before it is read is C113 (Verif/Model/TestMemory.lean).
-/

namespace FastPGM

/-- `v[i] += x` -/
def addAt (l : List Nat) (i x : Nat) : Except Fault (List Nat) := do
  let y ← rd l i
  wr l i (y + x)

/-- `dataset->dataset_columns[v][k]` -/
def cell (cols : List (List Nat)) (v k : Nat) : Except Fault Nat := do
  let col ← rd cols v
  rd col k

/-- CellTable.h: the four arrays `n`, `ni`, `nj`, `nk`. -/
structure Counts where
  n : List Nat
  ni : List Nat
  nj : List Nat
  nk : List Nat
  deriving DecidableEq, Repr

/-- CellTable.cpp 53-71 and 126-149: the cleared arrays for `dimz` configurations of the conditioning variables. -/
def Counts.zero (dimx dimy dimz : Nat) : Counts :=
  ⟨List.replicate (dimz * dimx * dimy) 0, List.replicate (dimz * dimx) 0, List.replicate (dimz * dimy) 0, List.replicate dimz 0⟩

/-- CellTable.cpp 39-51: `cum_levels` (without its last entry, 1) and `dimz`. -/
def cumLevels3D (condDims : List Nat) : Except Fault (List Nat × Nat) :=
  if condDims.length > 1 then do
    let len := condDims.length
    let last ← rd condDims (len - 1)
    let c ← wr (List.replicate (len - 1) 0) (len - 2) last
    let cum ← (List.range (len - 2)).reverse.foldlM (fun c i => do
      let a ← rd c (i + 1)
      let d ← rd condDims (i + 1)
      wr c i (a * d)) c
    let a ← rd cum 0
    let d ← rd condDims 0
    return (cum, a * d)
  else do
    let d ← rd condDims 0
    return ([], d)

/-- CellTable.cpp 263 and 275-278: the number of the configuration of the conditioning variables in instance `k`
(`CountLevel1` for one variable, `CountLevelN` otherwise). -/
def zIndex (cols : List (List Nat)) (cond cum : List Nat) (k : Nat) : Except Fault Nat :=
  if cond.length = 1 then do
    let v ← rd cond 0
    cell cols v k
  else do
    let v ← rd cond (cond.length - 1)
    let z ← cell cols v k
    (List.range (cond.length - 1)).foldlM (fun z j => do
      let v ← rd cond j
      let x ← cell cols v k
      let c ← rd cum j
      return z + x * c) z

/-- CellTable.cpp 254-291 `CountLevel1`, `CountLevelN`: the array `n`. -/
def countLevel (cols : List (List Nat)) (m dimx dimy x y : Nat) (cond cum : List Nat) (n : List Nat) : Except Fault (List Nat) :=
  (List.range m).foldlM (fun n k => do
    let xv ← cell cols x k
    let yv ← cell cols y k
    let z ← zIndex cols cond cum k
    incr n (z * dimx * dimy + xv * dimy + yv)) n

/-- CellTable.cpp 241-249: the marginals of one table. -/
def fillMarginals (dimx dimy dimz : Nat) (t : Counts) : Except Fault Counts :=
  (List.range dimz).foldlM (fun t k =>
    (List.range dimx).foldlM (fun t i =>
      (List.range dimy).foldlM (fun t j => do
        let o ← rd t.n (k * dimx * dimy + i * dimy + j)
        let ni ← addAt t.ni (k * dimx + i) o
        let nj ← addAt t.nj (k * dimy + j) o
        let nk ← addAt t.nk k o
        return { t with ni := ni, nj := nj, nk := nk }) t) t) t

/-- CellTable.cpp 23-72 `Counts3D` and 226-252 `FillTable`: the filled table and `dimz`. -/
def counts3D (cols : List (List Nat)) (m dimx dimy x y : Nat) (condDims cond : List Nat) : Except Fault (Counts × Nat) := do
  let (cum, dimz) ← cumLevels3D condDims
  let t := Counts.zero dimx dimy dimz
  let n ← countLevel cols m dimx dimy x y cond cum t.n
  let t ← fillMarginals dimx dimy dimz { t with n := n }
  return (t, dimz)

/-- CellTable.cpp 174-194 `Counts2D` and 430-455 `FillTable`.  There is no `nk`. -/
def counts2D (cols : List (List Nat)) (m dimx dimy x y : Nat) : Except Fault Counts := do
  let n ← (List.range m).foldlM (fun n k => do
    let xv ← cell cols x k
    let yv ← cell cols y k
    incr n (xv * dimy + yv)) (List.replicate (dimx * dimy) 0)
  (List.range dimx).foldlM (fun t i =>
    (List.range dimy).foldlM (fun t j => do
      let o ← rd t.n (i * dimy + j)
      let ni ← addAt t.ni i o
      let nj ← addAt t.nj j o
      return { t with ni := ni, nj := nj }) t) ⟨n, List.replicate dimx 0, List.replicate dimy 0, []⟩

/-- CellTable.cpp 103-118: `cum_levels` and `dimz` of a group of conditioning sets of `depth` variables each. -/
def cumLevelsGroup (condDims : List Nat) (depth size : Nat) : Except Fault (List Nat × List Nat) :=
  if depth = 1 then .ok ([], condDims)
  else
    (List.range size).foldlM (fun (st : List Nat × List Nat) j => do
      let cum ← (if (j + 1) * depth = 0 then .error .ub else wr st.1 ((j + 1) * depth - 1) 1)
      let cum ← (List.range (depth - 1)).reverse.foldlM (fun c i => do
        let a ← rd c (j * depth + i + 1)
        let d ← rd condDims (j * depth + i + 1)
        wr c (j * depth + i) (a * d)) cum
      let a ← rd cum (j * depth)
      let d ← rd condDims (j * depth)
      return (cum, st.2 ++ [a * d])) (List.replicate condDims.length 0, [])

/-- CellTable.cpp 120-125: `cum_dims` and `dimz_total`. -/
def cumDims (dimz : List Nat) (size : Nat) : Except Fault (List Nat × Nat) := do
  let c ← wr (List.replicate size 0) 0 0
  let c ← (List.range (size - 1)).foldlM (fun c i => do
    let a ← rd c i
    let d ← rd dimz i
    wr c (i + 1) (a + d)) c
  let a ← rd c (size - 1)
  let d ← rd dimz (size - 1)
  return (c, a + d)

/-- CellTable.cpp 371 and 415-419: the number of the configuration of the `i`-th conditioning set of the group in instance `k`. -/
def zIndexGroup (cols : List (List Nat)) (cond cum : List Nat) (depth i k : Nat) : Except Fault Nat :=
  if depth = 1 then do
    let v ← rd cond i
    cell cols v k
  else
    (List.range depth).foldlM (fun z j => do
      let v ← rd cond (i * depth + j)
      let x ← cell cols v k
      let c ← rd cum (i * depth + j)
      return z + x * c) 0

/-- CellTable.cpp 339-427 `CountLevel1`, `CountLevelN` of a group: one pass over the instances fills all tables. -/
def countLevelGroup (cols : List (List Nat)) (m dimx dimy x y : Nat) (cond cum : List Nat) (depth size : Nat) (off : List Nat)
    (n : List Nat) : Except Fault (List Nat) :=
  (List.range m).foldlM (fun n k => do
    let xv ← cell cols x k
    let yv ← cell cols y k
    (List.range size).foldlM (fun n i => do
      let z ← zIndexGroup cols cond cum depth i k
      let o ← rd off i
      incr n (z * dimx * dimy + xv * dimy + yv + o * dimx * dimy)) n) n

/-- CellTable.cpp 308-326: the marginals of all tables of a group. -/
def fillMarginalsGroup (dimx dimy size : Nat) (dimz off : List Nat) (t : Counts) : Except Fault Counts :=
  (List.range size).foldlM (fun t m => do
    let d ← rd dimz m
    let o ← rd off m
    (List.range d).foldlM (fun t k =>
      (List.range dimx).foldlM (fun t i =>
        (List.range dimy).foldlM (fun t j => do
          let c ← rd t.n (k * dimx * dimy + i * dimy + j + o * dimx * dimy)
          let ni ← addAt t.ni (k * dimx + i + o * dimx) c
          let nj ← addAt t.nj (k * dimy + j + o * dimy) c
          let nk ← addAt t.nk (k + o) c
          return { t with ni := ni, nj := nj, nk := nk }) t) t) t) t

/-- CellTable.cpp 93-150 `Counts3DGroup` and 293-337 `FillTableGroup`: the filled tables, `dimz` and `cum_dims`. -/
def counts3DGroup (cols : List (List Nat)) (m dimx dimy x y : Nat) (condDims cond : List Nat) (size : Nat) :
    Except Fault (Counts × List Nat × List Nat) :=
  if size = 0 then .error .ub
  else do
    let depth := condDims.length / size
    let (cum, dimz) ← cumLevelsGroup condDims depth size
    let (off, total) ← cumDims dimz size
    let t := Counts.zero dimx dimy total
    let n ← countLevelGroup cols m dimx dimy x y cond cum depth size off t.n
    let t ← fillMarginalsGroup dimx dimy size dimz off { t with n := n }
    return (t, dimz, off)

end FastPGM
