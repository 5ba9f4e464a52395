import Verif.Model.Int32
import Verif.Model.IndependenceTest

/-!
The tests of conditional independence with their sizes, offsets, indices and degrees of freedom computed in `int`
(see `Model/Int32.lean`).  Positions in `cond_indices`, which are below the length of a vector, are not bounded; neither are the counts
in the tables, which are at most the number of instances.
-/

namespace FastPGM

variable {K : Type}

/-- CellTable.cpp 174-194 `Counts2D`, 430-455 `FillTable`. -/
def counts2D32 (cols : List (List Nat)) (m dimx dimy x y : Nat) : Except Fault Counts := do
  let s ← mul32 dimx dimy
  let n ← (List.range m).foldlM (fun n k => do
    let xv ← cell cols x k
    let yv ← cell cols y k
    let a ← mul32 xv dimy
    let a ← add32 a yv
    incr n a) (List.replicate s 0)
  (List.range dimx).foldlM (fun t i =>
    (List.range dimy).foldlM (fun t j => do
      let a ← mul32 i dimy
      let a ← add32 a j
      let o ← rd t.n a
      let ni ← addAt t.ni i o
      let nj ← addAt t.nj j o
      return { t with ni := ni, nj := nj }) t) ⟨n, List.replicate dimx 0, List.replicate dimy 0, []⟩

/-- CellTable.cpp 103-118: `cum_levels` and `dimz` of a group. -/
def cumLevelsGroup32 (condDims : List Nat) (depth size : Nat) : Except Fault (List Nat × List Nat) :=
  if depth = 1 then .ok ([], condDims)
  else
    (List.range size).foldlM (fun (st : List Nat × List Nat) j => do
      let cum ← (if (j + 1) * depth = 0 then .error .ub else wr st.1 ((j + 1) * depth - 1) 1)
      let cum ← (List.range (depth - 1)).reverse.foldlM (fun c i => do
        let a ← rd c (j * depth + i + 1)
        let d ← rd condDims (j * depth + i + 1)
        let e ← mul32 a d
        wr c (j * depth + i) e) cum
      let a ← rd cum (j * depth)
      let d ← rd condDims (j * depth)
      let e ← mul32 a d
      return (cum, st.2 ++ [e])) (List.replicate condDims.length 0, [])

/-- CellTable.cpp 120-125: `cum_dims` and `dimz_total`. -/
def cumDims32 (dimz : List Nat) (size : Nat) : Except Fault (List Nat × Nat) := do
  let c ← wr (List.replicate size 0) 0 0
  let c ← (List.range (size - 1)).foldlM (fun c i => do
    let a ← rd c i
    let d ← rd dimz i
    let e ← add32 a d
    wr c (i + 1) e) c
  let a ← rd c (size - 1)
  let d ← rd dimz (size - 1)
  let e ← add32 a d
  return (c, e)

/-- CellTable.cpp 371 and 415-419. -/
def zIndexGroup32 (cols : List (List Nat)) (cond cum : List Nat) (depth i k : Nat) : Except Fault Nat :=
  if depth = 1 then do
    let v ← rd cond i
    cell cols v k
  else
    (List.range depth).foldlM (fun z j => do
      let v ← rd cond (i * depth + j)
      let x ← cell cols v k
      let c ← rd cum (i * depth + j)
      let p ← mul32 x c
      add32 z p) 0

/-- CellTable.cpp 310, 342, 384, IndependenceTest.cpp 208: `offset_xy`. -/
def offXY32 (dimx dimy o : Nat) : Except Fault Nat := do
  let a ← mul32 o dimx
  mul32 a dimy

/-- CellTable.cpp 373, 421: `z * dimx * dimy + x * dimy + y + offset_xy[i]`. -/
def cellIndexGroup32 (dimx dimy o z x y : Nat) : Except Fault Nat := do
  let a ← cellIndex32 dimx dimy z x y
  let b ← offXY32 dimx dimy o
  add32 a b

/-- CellTable.cpp 319, 321: `k * dim + i + offset[m]`. -/
def margIndex32 (dim o k i : Nat) : Except Fault Nat := do
  let a ← mul32 k dim
  let a ← add32 a i
  let b ← mul32 o dim
  add32 a b

/-- CellTable.cpp 339-427 `CountLevel1`, `CountLevelN` of a group.  The offsets are computed before the loop (340-343, 382-385) as well. -/
def countLevelGroup32 (cols : List (List Nat)) (m dimx dimy x y : Nat) (cond cum : List Nat) (depth size : Nat) (off : List Nat)
    (n : List Nat) : Except Fault (List Nat) := do
  let _ ← (List.range size).mapM (fun i => do offXY32 dimx dimy (← rd off i))
  (List.range m).foldlM (fun n k => do
    let xv ← cell cols x k
    let yv ← cell cols y k
    (List.range size).foldlM (fun n i => do
      let z ← zIndexGroup32 cols cond cum depth i k
      let o ← rd off i
      let a ← cellIndexGroup32 dimx dimy o z xv yv
      incr n a) n) n

/-- CellTable.cpp 306-328: the marginals of all tables of a group. -/
def fillMarginalsGroup32 (dimx dimy size : Nat) (dimz off : List Nat) (t : Counts) : Except Fault Counts := do
  let _ ← (List.range size).mapM (fun i => do
    let o ← rd off i
    let a ← offXY32 dimx dimy o
    let b ← mul32 o dimx
    let c ← mul32 o dimy
    return (a, b, c))
  (List.range size).foldlM (fun t m => do
    let d ← rd dimz m
    let o ← rd off m
    (List.range d).foldlM (fun t k =>
      (List.range dimx).foldlM (fun t i =>
        (List.range dimy).foldlM (fun t j => do
          let a ← cellIndexGroup32 dimx dimy o k i j
          let c ← rd t.n a
          let a ← margIndex32 dimx o k i
          let ni ← addAt t.ni a c
          let a ← margIndex32 dimy o k j
          let nj ← addAt t.nj a c
          let a ← add32 k o
          let nk ← addAt t.nk a c
          return { t with ni := ni, nj := nj, nk := nk }) t) t) t) t

/-- CellTable.cpp 93-150 `Counts3DGroup` (127-149 are the sizes of the arrays) and 293-337 `FillTableGroup`. -/
def counts3DGroup32 (cols : List (List Nat)) (m dimx dimy x y : Nat) (condDims cond : List Nat) (size : Nat) :
    Except Fault (Counts × List Nat × List Nat) :=
  if size = 0 then .error .ub
  else do
    let depth := condDims.length / size
    let (cum, dimz) ← cumLevelsGroup32 condDims depth size
    let (off, total) ← cumDims32 dimz size
    let s ← mul32 total dimx
    let _ ← mul32 s dimy
    let _ ← mul32 total dimy
    let t := Counts.zero dimx dimy total
    let n ← countLevelGroup32 cols m dimx dimy x y cond cum depth size off t.n
    let t ← fillMarginalsGroup32 dimx dimy size dimz off { t with n := n }
    return (t, dimz, off)

/-- IndependenceTest.cpp 97-102 and 206-211: how many of the entries of configuration `k` are positive. -/
def positives32 (l : List Nat) (dim off k : Nat) : Except Fault Nat :=
  (List.range dim).foldlM (fun c i => do
    let a ← margIndex32 dim off k i
    let v ← rd l a
    add32 c (if v > 0 then 1 else 0)) 0

/-- IndependenceTest.cpp 93-137 (`off = 0`) and 202-254: one configuration `k`. -/
def gSquareStratum32 [Field K] (log : K → K) (t : Counts) (dimx dimy off : Nat) (st : K × Nat) (k : Nat) : Except Fault (K × Nat) := do
  let alx ← positives32 t.ni dimx off k
  let aly ← positives32 t.nj dimy off k
  let alx := if alx ≥ 1 then alx else 1
  let aly := if aly ≥ 1 then aly else 1
  let p ← mul32 (alx - 1) (aly - 1)
  let df ← add32 st.2 p
  let a ← add32 k off
  let total ← rd t.nk a
  if total = 0 then return (st.1, df)
  else do
    let g2 ← (List.range dimx).foldlM (fun g2 i => do
      let a ← margIndex32 dimx off k i
      let row ← rd t.ni a
      if row = 0 then return g2
      else
        (List.range dimy).foldlM (fun g2 j => do
          let a ← margIndex32 dimy off k j
          let col ← rd t.nj a
          let a ← cellIndexGroup32 dimx dimy off k i j
          let observed ← rd t.n a
          if col = 0 ∨ observed = 0 then return g2
          else do
            let expected : K := (col : K) * (row : K) / (total : K)
            return g2 + 2 * (observed : K) * log ((observed : K) / expected)) g2) st.1
    return (g2, df)

/-- IndependenceTest.cpp 65-155 `ComputeGSquareXYZ`. -/
def gSquareXYZ32 [Field K] [LinearOrder K] (log : K → K) (pchisq : K → Nat → Option K) (alpha : K) (dims : List Nat)
    (cols : List (List Nat)) (m x y : Nat) (z : List Nat) : Except Fault (CIResult K) := do
  let dimx ← rd dims x
  let dimy ← rd dims y
  let condDims ← z.mapM (rd dims)
  let (t, dimz) ← counts3D32 cols m dimx dimy x y condDims z
  let (g2, df) ← (List.range dimz).foldlM (gSquareStratum32 log t dimx dimy 0) ((0 : K), 0)
  if df = 0 then return ⟨some 1, true, some 0⟩
  else do
    let p := pValue pchisq g2 df
    return ⟨p, exceeds p alpha, some 0⟩

/-- IndependenceTest.cpp 163-287 `ComputeGSquareXYZGroup`; the offsets of all tables (204-211) are computed for each of them. -/
def gSquareXYZGroup32 [Field K] [LinearOrder K] (log : K → K) (pchisq : K → Nat → Option K) (alpha : K) (dims : List Nat)
    (cols : List (List Nat)) (m x y : Nat) (z : List Nat) (size : Nat) : Except Fault (CIResult K) := do
  let dimx ← rd dims x
  let dimy ← rd dims y
  let condDims ← z.mapM (rd dims)
  let (t, dimz, off) ← counts3DGroup32 cols m dimx dimy x y condDims z size
  let results ← (List.range size).foldlM (fun (results : List Bool) e => do
    let d ← rd dimz e
    let o ← rd off e
    let (g2, df) ← (List.range d).foldlM (gSquareStratum32 log t dimx dimy o) ((0 : K), 0)
    let results ← (if df = 0 then wr results e true else .ok results)
    wr results e (exceeds (pValue pchisq g2 df) alpha)) (List.replicate 8 false)
  match (List.range size).find? (fun e => results.getD e false) with
  | some e => return ⟨some (-1), true, some e⟩
  | none => return ⟨some 0, false, none⟩

/-- IndependenceTest.cpp 295-364 `ComputeGSquareXY`. -/
def gSquareXY32 [Field K] [LinearOrder K] (log : K → K) (pchisq : K → Nat → Option K) (alpha : K) (dims : List Nat)
    (cols : List (List Nat)) (m x y : Nat) : Except Fault (CIResult K) := do
  let dimx ← rd dims x
  let dimy ← rd dims y
  let t ← counts2D32 cols m dimx dimy x y
  let (g2, df) ← gSquareStratum32 log { t with nk := [m] } dimx dimy 0 ((0 : K), 0) 0
  if df = 0 then return ⟨some 1, true, none⟩
  else do
    let p := pValue pchisq g2 df
    return ⟨p, exceeds p alpha, none⟩

/-- IndependenceTest.cpp 35-58 `IndependenceResult` for the metric "g square". -/
def independenceResult32 [Field K] [LinearOrder K] (log : K → K) (pchisq : K → Nat → Option K) (alpha : K) (dims : List Nat)
    (cols : List (List Nat)) (m x y : Nat) (z : List Nat) (size : Nat) : Except Fault (CIResult K) :=
  if z = [] then gSquareXY32 log pchisq alpha dims cols m x y
  else if size > 1 then gSquareXYZGroup32 log pchisq alpha dims cols m x y z size
  else gSquareXYZ32 log pchisq alpha dims cols m x y z

end FastPGM
